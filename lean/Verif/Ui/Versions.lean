import Verif.Common.Str

/-!
# The list of versions of the web console (C130)

Models the dialog with the versions of an object in src/adminserver/ui/src/pages/metadata.vue: `versionReq`, `versionList` and
`showVersionTb` (lines 117-120), `queryVersion` (140-152), the watcher of the page (161-163), the buttons `See Versions` (217-224) and
`Download` (269-272), and the dialog itself (components/ModalTemplate.vue), whose title is the same for all objects.

Simplified: the pager is C116 (here any page can be chosen); the size of a page does not change (the `select` of the dialog is bound to
nothing, metadata.vue:97-99); the request has the values of the moment of the call; how a download is sent is C118.
-/

namespace Verif.Ui.Versions

open Verif

/-- Name and bucket. -/
abbrev Obj := Str × Str

/-- What a request for versions asks for, api/metadata.ts `versionPage`. -/
structure Query where
  obj : Obj
  page : Nat
  deriving DecidableEq

/-- metadata.vue:117-120 and what the page has sent.  `α` is a version as the server sends it; `seq` in `step` is its number. -/
structure St (α : Type) where
  /-- `versionReq` -/
  obj : Obj := ([], [])
  page : Nat := 1
  /-- `versionList` -/
  rows : List α := []
  /-- `showVersionTb` -/
  shown : Bool := false
  /-- requests that are on their way, in the order of sending -/
  pend : List Query := []
  /-- downloads asked for -/
  sent : List (Obj × Nat) := []

inductive Ev (α : Type)
  /-- `See Versions` of an object; the button is behind the dialog while that is shown -/
  | see (o : Obj)
  | turn (page : Nat)
  /-- the `i`-th request is answered with these rows -/
  | answer (i : Nat) (rows : List α)
  | fail (i : Nat)
  | close
  /-- `Download` of a row -/
  | download (row : Nat)

/-- `queryVersion`, metadata.vue:140-143; the request is made of the fields set just before. -/
def query {α : Type} (s : St α) (o : Obj) : St α := { s with obj := o, pend := s.pend ++ [⟨o, s.page⟩] }

/-- metadata.vue:143-152 (answers), 161-163 (`turn`), 217-224 (`see`), 269-272 (`download`); ModalTemplate.vue (`close`). -/
def step {α : Type} (seq : α → Nat) (s : St α) : Ev α → St α
  | .see o => if s.shown then s else query s o
  | .turn p => if s.shown && p != s.page then query { s with page := p } s.obj else s
  | .answer i rows => if i < s.pend.length then { s with pend := s.pend.eraseIdx i, rows := rows, shown := true } else s
  | .fail i => { s with pend := s.pend.eraseIdx i }
  | .close => { s with shown := false }
  | .download r =>
    if s.shown then
      match s.rows[r]? with
      | some v => { s with sent := s.sent ++ [(s.obj, seq v)] }
      | none => s
    else s

def run {α : Type} (seq : α → Nat) (s : St α) (es : List (Ev α)) : St α := es.foldl (step seq) s

/-! ## Specification

What is on the screen, told from the events: the request whose answer came last and its rows.  It does not look at the state of the
page except for the requests on their way. -/

/-- The rows shown, with the request they answer. -/
def shows {α : Type} (seq : α → Nat) : St α → Option (Query × List α) → List (Ev α) → Option (Query × List α)
  | _, x, [] => x
  | s, x, e :: es =>
    let x' := match e with
      | .answer i rows => match s.pend[i]? with
        | some q => some (q, rows)
        | none => x
      | _ => x
    shows seq (step seq s e) x' es

/-- What the presses of `Download` should ask for: the object whose rows are shown, and the number in the row. -/
def wanted {α : Type} (seq : α → Nat) : St α → Option (Query × List α) → List (Ev α) → List (Obj × Nat)
  | _, _, [] => []
  | s, x, e :: es =>
    let now := match e, x with
      | .download r, some (q, rows) => if s.shown then (rows[r]?).toList.map fun v => (q.obj, seq v) else []
      | _, _ => []
    now ++ wanted seq (step seq s e) (shows seq s x [e]) es

/-- The property: every download is of the object and the version that was pressed. -/
def Right {α : Type} (seq : α → Nat) (es : List (Ev α)) : Prop := (run seq {} es).sent = wanted seq {} none es

/-- No request for versions is sent while another one is on its way. -/
def OneByOne {α : Type} (seq : α → Nat) : St α → List (Ev α) → Prop
  | _, [] => True
  | s, e :: es => (match e with | .see _ | .turn _ => s.pend = [] | _ => True) ∧ OneByOne seq (step seq s e) es

/-! ## Proofs -/

/-- The rows of the page are the rows shown. -/
structure Seen {α : Type} (s : St α) (x : Option (Query × List α)) : Prop where
  rows : ∀ q r, x = some (q, r) → s.rows = r
  none : x = none → s.shown = false

theorem seen_step {α : Type} (seq : α → Nat) {s : St α} {x : Option (Query × List α)} (h : Seen s x) (e : Ev α) :
    Seen (step seq s e) (shows seq s x [e]) := by
  obtain ⟨h1, h2⟩ := h
  cases e with
  | see o =>
    unfold step shows shows query; dsimp only
    split
    · exact ⟨h1, h2⟩
    · exact ⟨h1, h2⟩
  | turn p =>
    unfold step shows shows query; dsimp only
    split
    · exact ⟨h1, h2⟩
    · exact ⟨h1, h2⟩
  | answer i rows =>
    unfold step shows shows; dsimp only
    by_cases hi : i < s.pend.length
    · rw [if_pos hi, List.getElem?_eq_getElem hi]
      refine ⟨fun q r hq => ?_, fun hn => ?_⟩
      · simp only [Option.some.injEq, Prod.mk.injEq] at hq; exact hq.2
      · cases hn
    · rw [if_neg hi, List.getElem?_eq_none (by omega)]
      exact ⟨h1, h2⟩
  | fail i => exact ⟨h1, h2⟩
  | close => exact ⟨h1, fun _ => rfl⟩
  | download r =>
    unfold step shows shows; dsimp only
    split
    · split
      · exact ⟨h1, h2⟩
      · exact ⟨h1, h2⟩
    · exact ⟨h1, h2⟩

/-- One request at a time: while the dialog is shown, its rows are those of the object of `versionReq`, and so are those on their way. -/
structure Own {α : Type} (s : St α) (x : Option (Query × List α)) : Prop where
  shown : s.shown = true → ∀ q r, x = some (q, r) → q.obj = s.obj
  pend : ∀ q ∈ s.pend, q.obj = s.obj
  one : s.pend.length ≤ 1

theorem own_step {α : Type} (seq : α → Nat) {s : St α} {x : Option (Query × List α)} (h : Own s x) (e : Ev α)
    (hone : match e with | .see _ | .turn _ => s.pend = [] | _ => True) : Own (step seq s e) (shows seq s x [e]) := by
  obtain ⟨h1, h2, h3⟩ := h
  cases e with
  | see o =>
    have hone : s.pend = [] := hone
    unfold step shows shows query; dsimp only
    split
    · exact ⟨h1, h2, h3⟩
    · rename_i hs
      refine ⟨fun hx => absurd hx hs, fun q hq => ?_, by simp [hone]⟩
      dsimp only at hq
      rw [hone] at hq
      simp only [List.nil_append, List.mem_singleton] at hq
      rw [hq]
  | turn p =>
    have hone : s.pend = [] := hone
    unfold step shows shows query; dsimp only
    split
    · refine ⟨h1, fun q hq => ?_, by simp [hone]⟩
      dsimp only at hq
      rw [hone] at hq
      simp only [List.nil_append, List.mem_singleton] at hq
      rw [hq]
    · exact ⟨h1, h2, h3⟩
  | answer i rows =>
    unfold step shows shows; dsimp only
    by_cases hi : i < s.pend.length
    · rw [if_pos hi, List.getElem?_eq_getElem hi]
      refine ⟨fun _ q r hq => ?_, fun q hq => h2 q (List.mem_of_mem_eraseIdx hq), ?_⟩
      · simp only [Option.some.injEq, Prod.mk.injEq] at hq
        rw [← hq.1]
        exact h2 _ (List.getElem_mem hi)
      · have := List.length_eraseIdx_of_lt hi
        dsimp only
        omega
    · rw [if_neg hi, List.getElem?_eq_none (by omega)]
      exact ⟨h1, h2, h3⟩
  | fail i =>
    refine ⟨h1, fun q hq => h2 q (List.mem_of_mem_eraseIdx hq), ?_⟩
    have := List.length_eraseIdx_le s.pend i
    show (s.pend.eraseIdx i).length ≤ 1
    omega
  | close => exact ⟨(fun hx => by cases hx), h2, h3⟩
  | download r =>
    unfold step shows shows; dsimp only
    split
    · split
      · exact ⟨h1, h2, h3⟩
      · exact ⟨h1, h2, h3⟩
    · exact ⟨h1, h2, h3⟩

/-- A press of `Download` asks for the object asked about last and a version shown. -/
theorem sent_step {α : Type} (seq : α → Nat) (s : St α) (e : Ev α) :
    (step seq s e).sent = s.sent ++ (match e with
      | .download r => if s.shown then (s.rows[r]?).toList.map fun v => (s.obj, seq v) else []
      | _ => []) := by
  cases e with
  | download r =>
    unfold step; dsimp only
    split
    · cases s.rows[r]? <;> simp
    · simp
  | see o => unfold step query; dsimp only; split <;> simp
  | turn p => unfold step query; dsimp only; split <;> simp
  | answer i rows => unfold step; dsimp only; split <;> simp
  | fail i => simp [step]
  | close => simp [step]

theorem shows_cons {α : Type} (seq : α → Nat) (s : St α) (x : Option (Query × List α)) (e : Ev α) (es : List (Ev α)) :
    shows seq s x (e :: es) = shows seq (step seq s e) (shows seq s x [e]) es := rfl

theorem right_of {α : Type} (seq : α → Nat) (es : List (Ev α)) : ∀ (s : St α) (x : Option (Query × List α)), Seen s x → Own s x →
    OneByOne seq s es → (run seq s es).sent = s.sent ++ wanted seq s x es := by
  induction es with
  | nil => intro s x _ _ _; simp [run, wanted]
  | cons e es ih =>
    intro s x hs ho hone
    have := ih _ _ (seen_step seq hs e) (own_step seq ho e hone.1) hone.2
    show (run seq (step seq s e) es).sent = _
    rw [this, sent_step, List.append_assoc]
    congr 1
    show _ = _ ++ wanted seq (step seq s e) (shows seq s x [e]) es
    congr 1
    cases e with
    | download r =>
      dsimp only
      cases x with
      | none => rw [hs.none rfl]; rfl
      | some y =>
        obtain ⟨q, rows⟩ := y
        dsimp only
        by_cases hsh : s.shown = true
        · rw [if_pos hsh, if_pos hsh, hs.rows q rows rfl, ho.shown hsh q rows rfl]
        · rw [if_neg hsh, if_neg hsh]
    | _ => rfl

/-- Downloads are right if no request for versions is sent before the one before is answered or has failed. -/
theorem C130_partial {α : Type} (seq : α → Nat) (es : List (Ev α)) (h : OneByOne seq {} es) : Right seq es := by
  have := right_of seq es {} none ⟨(fun _ _ h => by cases h), fun _ => rfl⟩ ⟨(fun h => by cases h), (fun _ h => by cases h), by simp⟩ h
  unfold Right
  rw [this]
  rfl

/-- What a press asks for in general: a number shown, with the object that was asked about last. -/
theorem C130_exact {α : Type} (seq : α → Nat) (es : List (Ev α)) (r : Nat) :
    (run seq {} (es ++ [.download r])).sent = (run seq {} es).sent ++
      (if (run seq {} es).shown then (((shows seq {} none es).bind fun x => x.2[r]?).toList.map fun v => ((run seq {} es).obj, seq v)) else []) := by
  have key : ∀ (es : List (Ev α)) (s : St α) (x : Option (Query × List α)), Seen s x → Seen (run seq s es) (shows seq s x es) := by
    intro es
    induction es with
    | nil => intro s x h; exact h
    | cons e es ih => intro s x h; rw [shows_cons]; exact ih _ _ (seen_step seq h e)
  have hk := key es {} none ⟨(fun _ _ h => by cases h), fun _ => rfl⟩
  have hap : run seq {} (es ++ [.download r]) = step seq (run seq {} es) (.download r) := by
    unfold run
    rw [List.foldl_append]
    rfl
  rw [hap, sent_step]
  congr 1
  dsimp only
  cases hx : shows seq {} none es with
  | none => rw [hk.none hx]; simp
  | some y =>
    obtain ⟨q, rows⟩ := y
    rw [hk.rows q rows hx]
    rfl

/-- The object asked about last, told from the events. -/
theorem C130_last_asked {α : Type} (seq : α → Nat) (es : List (Ev α)) (o : Obj) (rest : List (Ev α))
    (h : (run seq {} es).shown = false) (hr : ∀ e ∈ rest, ∀ o', e ≠ .see o') :
    (run seq {} (es ++ .see o :: rest)).obj = o := by
  have key : ∀ (rest : List (Ev α)) (s : St α), (∀ e ∈ rest, ∀ o', e ≠ .see o') → (run seq s rest).obj = s.obj := by
    intro rest
    induction rest with
    | nil => intro s _; rfl
    | cons e rest ih =>
      intro s hr
      show (run seq (step seq s e) rest).obj = _
      rw [ih _ fun e' h => hr e' (by simp [h])]
      cases e with
      | see o' => exact absurd rfl (hr _ (by simp) o')
      | turn p => unfold step query; dsimp only; split <;> rfl
      | answer i rows => unfold step; dsimp only; split <;> rfl
      | fail i => rfl
      | close => rfl
      | download r =>
        unfold step; dsimp only
        split
        · split <;> rfl
        · rfl
  unfold run
  rw [List.foldl_append]
  show (run seq (step seq (run seq {} es) (.see o)) rest).obj = o
  rw [key rest _ hr]
  unfold step query
  dsimp only
  rw [if_neg (by simp [h])]

/-! ## Cases -/

abbrev E := Ev Nat

def objA : Obj := (['a'], ['x'])
def objB : Obj := (['b'], ['x'])

example : OneByOne id {} ([.see objA, .answer 0 [3, 2, 1], .download 1, .turn 2, .fail 0, .close, .see objB, .answer 0 [7], .download 0] : List E) := by
  refine ⟨rfl, trivial, trivial, rfl, trivial, trivial, rfl, trivial, trivial, trivial⟩
example : (run id {} ([.see objA, .answer 0 [3, 2, 1], .download 1, .turn 2, .fail 0, .close, .see objB, .answer 0 [7], .download 0] : List E)).sent =
    [(objA, 2), (objB, 7)] := by decide

/-- Pressing `See Versions` of two objects: the rows of the first one are shown, and a download takes the version with this number of the
other one. -/
theorem C130_other_object (a b : Obj) (v : Nat) :
    (run id {} ([.see a, .see b, .answer 0 [v], .download 0] : List E)).sent = [(b, v)] ∧
    wanted id {} none ([.see a, .see b, .answer 0 [v], .download 0] : List E) = [(a, v)] := ⟨rfl, rfl⟩

/-- The same for ever, when the answers come in the other order or the second request fails. -/
theorem C130_stays (a b : Obj) (v w : Nat) (n : Nat) :
    (run id {} ([.see a, .see b, .answer 1 [w], .answer 0 [v]] ++ List.replicate n (.download 0) : List E)).sent = List.replicate n (b, v) ∧
    (run id {} ([.see a, .see b, .answer 0 [v], .fail 0] ++ List.replicate n (.download 0) : List E)).sent = List.replicate n (b, v) := by
  have key : ∀ (n : Nat) (s : St Nat), s.obj = b → s.rows = [v] → s.shown = true →
      (run id s (List.replicate n (.download 0))).sent = s.sent ++ List.replicate n (b, v) := by
    intro n
    induction n with
    | zero => intro s _ _ _; simp [run]
    | succ n ih =>
      intro s h1 h2 h3
      have hst : step id s (.download 0) = { s with sent := s.sent ++ [(b, v)] } := by
        unfold step
        dsimp only
        rw [if_pos h3, h2, h1]
        rfl
      rw [List.replicate_succ]
      show (run id (step id s (.download 0)) _).sent = _
      rw [hst]
      refine (ih { s with sent := s.sent ++ [(b, v)] } h1 h2 h3).trans ?_
      rw [List.replicate_succ]
      simp
  constructor
  · unfold run
    rw [List.foldl_append]
    exact (key n _ rfl rfl rfl).trans (by rfl)
  · unfold run
    rw [List.foldl_append]
    exact (key n _ rfl rfl rfl).trans (by rfl)

/-- A dialog that was closed opens again when a late answer comes. -/
theorem C130_reopens (o : Obj) (rows rows' : List Nat) (p : Nat) (hp : p ≠ 1) :
    (run id {} ([.see o, .answer 0 rows, .turn p, .close, .answer 0 rows'] : List E)).shown = true := by
  have h : (p != 1) = true := by simpa using hp
  simp [run, step, query, h]

/-- The page is kept from object to object: after the page `p` of one object, the page `p` of the next one is asked for. -/
theorem C130_page_kept {α : Type} (seq : α → Nat) (es : List (Ev α)) (h : (run seq {} es).shown = false) (o : Obj) :
    (run seq {} (es ++ [.see o])).pend = (run seq {} es).pend ++ [⟨o, (run seq {} es).page⟩] := by
  unfold run
  rw [List.foldl_append]
  show (step seq (run seq {} es) (.see o)).pend = _
  unfold step query
  dsimp only
  rw [if_neg (by simp [h])]
  rfl

example : (run id {} ([.see objA, .answer 0 [30, 29], .turn 3, .answer 0 [10], .close, .see objB] : List E)).pend = [⟨objB, 3⟩] := by decide

theorem C130_statement_fails : ¬ ∀ es : List E, Right id es := by
  intro h
  have h1 := h [.see objA, .see objB, .answer 0 [1], .download 0]
  unfold Right at h1
  revert h1
  decide

/-! ## The repair: rows and object are set together

`queryVersion` that sets the object together with the rows, when the answer comes. -/

/-- The state with the object of the rows shown. -/
def fixedStep {α : Type} (seq : α → Nat) (s : St α) : Ev α → St α
  | .see o => if s.shown then s else { s with pend := s.pend ++ [⟨o, s.page⟩] }
  | .answer i rows =>
    match s.pend[i]? with
    | some q => { s with pend := s.pend.eraseIdx i, rows := rows, shown := true, obj := q.obj, page := q.page }
    | none => s
  | .turn p => if s.shown && p != s.page then { s with pend := s.pend ++ [⟨s.obj, p⟩] } else s
  | e => step seq s e

/-- Then whatever was sent last was an entry of the rows of one answer, for the object of that answer. -/
theorem C130_repair {α : Type} (seq : α → Nat) (es : List (Ev α)) (o : Obj) (v : Nat)
    (h : (o, v) ∈ (es.foldl (fixedStep seq) {}).sent) :
    ∃ pre i rows post q, es = pre ++ .answer i rows :: post ∧ (pre.foldl (fixedStep seq) {}).pend[i]? = some q ∧ q.obj = o ∧
      ∃ x ∈ rows, seq x = v := by
  have key : ∀ (n : Nat) (es : List (Ev α)), es.length = n →
      (∀ r ∈ (es.foldl (fixedStep seq) {}).rows, ∃ pre i rows post q, es = pre ++ .answer i rows :: post ∧
        (pre.foldl (fixedStep seq) {}).pend[i]? = some q ∧ q.obj = (es.foldl (fixedStep seq) {}).obj ∧ r ∈ rows) ∧
      (∀ p ∈ (es.foldl (fixedStep seq) {}).sent, ∃ pre i rows post q, es = pre ++ .answer i rows :: post ∧
        (pre.foldl (fixedStep seq) {}).pend[i]? = some q ∧ q.obj = p.1 ∧ ∃ x ∈ rows, seq x = p.2) := by
    intro n
    induction n with
    | zero =>
      intro es he
      have : es = [] := List.length_eq_zero_iff.1 he
      subst this
      exact ⟨fun r hr => (by cases hr), fun p hp => (by cases hp)⟩
    | succ n ih =>
      intro es he
      have hne : es ≠ [] := by rintro rfl; cases he
      obtain ⟨es', e, rfl⟩ : ∃ es' e, es = es' ++ [e] := ⟨es.dropLast, es.getLast hne, (List.dropLast_concat_getLast hne).symm⟩
      obtain ⟨i1, i2⟩ := ih es' (by simpa using he)
      rw [List.foldl_append]
      show (∀ r ∈ (fixedStep seq (es'.foldl (fixedStep seq) {}) e).rows, _) ∧ _
      have up : ∀ {P : Query → List α → Prop}, (∃ pre i rows post q, es' = pre ++ .answer i rows :: post ∧
          (pre.foldl (fixedStep seq) {}).pend[i]? = some q ∧ P q rows) →
          ∃ pre i rows post q, es' ++ [e] = pre ++ .answer i rows :: post ∧ (pre.foldl (fixedStep seq) {}).pend[i]? = some q ∧ P q rows := by
        rintro P ⟨pre, i, rows, post, q, h1, h2, h3⟩
        exact ⟨pre, i, rows, post ++ [e], q, by rw [h1]; simp, h2, h3⟩
      generalize hs : es'.foldl (fixedStep seq) {} = s at *
      have keep : ∀ t : St α, t.rows = s.rows → t.obj = s.obj → t.sent = s.sent →
          (∀ r ∈ t.rows, ∃ pre i rows post q, es' ++ [e] = pre ++ .answer i rows :: post ∧
            (pre.foldl (fixedStep seq) {}).pend[i]? = some q ∧ q.obj = t.obj ∧ r ∈ rows) ∧
          (∀ p ∈ t.sent, ∃ pre i rows post q, es' ++ [e] = pre ++ .answer i rows :: post ∧
            (pre.foldl (fixedStep seq) {}).pend[i]? = some q ∧ q.obj = p.1 ∧ ∃ x ∈ rows, seq x = p.2) := by
        intro t h1 h2 h3
        rw [h1, h2, h3]
        exact ⟨fun r hr => up (i1 r hr), fun p hp => up (i2 p hp)⟩
      cases e with
      | see o' =>
        by_cases h : s.shown = true
        · have ht : fixedStep seq s (.see o') = s := if_pos h
          exact keep (fixedStep seq s (.see o')) (by rw [ht]) (by rw [ht]) (by rw [ht])
        · have ht : fixedStep seq s (.see o') = { s with pend := s.pend ++ [⟨o', s.page⟩] } := if_neg h
          exact keep (fixedStep seq s (.see o')) (by rw [ht]) (by rw [ht]) (by rw [ht])
      | turn p =>
        by_cases h : (s.shown && p != s.page) = true
        · have ht : fixedStep seq s (.turn p) = { s with pend := s.pend ++ [⟨s.obj, p⟩] } := if_pos h
          exact keep (fixedStep seq s (.turn p)) (by rw [ht]) (by rw [ht]) (by rw [ht])
        · have ht : fixedStep seq s (.turn p) = s := if_neg h
          exact keep (fixedStep seq s (.turn p)) (by rw [ht]) (by rw [ht]) (by rw [ht])
      | answer i rows =>
        cases hq : s.pend[i]? with
        | none =>
          have ht : fixedStep seq s (.answer i rows) = s := by simp [fixedStep, hq]
          exact keep (fixedStep seq s (.answer i rows)) (by rw [ht]) (by rw [ht]) (by rw [ht])
        | some q =>
          have ht : fixedStep seq s (.answer i rows) =
              { s with pend := s.pend.eraseIdx i, rows := rows, shown := true, obj := q.obj, page := q.page } := by simp [fixedStep, hq]
          show (∀ r ∈ (fixedStep seq s (.answer i rows)).rows, _) ∧ ∀ p ∈ (fixedStep seq s (.answer i rows)).sent, _
          have h1 : (fixedStep seq s (.answer i rows)).rows = rows := by rw [ht]
          have h2 : (fixedStep seq s (.answer i rows)).sent = s.sent := by rw [ht]
          have h3 : (fixedStep seq s (.answer i rows)).obj = q.obj := by rw [ht]
          rw [h1, h2]
          exact ⟨fun r hr => ⟨es', i, rows, [], q, rfl, (by rw [hs]; exact hq), h3.symm, hr⟩, fun p hp => up (i2 p hp)⟩
      | fail i => exact keep _ rfl rfl rfl
      | close => exact keep _ rfl rfl rfl
      | download r =>
        have hsame : (fixedStep seq s (.download r)).rows = s.rows ∧ (fixedStep seq s (.download r)).obj = s.obj := by
          show (step seq s (.download r)).rows = s.rows ∧ (step seq s (.download r)).obj = s.obj
          unfold step
          dsimp only
          split
          · split <;> exact ⟨rfl, rfl⟩
          · exact ⟨rfl, rfl⟩
        have hsent : (fixedStep seq s (.download r)).sent = _ := sent_step seq s (.download r)
        show (∀ r' ∈ (fixedStep seq s (.download r)).rows, _) ∧ ∀ p ∈ (fixedStep seq s (.download r)).sent, _
        rw [hsent]
        refine ⟨fun r' hr' => ?_, fun p hp => ?_⟩
        · rw [hsame.1] at hr'
          obtain ⟨pre, j, rows, post, q, h1, h2, h3, h4⟩ := i1 r' hr'
          exact ⟨pre, j, rows, post ++ [_], q, (by rw [h1, List.append_assoc]; rfl), h2, h3.trans hsame.2.symm, h4⟩
        · rcases List.mem_append.1 hp with hp | hp
          · exact up (i2 p hp)
          · dsimp only at hp
            split at hp
            · obtain ⟨x, hx, rfl⟩ := List.mem_map.1 hp
              obtain ⟨pre, j, rows, post, q, h1, h2, h3, h4⟩ := i1 x (List.mem_of_getElem? (Option.mem_toList.1 hx))
              exact up ⟨pre, j, rows, post, q, h1, h2, h3, x, h4, rfl⟩
            · cases hp
  exact (key es.length es rfl).2 (o, v) h

example : (([.see objA, .see objB, .answer 0 [1], .download 0] : List E).foldl (fixedStep id) {}).sent = [(objA, 1)] := by decide

end Verif.Ui.Versions
