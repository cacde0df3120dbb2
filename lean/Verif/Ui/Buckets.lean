import Verif.Common.Str

/-!
# The dialogs of the page of buckets of the web console: C121

Models of src/adminserver/ui/src/pages/bucket.vue: adding, changing and removing a bucket (lines 8, 54-135, 150-177,
199-245 and 312-337).  Objects of JavaScript are places of a heap, because a dialog and a row of the table can share one.

Simplified: a bucket is its name and the rest (`R`), of which `none` stands for an object without other fields; a name
that is not there and an empty one are the same (`!operatingBucket.value.name`); paging is in `Verif.Ui`, here an answer
with rows can arrive at any time.  While a dialog is open the page behind it cannot be used (components/ModalTemplate.vue,
`Dialog` of headlessui).
-/

namespace Verif.Ui.Buckets

open Verif

variable {R : Type}

structure Bucket (R : Type) where
  name : Str
  rest : Option R

/-- `{} as Bucket` -/
def blank : Bucket R := ⟨[], none⟩

/-- `operateType`; bucket.vue:142-145 and :151. -/
inductive Kind
  | none
  | add
  | update
  | del
deriving DecidableEq

inductive Req (R : Type)
  | add (b : Bucket R)
  | update (b : Bucket R)
  | remove (name : Str)

/-- The page: the heap, `dataList`, `operatingBucket`, `operateType` (bucket.vue:148-151), the requests on their way and
all requests that were sent. -/
structure St (R : Type) where
  heap : List (Bucket R)
  rows : List Nat
  op : Nat
  kind : Kind
  pend : List (Req R)
  sent : List (Req R)

/-- What a place holds.  (Places beyond the heap do not occur, `Good`.) -/
def St.at (s : St R) (i : Nat) : Bucket R := s.heap.getD i blank

/-- What the dialog is about. -/
def St.form (s : St R) : Bucket R := s.at s.op

/-- What the table shows. -/
def St.table (s : St R) : List (Bucket R) := s.rows.map s.at

/-- `operatingBucket.value = …` with a new object. -/
def St.fresh (s : St R) (b : Bucket R) : St R := { s with heap := s.heap ++ [b], op := s.heap.length }

inductive Ev (R : Type)
  /-- the button to add a bucket; bucket.vue:8 -/
  | pressAdd
  /-- the button "detail" of a row; bucket.vue:322-328 -/
  | pressDetail (i : Nat)
  /-- the button "delete" of a row; bucket.vue:329-335 -/
  | pressDelete (i : Nat)
  /-- something is typed; `v-model` of bucket.vue:60-112 -/
  | edit (b : Bucket R)
  /-- the dialog is closed: bucket.vue:120 and :131, or beside the dialog -/
  | cancel
  /-- the button of the dialog; bucket.vue:119 and :130 -/
  | ok
  /-- the request at place `i` was successful, or not; bucket.vue:204-212, :220-228 and :236-244 -/
  | answer (i : Nat) (success : Bool)
  /-- rows arrive; bucket.vue:190-197 -/
  | listed (l : List (Bucket R))

/-- `addBucket`, `updateBucket` and `removeBucket` up to the request; bucket.vue:199-205, :215-221 and :231-237. -/
def St.send (s : St R) (r : Req R) : St R :=
  if s.form.name = [] then s else { s with pend := s.pend ++ [r], sent := s.sent ++ [r] }

def step (s : St R) : Ev R → St R
  | .pressAdd => if s.kind = .none then { s with kind := .add } else s
  | .pressDetail i => if s.kind = .none then match s.rows[i]? with
    | some r => { s with op := r, kind := .update }
    | none => s else s
  | .pressDelete i => if s.kind = .none then match s.rows[i]? with
    | some r => { s.fresh ⟨(s.at r).name, none⟩ with kind := .del }
    | none => s else s
  | .edit b => if s.kind = .add ∨ s.kind = .update then { s with heap := s.heap.set s.op b } else s
  | .cancel => match s.kind with
    | .none => s
    | .add | .update => { s.fresh blank with kind := .none }
    | .del => { s with kind := .none }
  | .ok => match s.kind with
    | .none => s
    | .add => s.send (.add s.form)
    | .update => s.send (.update s.form)
    | .del => s.send (.remove s.form.name)
  | .answer i success =>
    if i < s.pend.length then
      if success then { { s with pend := s.pend.eraseIdx i }.fresh blank with kind := .none }
      else { s with pend := s.pend.eraseIdx i }
    else s
  | .listed l => { s with heap := s.heap ++ l, rows := List.range' s.heap.length l.length }

def run (s : St R) (es : List (Ev R)) : St R := es.foldl step s

/-- bucket.vue:148-151. -/
def opened : St R := ⟨[blank], [], 0, .none, [], []⟩

/-! ## Specification -/

/-- The name on the row whose button "delete" was pressed last, while no dialog was open. -/
def lastDeleted (s : St R) (t : Str) : List (Ev R) → Str
  | [] => t
  | e :: es => lastDeleted (step s e) (match e with
      | .pressDelete i => if s.kind = .none then ((s.table[i]?).map (·.name)).getD t else t
      | _ => t) es

/-- The rows of the last answer. -/
def lastListed (t : List (Bucket R)) : List (Ev R) → List (Bucket R)
  | [] => t
  | e :: es => lastListed (match e with | .listed l => l | _ => t) es

/-- Nothing is typed into the dialog of a row. -/
def NoChange (s : St R) : List (Ev R) → Prop
  | [] => True
  | e :: es => (match e with | .edit _ => s.kind ≠ .update | _ => True) ∧ NoChange (step s e) es

/-- No deletion is given up. -/
def NoGivenUp (s : St R) : List (Ev R) → Prop
  | [] => True
  | e :: es => (match e with | .cancel => s.kind ≠ .del | _ => True) ∧ NoGivenUp (step s e) es

/-- **C121**: what is removed is the bucket of the row that was chosen; the table shows what was answered; the dialog for a
new bucket is empty; a dialog is closed by the user or when its own request succeeds. -/
def C121_statement : Prop :=
  ∀ es : List (Ev Nat),
    ((run opened es).kind = .del → (run opened es).form.name = lastDeleted opened [] es) ∧
    (run opened es).table = lastListed [] es ∧
    ((run opened es).kind = .none → (run opened es).form = blank) ∧
    ((run opened es).kind = .none → ∀ i, (step (step (run opened es) (.pressDelete i)) (.answer 0 true)).kind =
      (step (run opened es) (.pressDelete i)).kind)

/-! ## Lemmas -/

/-- Places are those of the heap. -/
structure Good (s : St R) : Prop where
  op : s.op < s.heap.length
  rows : ∀ r ∈ s.rows, r < s.heap.length

/-- While a bucket is added or removed, the dialog shares no object with the table. -/
def Apart (s : St R) : Prop := s.kind ≠ .update → s.op ∉ s.rows

theorem at_append (s : St R) (l : List (Bucket R)) {i : Nat} (h : i < s.heap.length) : ({ s with heap := s.heap ++ l } : St R).at i = s.at i := by
  unfold St.at
  simp [List.getD_eq_getElem?_getD, List.getElem?_append_left h]

theorem at_set (s : St R) (b : Bucket R) (j : Nat) {i : Nat} (h : i ≠ j) : ({ s with heap := s.heap.set j b } : St R).at i = s.at i := by
  unfold St.at
  simp [List.getD_eq_getElem?_getD, List.getElem?_set_ne (Ne.symm h)]

theorem at_fresh (s : St R) (b : Bucket R) {i : Nat} (h : i < s.heap.length) : (s.fresh b).at i = s.at i := at_append s [b] h

theorem form_fresh (s : St R) (b : Bucket R) : (s.fresh b).form = b := by
  unfold St.form St.at St.fresh
  simp [List.getD_eq_getElem?_getD]

structure Inv (s : St R) : Prop where
  good : Good s
  apart : Apart s

theorem inv_fresh {s : St R} (h : Inv s) (b : Bucket R) (k : Kind) : Inv { s.fresh b with kind := k } := by
  refine ⟨⟨by simp [St.fresh], fun r hr => ?_⟩, fun _ hm => ?_⟩
  · have := h.good.rows r hr
    simp [St.fresh]; omega
  · have := h.good.rows _ hm
    simp [St.fresh] at this

theorem send_same (s : St R) (r : Req R) : (s.send r).heap = s.heap ∧ (s.send r).rows = s.rows ∧ (s.send r).op = s.op ∧ (s.send r).kind = s.kind := by
  unfold St.send
  split <;> exact ⟨rfl, rfl, rfl, rfl⟩

theorem inv_send {s : St R} (h : Inv s) (r : Req R) : Inv (s.send r) := by
  obtain ⟨h1, h2, h3, h4⟩ := send_same s r
  refine ⟨⟨?_, ?_⟩, ?_⟩
  · rw [h3, h1]; exact h.good.op
  · rw [h2, h1]; exact h.good.rows
  · unfold Apart; rw [h4, h3, h2]; exact h.apart

theorem inv_step {s : St R} (h : Inv s) (e : Ev R) : Inv (step s e) := by
  cases e with
  | pressAdd =>
    unfold step
    dsimp only
    split
    · next hk => exact ⟨⟨h.good.op, h.good.rows⟩, fun _ => h.apart (by rw [hk]; decide)⟩
    · exact h
  | pressDetail i =>
    unfold step
    dsimp only
    split
    · split
      · next r hr => exact ⟨⟨h.good.rows r (List.mem_of_getElem? hr), h.good.rows⟩, fun hk => absurd rfl hk⟩
      · exact h
    · exact h
  | pressDelete i =>
    unfold step
    dsimp only
    split
    · split
      · exact inv_fresh h _ _
      · exact h
    · exact h
  | edit b =>
    unfold step
    dsimp only
    split
    · exact ⟨⟨by simpa using h.good.op, fun r hr => by simpa using h.good.rows r hr⟩, h.apart⟩
    · exact h
  | cancel =>
    unfold step
    dsimp only
    split
    · exact h
    · exact inv_fresh h _ _
    · exact inv_fresh h _ _
    · next hk => exact ⟨⟨h.good.op, h.good.rows⟩, fun _ => h.apart (by rw [hk]; decide)⟩
  | ok =>
    unfold step
    dsimp only
    split
    · exact h
    · exact inv_send h _
    · exact inv_send h _
    · exact inv_send h _
  | answer i success =>
    unfold step
    dsimp only
    split
    · have h' : Inv { s with pend := s.pend.eraseIdx i } := ⟨⟨h.good.op, h.good.rows⟩, h.apart⟩
      split
      · exact inv_fresh h' _ _
      · exact h'
    · exact h
  | listed l =>
    unfold step
    dsimp only
    refine ⟨⟨?_, fun r hr => ?_⟩, fun _ hm => ?_⟩
    · have := h.good.op
      simp; omega
    · have := List.mem_range'_1.1 hr
      simp; omega
    · have h1 := List.mem_range'_1.1 hm
      have h2 := h.good.op
      dsimp only at h1
      omega

theorem inv_opened : Inv (opened : St R) := ⟨⟨by simp [opened], by simp [opened]⟩, by simp [Apart, opened]⟩

theorem inv_run (es : List (Ev R)) : ∀ {s : St R}, Inv s → Inv (run s es) := by
  induction es with
  | nil => intro s h; exact h
  | cons e es ih => intro s h; exact ih (inv_step h e)

theorem send_form (s : St R) (r : Req R) : (s.send r).form = s.form ∧ (s.send r).table = s.table := by
  unfold St.send
  split <;> exact ⟨rfl, rfl⟩

/-! ## Theorems -/

/-- What a confirmation would remove is what was chosen, from any state. -/
theorem deleted_run (es : List (Ev R)) : ∀ (s : St R) (t : Str), Inv s → (s.kind = .del → s.form.name = t) →
    (run s es).kind = .del → (run s es).form.name = lastDeleted s t es := by
  induction es with
  | nil => intro s t _ h; exact h
  | cons e es ih =>
    intro s t hi h
    show (run (step s e) es).kind = .del → (run (step s e) es).form.name = lastDeleted (step s e) _ es
    refine ih _ _ (inv_step hi e) ?_
    cases e with
    | pressAdd =>
      unfold step; dsimp only
      split
      · intro hk; cases hk
      · exact h
    | pressDetail i =>
      unfold step; dsimp only
      split
      · split
        · intro hk; cases hk
        · exact h
      · exact h
    | pressDelete i =>
      unfold step; dsimp only
      split
      · next hk =>
        split
        · next r hr =>
          intro _
          have e1 : ({ s.fresh ⟨(s.at r).name, none⟩ with kind := .del } : St R).form = ⟨(s.at r).name, none⟩ := form_fresh s _
          rw [e1]
          have : s.table[i]? = some (s.at r) := by simp [St.table, hr]
          rw [this]
          rfl
        · next hr =>
          intro hd
          rw [hk] at hd; cases hd
      · exact h
    | edit b =>
      unfold step; dsimp only
      split
      · next hk =>
        intro hd
        rcases hk with hk | hk <;> rw [hk] at hd <;> cases hd
      · exact h
    | cancel =>
      unfold step; dsimp only
      split
      · exact h
      · intro hd; cases hd
      · intro hd; cases hd
      · intro hd; cases hd
    | ok =>
      unfold step; dsimp only
      have key : ∀ r, (s.send r).kind = .del → (s.send r).form.name = t := by
        intro r
        rw [(send_same s r).2.2.2, (send_form s r).1]
        exact h
      split
      · exact h
      · exact key _
      · exact key _
      · exact key _
    | answer i success =>
      unfold step; dsimp only
      split
      · split
        · intro hd; cases hd
        · exact h
      · exact h
    | listed l =>
      unfold step; dsimp only
      intro hd
      have : ({ s with heap := s.heap ++ l, rows := List.range' s.heap.length l.length } : St R).form = s.form :=
        at_append s l hi.good.op
      rw [this]
      exact h hd

/-- **C121** (first part, in full): a dialog for a deletion is about the row whose button was pressed last. -/
theorem C121_delete (es : List (Ev R)) (h : (run opened es).kind = .del) :
    (run opened es).form.name = lastDeleted opened [] es :=
  deleted_run es opened [] inv_opened (fun h => by cases h) h

/-- What the button of a dialog asks for. -/
def St.request (s : St R) : Option (Req R) :=
  match s.kind with
  | .none => none
  | .add => some (.add s.form)
  | .update => some (.update s.form)
  | .del => some (.remove s.form.name)

/-- Every request was asked for with the button of a dialog, and is about what the dialog showed at that time. -/
theorem C121_sent (es : List (Ev R)) (r : Req R) (h : r ∈ (run opened es).sent) :
    ∃ pre post, es = pre ++ .ok :: post ∧ (run opened pre).request = some r ∧ (run opened pre).form.name ≠ [] := by
  have key : ∀ (es : List (Ev R)) (s : St R), r ∈ (run s es).sent → r ∈ s.sent ∨
      ∃ pre post, es = pre ++ .ok :: post ∧ (run s pre).request = some r ∧ (run s pre).form.name ≠ [] := by
    intro es
    induction es with
    | nil => intro s h; exact .inl h
    | cons e es ih =>
      intro s h
      rcases ih (step s e) h with h1 | ⟨pre, post, h1, h2⟩
      · have hsend : ∀ q, r ∈ (s.send q).sent → r ∈ s.sent ∨ (r = q ∧ s.form.name ≠ []) := by
          intro q hq
          unfold St.send at hq
          split at hq
          · exact .inl hq
          · next hn =>
            rcases List.mem_append.1 hq with hq | hq
            · exact .inl hq
            · exact .inr ⟨List.mem_singleton.1 hq, hn⟩
        cases e with
        | ok =>
          unfold step at h1; dsimp only at h1
          split at h1
          · exact .inl h1
          all_goals
            next hk =>
            rcases hsend _ h1 with h1 | ⟨rfl, hn⟩
            · exact .inl h1
            · exact .inr ⟨[], es, rfl, by simp [run, St.request, hk], hn⟩
        | _ =>
          left
          unfold step at h1; dsimp only at h1
          (repeat' split at h1) <;> exact h1
      · exact .inr ⟨e :: pre, post, by rw [h1]; rfl, h2⟩
  rcases key es opened h with h | h
  · cases h
  · exact h

/-- Only buckets are removed whose button was pressed last before the confirmation. -/
theorem C121_removed (es : List (Ev R)) (n : Str) (h : .remove n ∈ (run opened es).sent) :
    ∃ pre post, es = pre ++ .ok :: post ∧ n = lastDeleted opened [] pre ∧ n ≠ [] := by
  obtain ⟨pre, post, h1, h2, h3⟩ := C121_sent es _ h
  refine ⟨pre, post, h1, ?_⟩
  unfold St.request at h2
  split at h2
  · cases h2
  · cases h2
  · cases h2
  · next hk =>
    injection h2 with h2
    injection h2 with h2
    rw [← h2]
    exact ⟨C121_delete pre hk, h3⟩

theorem table_run (es : List (Ev R)) : ∀ (s : St R) (t : List (Bucket R)), Inv s → NoChange s es → s.table = t →
    (run s es).table = lastListed t es := by
  induction es with
  | nil => intro s t _ _ h; exact h
  | cons e es ih =>
    intro s t hi hn h
    show (run (step s e) es).table = lastListed _ es
    refine ih _ _ (inv_step hi e) hn.2 ?_
    have hfresh : ∀ (s : St R) (b : Bucket R) (k : Kind), Inv s → ({ s.fresh b with kind := k } : St R).table = s.table := by
      intro s b k hi
      apply List.map_congr_left
      intro r hr
      exact at_fresh s b (hi.good.rows r hr)
    cases e with
    | pressAdd => unfold step; dsimp only; split <;> exact h
    | pressDetail i => unfold step; dsimp only; (repeat' split) <;> exact h
    | pressDelete i =>
      unfold step; dsimp only
      split
      · split
        · rw [hfresh s _ _ hi]; exact h
        · exact h
      · exact h
    | edit b =>
      unfold step; dsimp only
      split
      · next hk =>
        have hu : s.kind ≠ .update := hn.1
        rw [← h]
        apply List.map_congr_left
        intro r hr
        exact at_set s b s.op (fun e => hi.apart hu (e ▸ hr))
      · exact h
    | cancel =>
      unfold step; dsimp only
      split
      · exact h
      · rw [hfresh s _ _ hi]; exact h
      · rw [hfresh s _ _ hi]; exact h
      · exact h
    | ok =>
      unfold step; dsimp only
      split
      · exact h
      all_goals rw [(send_form s _).2]; exact h
    | answer i success =>
      unfold step; dsimp only
      split
      · have h' : Inv { s with pend := s.pend.eraseIdx i } := ⟨⟨hi.good.op, hi.good.rows⟩, hi.apart⟩
        split
        · rw [hfresh _ _ _ h']; exact h
        · exact h
      · exact h
    | listed l =>
      unfold step; dsimp only
      apply List.ext_getElem?
      intro i
      unfold St.table St.at
      rw [List.getElem?_map]
      by_cases hl : i < l.length
      · rw [List.getElem?_range' hl]
        simp [List.getD_eq_getElem?_getD, hl]
      · have h1 : (List.range' s.heap.length l.length)[i]? = none := by
          rw [List.getElem?_eq_none_iff]; simpa using hl
        have h2 : l[i]? = none := by
          rw [List.getElem?_eq_none_iff]; omega
        rw [h1, h2]; rfl

/-- **C121, partial**: as long as nothing is typed into the dialog of a row, the table shows what was answered.  (Missing:
`C121_table_fails`.) -/
theorem C121_table_partial (es : List (Ev R)) (h : NoChange opened es) : (run opened es).table = lastListed [] es :=
  table_run es opened [] inv_opened h rfl

theorem blank_run (es : List (Ev R)) : ∀ (s : St R), Inv s → NoGivenUp s es → (s.kind = .none → s.form = blank) →
    (run s es).kind = .none → (run s es).form = blank := by
  induction es with
  | nil => intro s _ _ h; exact h
  | cons e es ih =>
    intro s hi hn h
    show (run (step s e) es).kind = .none → (run (step s e) es).form = blank
    refine ih _ (inv_step hi e) hn.2 ?_
    cases e with
    | pressAdd =>
      unfold step; dsimp only
      split
      · intro hk; cases hk
      · exact h
    | pressDetail i =>
      unfold step; dsimp only
      split
      · split
        · intro hk; cases hk
        · exact h
      · exact h
    | pressDelete i =>
      unfold step; dsimp only
      split
      · split
        · intro hk; cases hk
        · exact h
      · exact h
    | edit b =>
      unfold step; dsimp only
      split
      · next hk =>
        intro hd
        rcases hk with hk | hk <;> rw [hk] at hd <;> cases hd
      · exact h
    | cancel =>
      unfold step; dsimp only
      split
      · exact h
      · intro _; exact form_fresh s _
      · intro _; exact form_fresh s _
      · next hk => exact absurd hk hn.1
    | ok =>
      unfold step; dsimp only
      have key : ∀ r, (s.send r).kind = .none → (s.send r).form = blank := by
        intro r
        rw [(send_same s r).2.2.2, (send_form s r).1]
        exact h
      split
      · exact h
      · exact key _
      · exact key _
      · exact key _
    | answer i success =>
      unfold step; dsimp only
      split
      · split
        · intro _; exact form_fresh { s with pend := s.pend.eraseIdx i } _
        · exact h
      · exact h
    | listed l =>
      unfold step; dsimp only
      intro hd
      have : ({ s with heap := s.heap ++ l, rows := List.range' s.heap.length l.length } : St R).form = s.form :=
        at_append s l hi.good.op
      rw [this]
      exact h hd

/-- **C121, partial**: as long as no deletion was given up, the dialog for a new bucket is empty when it is opened.
(Missing: `C121_form_fails`.) -/
theorem C121_form_partial (es : List (Ev R)) (h : NoGivenUp opened es) (hk : (run opened es).kind = .none) :
    (step (run opened es) .pressAdd).kind = .add ∧ (step (run opened es) .pressAdd).form = blank := by
  have := blank_run es opened inv_opened h (fun _ => rfl) hk
  unfold step
  dsimp only
  rw [if_pos hk]
  exact ⟨rfl, this⟩

/-- **C121, partial**: a dialog that is opened while no request is on its way stays open until the user uses one of its
buttons.  (Missing: `C121_closed_fails`.) -/
theorem C121_closed_partial (es : List (Ev R)) : ∀ (s : St R), s.pend = [] → s.kind ≠ .none → (∀ e ∈ es, e ≠ .ok ∧ e ≠ .cancel) →
    (run s es).kind = s.kind := by
  induction es with
  | nil => intro s _ _ _; rfl
  | cons e es ih =>
    intro s hp hk he
    have h1 : (step s e).kind = s.kind ∧ (step s e).pend = [] := by
      have hne := he e List.mem_cons_self
      cases e with
      | ok => exact absurd rfl hne.1
      | cancel => exact absurd rfl hne.2
      | pressAdd => unfold step; dsimp only; rw [if_neg hk]; exact ⟨rfl, hp⟩
      | pressDetail i => unfold step; dsimp only; rw [if_neg hk]; exact ⟨rfl, hp⟩
      | pressDelete i => unfold step; dsimp only; rw [if_neg hk]; exact ⟨rfl, hp⟩
      | edit b => unfold step; dsimp only; split <;> exact ⟨rfl, hp⟩
      | answer i b => unfold step; dsimp only; rw [if_neg (by rw [hp]; simp)]; exact ⟨rfl, hp⟩
      | listed l => exact ⟨rfl, hp⟩
    show (run (step s e) es).kind = s.kind
    rw [ih (step s e) h1.2 (by rw [h1.1]; exact hk) fun x hx => he x (List.mem_cons_of_mem _ hx)]
    exact h1.1

/-! ## Examples and refutations -/

/-- Two buckets. -/
def two : List (Bucket Nat) := [⟨['a'], some 1⟩, ⟨['b'], some 2⟩]

example : (run opened [.listed two, .pressDelete 1]).kind = .del ∧ lastDeleted opened [] [.listed two, .pressDelete 1] = ['b'] := by decide
example : ((run opened [.listed two, .pressDelete 0, .cancel, .pressDelete 1, .ok, .answer 0 true]).sent.map fun
    | .remove n => n
    | _ => []) = [['b']] := by decide
example : NoChange opened [.listed two, .pressDetail 0, .ok, .answer 0 true, .pressAdd, .edit ⟨['c'], some 3⟩, .cancel] := by
  simp [NoChange, step, opened, two, St.send, St.form, St.at, St.fresh, blank]
example : NoGivenUp opened [.listed two, .pressDetail 0, .cancel, .pressDelete 1, .ok, .answer 0 true] := by
  simp [NoGivenUp, step, opened, two, blank]
example : (run opened [.listed two, .pressDetail 0]).pend.length = 0 ∧ (run opened [.listed two, .pressDetail 0]).kind ≠ .none := by decide

/-- **C121 fails**: what was typed into the dialog of a row stays in the table when the dialog is given up. -/
theorem C121_table_fails : ((run opened [.listed two, .pressDetail 0, .edit ⟨['a'], some 7⟩, .cancel]).table.map (·.rest)) = [some 7, some 2] ∧
    (run opened [.listed two, .pressDetail 0, .edit ⟨['a'], some 7⟩, .cancel]).sent.length = 0 := by decide

/-- **C121 fails**: after a deletion was given up, the dialog for a new bucket has its name. -/
theorem C121_form_fails : (run opened [.listed two, .pressDelete 1, .cancel, .pressAdd]).kind = .add ∧
    (run opened [.listed two, .pressDelete 1, .cancel, .pressAdd]).form.name = ['b'] := by decide

/-- **C121 fails**: the answer to an earlier request closes the dialog of another row, and what was typed is not sent but
shown in the table. -/
theorem C121_closed_fails :
    let es : List (Ev Nat) := [.listed two, .pressDetail 0, .ok, .cancel, .pressDetail 1, .edit ⟨['b'], some 7⟩]
    (run opened es).kind = .update ∧ (run opened (es ++ [.answer 0 true])).kind = .none ∧
    (run opened (es ++ [.answer 0 true])).sent.length = 1 ∧
    ((run opened (es ++ [.answer 0 true])).table.map (·.rest)) = [some 1, some 7] := by decide

/-- Two clicks send two requests. -/
theorem C121_twice : ((run opened [.listed two, .pressDelete 1, .ok, .ok]).sent.map fun
    | .remove n => n
    | _ => []) = [['b'], ['b']] := by decide

theorem C121_statement_fails : ¬ C121_statement := by
  intro h
  have := (h [.listed two, .pressDelete 1, .cancel]).2.2.1 (by decide)
  have := congrArg Bucket.name this
  exact absurd this (by decide)

end Verif.Ui.Buckets
