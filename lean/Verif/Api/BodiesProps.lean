import Verif.Api.Bodies

/-!
# What becomes of the bodies of HTTP answers: theorems of C110
-/

namespace Verif.Bodies
open Verif

/-! ## Lemmas -/

theorem live_append (h : Heap) (b : Bool) : live (h ++ [b]) = live h + (if b then 1 else 0) := by
  cases b <;> simp [live]

theorem shut_last (h : Heap) (b : Bool) : shut h.length (h ++ [b]) = h ++ [false] := by
  simp [shut]

theorem live_shut : ∀ (h : Heap) (i : Nat), h[i]? = some true → live (shut i h) + 1 = live h := by
  intro h
  induction h with
  | nil => intro i hi; simp at hi
  | cons b t ih =>
    intro i hi
    cases i with
    | zero =>
      simp at hi; subst hi; simp [shut, live]
    | succ i =>
      have h1 : t[i]? = some true := by simpa using hi
      have := ih i h1
      cases b <;> simp_all [shut, live] <;> omega

theorem live_shut_false : ∀ (h : Heap) (i : Nat), h[i]? = some false → shut i h = h := by
  intro h
  induction h with
  | nil => intro i hi; simp at hi
  | cons b t ih =>
    intro i hi
    cases i with
    | zero => simp at hi; subst hi; simp [shut]
    | succ i =>
      have h1 : t[i]? = some false := by simpa using hi
      have := ih i h1
      simp [shut] at *; exact this

/-- The model refines the specification. -/
structure Inv (k base : Nat) (s : St) (ph : Nat → Ph) (n : Nat) : Prop where
  inj : ∀ i j b, s.rd i = some b → s.rd j = some b → i = j
  fresh : ∀ i, ph i = .fresh ↔ s.rd i = none
  reading : ∀ i b, s.rd i = some b → s.heap[b]? = some (ph i == .reading)
  sum : live s.heap = base + n + holding ph k

theorem holding_set (ph : Nat → Ph) (k i : Nat) (p : Ph) (hi : i < k) :
    holding (setAt ph i p) k + (if ph i = .reading then 1 else 0) = holding ph k + (if p = .reading then 1 else 0) := by
  induction k with
  | zero => omega
  | succ k ih =>
    unfold holding at *
    rw [List.range_succ, List.countP_append, List.countP_append]
    by_cases hk : i = k
    · subst hk
      have : (List.range i).countP (fun j => setAt ph i p j == .reading) = (List.range i).countP (fun j => ph j == .reading) := by
        apply List.countP_congr
        intro j hj
        have : j ≠ i := by have := List.mem_range.1 hj; omega
        simp [setAt, this]
      rw [this]
      simp [setAt]
      cases p <;> cases hp : ph i <;> simp <;> omega
    · have := ih (by omega)
      have hk' : ¬ k = i := fun e => hk e.symm
      simp [setAt, hk'] at *
      omega

theorem inv_alloc {k base : Nat} {s : St} {ph : Nat → Ph} {n : Nat} (hv : Inv k base s ph n) (b : Bool) :
    Inv k base { s with heap := s.heap ++ [b] } ph (n + if b then 1 else 0) := by
  refine ⟨hv.inj, hv.fresh, ?_, ?_⟩
  · intro i c hc
    have := hv.reading i c hc
    have hl : c < s.heap.length := by
      rcases Nat.lt_or_ge c s.heap.length with h | h
      · exact h
      · rw [List.getElem?_eq_none h] at this; cases this
    show (s.heap ++ [b])[c]? = _
    rw [List.getElem?_append_left hl]; exact this
  · have := hv.sum
    show live (s.heap ++ [b]) = _
    rw [live_append]; omega

theorem inv_take {k base : Nat} {s : St} {ph : Nat → Ph} {n : Nat} (hv : Inv k base s ph n) (i : Nat) (hi : i < k)
    (hn : s.rd i = none) (b : Bool) :
    Inv k base { rd := setAt s.rd i (some s.heap.length), heap := s.heap ++ [b] }
      (setAt ph i (if b then .reading else .done)) n := by
  have hlen : ∀ j c, s.rd j = some c → c < s.heap.length := by
    intro j c hc
    have := hv.reading j c hc
    rcases Nat.lt_or_ge c s.heap.length with h | h
    · exact h
    · rw [List.getElem?_eq_none h] at this; cases this
  refine ⟨?_, ?_, ?_, ?_⟩
  · intro j l c hj hl
    simp only [setAt] at hj hl
    by_cases h1 : j = i <;> by_cases h2 : l = i
    · omega
    · rw [if_pos h1] at hj; rw [if_neg h2] at hl
      have := hlen l c hl; cases hj; omega
    · rw [if_neg h1] at hj; rw [if_pos h2] at hl
      have := hlen j c hj; cases hl; omega
    · rw [if_neg h1] at hj; rw [if_neg h2] at hl; exact hv.inj j l c hj hl
  · intro j
    simp only [setAt]
    by_cases h1 : j = i
    · rw [if_pos h1, if_pos h1]; cases b <;> simp
    · rw [if_neg h1, if_neg h1]; exact hv.fresh j
  · intro j c hc
    simp only [setAt] at hc ⊢
    by_cases h1 : j = i
    · rw [if_pos h1] at hc; rw [if_pos h1]; cases hc; cases b <;> simp
    · rw [if_neg h1] at hc; rw [if_neg h1]
      rw [List.getElem?_append_left (hlen j c hc)]; exact hv.reading j c hc
  · have h1 := hv.sum
    have h2 := holding_set ph k i (if b then .reading else .done) hi
    have h3 : ph i = .fresh := (hv.fresh i).2 hn
    rw [h3] at h2
    show live (s.heap ++ [b]) = _
    rw [live_append]
    cases b <;> simp at h2 ⊢ <;> omega

theorem inv_shut {k base : Nat} {s : St} {ph : Nat → Ph} {n : Nat} (hv : Inv k base s ph n) (i : Nat) (hi : i < k)
    (b : Nat) (hb : s.rd i = some b) :
    Inv k base { s with heap := shut b s.heap } (setAt ph i (ended true (ph i))) n := by
  have hr := hv.reading i b hb
  have hf : ph i ≠ .fresh := fun h => by have := (hv.fresh i).1 h; rw [this] at hb; cases hb
  have he : ended true (ph i) = .done := by cases h : ph i <;> simp_all [ended]
  rw [he]
  refine ⟨hv.inj, ?_, ?_, ?_⟩
  · intro j
    by_cases h1 : j = i
    · subst h1; simp [setAt, hb]
    · simp only [setAt]; rw [if_neg h1]; exact hv.fresh j
  · intro j c hc
    by_cases h1 : j = i
    · subst h1
      have : c = b := by have hc' : s.rd j = some c := hc; rw [hb] at hc'; cases hc'; rfl
      subst this
      have hl : c < s.heap.length := by
        rcases Nat.lt_or_ge c s.heap.length with h | h
        · exact h
        · rw [List.getElem?_eq_none h] at hr; cases hr
      simp [setAt, shut, hl]
    · have hne : b ≠ c := fun e => h1 (hv.inj j i c hc (e ▸ hb))
      simp only [setAt]; rw [if_neg h1]
      have := hv.reading j c hc
      show (s.heap.set b false)[c]? = _
      rw [List.getElem?_set_ne hne]; exact this
  · have h1 := hv.sum
    have h2 := holding_set ph k i .done hi
    show live (shut b s.heap) = _
    cases hp : ph i with
    | fresh => exact absurd hp hf
    | reading =>
      rw [hp] at hr h2
      have := live_shut s.heap b (by simpa using hr)
      simp at h2; omega
    | done =>
      rw [hp] at hr h2
      have := live_shut_false s.heap b hr
      rw [this]; simp at h2; omega

theorem setAt_self {α : Type} (f : Nat → α) (i : Nat) : setAt f i (f i) = f := by
  funext j; unfold setAt; split
  · next h => rw [h]
  · rfl

theorem setAt_setAt {α : Type} (f : Nat → α) (i : Nat) (x y : α) : setAt (setAt f i x) i y = setAt f i y := by
  funext j; unfold setAt; split <;> rfl

theorem setAt_at {α : Type} (f : Nat → α) (i : Nat) (x : α) : setAt f i x i = x := by simp [setAt]

theorem inv_request {k base : Nat} {s : St} {ph : Nat → Ph} {n : Nat} (hv : Inv k base s ph n) (i : Nat) (hi : i < k)
    (hn : s.rd i = none) (a : Ans) :
    Inv k base (request i a s) (setAt ph i (asked a).1) (n + (asked a).2) := by
  have hf : ph i = .fresh := (hv.fresh i).2 hn
  cases a with
  | refused =>
    show Inv k base s (setAt ph i .fresh) n
    rw [← hf, setAt_self]; exact hv
  | resp st rd em =>
    by_cases hs : st = 200
    · subst hs
      have := inv_take hv i hi hn (!em)
      cases em <;> exact this
    · have := inv_alloc hv (!em)
      have e1 : request i (.resp st rd em) s = { s with heap := s.heap ++ [!em] } := by
        simp [request, call, styleOf, treat, send, hs]
      have e2 : asked (.resp st rd em) = (.fresh, if em then 0 else 1) := by simp [asked, hs]
      rw [e1, e2, ← hf, setAt_self]
      cases em <;> exact this

theorem inv_consume {k base : Nat} {s : St} {ph : Nat → Ph} {n : Nat} (hv : Inv k base s ph n) (i : Nat) (hi : i < k) (fin : Bool) :
    Inv k base (consume i fin s) (setAt ph i (ended fin (ph i))) n := by
  unfold consume
  cases hr : s.rd i with
  | none =>
    have hf : ph i = .fresh := (hv.fresh i).2 hr
    have : ended fin (ph i) = ph i := by rw [hf]; rfl
    rw [this, setAt_self]; exact hv
  | some b =>
    cases fin with
    | true => exact inv_shut hv i hi b hr
    | false =>
      have : ended false (ph i) = ph i := by cases ph i <;> rfl
      rw [this, setAt_self]; exact hv

theorem inv_op {k base : Nat} {s : St} {ph : Nat → Ph} {n : Nat} (hv : Inv k base s ph n) (i : Nat) (hi : i < k) (o : Op) :
    Inv k base (op i o s) (setAt ph i (phase o (ph i)).1) (n + (phase o (ph i)).2) := by
  cases o with
  | read a fin =>
    cases hr : s.rd i with
    | none =>
      have hf : ph i = .fresh := (hv.fresh i).2 hr
      have h1 := inv_consume (inv_request hv i hi hr a) i hi fin
      rw [setAt_at, setAt_setAt] at h1
      simp only [op, hr, phase, hf, if_true]; exact h1
    | some b =>
      have hf : ph i ≠ .fresh := fun h => by have := (hv.fresh i).1 h; rw [this] at hr; cases hr
      simp only [op, hr, phase, if_neg hf]
      exact inv_consume hv i hi fin
  | seek off fe a fin =>
    unfold op phase
    dsimp only
    by_cases h1 : off < 0
    · rw [if_pos h1, if_pos (Or.inl h1), setAt_self]; exact hv
    · cases fe with
      | true => rw [if_neg h1, if_pos rfl, if_pos (Or.inr rfl), setAt_self]; exact hv
      | false =>
        have h4 : ¬ (off < 0 ∨ false = true) := by
          rintro (h | h)
          · exact h1 h
          · cases h
        rw [if_neg h1, if_neg Bool.false_ne_true, if_neg h4]
        cases hr : s.rd i with
        | none =>
          have hf : ph i = .fresh := (hv.fresh i).2 hr
          simp only [hf, if_true]; exact inv_request hv i hi hr a
        | some b =>
          have hf : ph i ≠ .fresh := fun h => by have := (hv.fresh i).1 h; rw [this] at hr; cases hr
          rw [if_neg hf]
          by_cases h2 : off = 0
          · subst h2; simp; rw [setAt_self]; exact hv
          · rw [if_neg h2]
            have h3 : off > 0 := by omega
            simp only [if_pos h3]
            exact inv_consume hv i hi fin
  | close =>
    unfold op phase
    cases hr : s.rd i with
    | none =>
      have hf : ph i = .fresh := (hv.fresh i).2 hr
      have : ended true (ph i) = ph i := by rw [hf]; rfl
      show Inv k base s (setAt ph i (ended true (ph i))) n
      rw [this, setAt_self]; exact hv
    | some b => exact inv_shut hv i hi b hr

theorem inv_run {k base : Nat} (es : List (Nat × Op)) : ∀ {s : St} {ph : Nat → Ph} {n : Nat}, Inv k base s ph n →
    (∀ e ∈ es, e.1 < k) → Inv k base (run es s) (follow es ph n).1 (follow es ph n).2 := by
  induction es with
  | nil => intro s ph n hv _; exact hv
  | cons e es ih =>
    intro s ph n hv hk
    obtain ⟨i, o⟩ := e
    exact ih (inv_op hv i (hk (i, o) (by simp)) o) (fun e he => hk e (by simp [he]))

theorem inv_opened (k : Nat) (h : Heap) : Inv k (live h) (opened h) (fun _ => .fresh) 0 := by
  refine ⟨(by intro i j b hb; cases hb), (by intro i; simp [opened]), (by intro i b hb; cases hb), ?_⟩
  have : holding (fun _ => Ph.fresh) k = 0 := by
    unfold holding; rw [List.countP_eq_zero]; intro i _; simp
  simp [opened, this]

/-! ## Functions -/

/-- **C110 (functions).**  The twenty-six functions of `careful` give the body of every answer back, whatever its status and whether
it can be read: no body stays open, none is handed out, and no other body is touched. -/
theorem C110_careful (c : Call) (hc : c ∈ careful) (a : Ans) (h : Heap) :
    (call c a h).1 = none ∧ ((call c a h).2 = h ∨ (call c a h).2 = h ++ [false]) ∧ live (call c a h).2 = live h := by
  have key : ∀ w, treat .deferred w a h = treat .decode w a h := by intro w; cases a <;> rfl
  have hs : ∃ w, call c a h = treat .deferred w a h := by
    simp only [careful, List.mem_cons, List.not_mem_nil, or_false] at hc
    rcases hc with rfl | rfl | rfl | rfl | rfl | rfl | rfl | rfl | rfl | rfl | rfl | rfl | rfl | rfl | rfl | rfl | rfl | rfl | rfl |
      rfl | rfl | rfl | rfl | rfl | rfl | rfl <;> exact ⟨200, by cases a <;> rfl⟩
  obtain ⟨w, hw⟩ := hs
  rw [hw]
  cases a with
  | refused => exact ⟨rfl, Or.inl rfl, rfl⟩
  | resp st rd em =>
    have : treat .deferred w (.resp st rd em) h = (none, h ++ [false]) := by
      simp [treat, send, shut_last]
    rw [this]
    exact ⟨rfl, Or.inr rfl, by rw [live_append]; rfl⟩

example : Call.PatchTmpObject ∈ careful ∧ call .PatchTmpObject (.resp 500 false false) [true] = (none, [true, false]) := by decide
example : careful.length = 26 := rfl

/-- All functions give back what they get. -/
def C110_statement : Prop :=
  ∀ (c : Call) (a : Ans) (h : Heap), (call c a h).1 = none → live (call c a h).2 = live h

/-- **C110 (functions, refuted).**  The validator of the API server leaves the body of every agreement open. -/
theorem C110_statement_fails : ¬ C110_statement := by
  intro h
  have := h .Verify (.resp 200 true false) [] rfl
  exact absurd this (by decide)

/-- **C110 (functions, exactly).**  Which of the other functions leave a body open, and when: the callback validator and the six
functions that change metadata or versions after their success, `PostTmpObject` if its answer cannot be read, the question for the
capacity of a peer always — unless there is no content. -/
theorem C110_careless (st : Nat) (rd em : Bool) (h : Heap) :
    (∀ c w, (c, w) ∈ [(Call.Verify, 200), (.PostMetadata, 201), (.PutMetadata, 200), (.DelMetadata, 204), (.PostVersion, 201),
        (.PutVersion, 200), (.DelVersion, 204)] →
      call c (.resp st rd em) h = (none, h ++ [!em && st == w])) ∧
    call .PostTmpObject (.resp st rd em) h = (none, h ++ [!em && !rd]) ∧
    call .peerStat (.resp st rd em) h = (none, h ++ [!em]) ∧
    (∀ c, call c .refused h = (none, h)) := by
  refine ⟨?_, ?_, ?_, ?_⟩
  · intro c w hc
    simp only [List.mem_cons, List.not_mem_nil, or_false, Prod.mk.injEq] at hc
    rcases hc with ⟨rfl, rfl⟩ | ⟨rfl, rfl⟩ | ⟨rfl, rfl⟩ | ⟨rfl, rfl⟩ | ⟨rfl, rfl⟩ | ⟨rfl, rfl⟩ | ⟨rfl, rfl⟩ <;>
    · simp only [call, styleOf, treat, send, shut_last]
      split
      · next hst => simp [hst]
      · next hst => simp [Decidable.not_not.1 hst]
  · cases rd <;> simp [call, styleOf, treat, send, shut_last]
  · rfl
  · intro c; rfl

example : call .Verify (.resp 200 true false) [] = (none, [true]) ∧ call .Verify (.resp 403 true false) [] = (none, [false]) := by decide

/-- **C110 (validator).**  After any requests, as many bodies are open as were allowed by an answer with content: the number grows
with every authorised request. -/
theorem C110_verify (as : List Ans) (h : Heap) :
    live (verifyAll as h) =
      live h + as.countP fun a => match a with | .resp 200 _ false => true | _ => false := by
  induction as generalizing h with
  | nil => rfl
  | cons a as ih =>
    rw [verifyAll, ih, List.countP_cons]
    cases a with
    | refused => simp [call, treat, send]
    | resp st rd em =>
      rw [(C110_careless st rd em h).1 .Verify 200 (by simp), live_append]
      by_cases hs : st = 200
      · subst hs; cases em <;> simp <;> omega
      · cases em <;> simp [hs]

example : live (verifyAll (List.replicate 1000 (.resp 200 true false)) []) = 1000 := by
  rw [C110_verify, List.countP_replicate]; rfl

/-- **C110 (capacity of peers).**  Every question for the capacity of the peers leaves one body per answering peer open, if it has
content, and asks nothing of the server itself. -/
theorem C110_peers (self : Str) (ps : List (Str × Ans)) (h : Heap) :
    live (getPeersCapacity self ps h) =
      live h + ps.countP fun p => p.1 != self && match p.2 with | .resp _ _ false => true | _ => false := by
  induction ps generalizing h with
  | nil => rfl
  | cons p ps ih =>
    obtain ⟨ip, a⟩ := p
    rw [getPeersCapacity, List.countP_cons]
    by_cases hs : ip = self
    · rw [if_pos hs, ih]; simp [hs]
    · rw [if_neg hs, ih]
      cases a with
      | refused => simp [call, treat, send]
      | resp st rd em =>
        rw [(C110_careless st rd em h).2.2.1, live_append]
        cases em <;> simp [hs] <;> omega

example : live (getPeersCapacity "a".toList [("a".toList, .refused), ("b".toList, .resp 200 true false), ("c".toList, .refused)] []) = 1 := by
  decide

/-- **C110 (download of the administration server).**  The body stays open exactly if it has content, the answer is good and the copying
stops before the end. -/
theorem C110_admin_download (a : Ans) (fin : Bool) (h : Heap) :
    live (adminDownload a fin h) =
      live h + (match a with | .resp 200 _ false => if fin then 0 else 1 | _ => 0) := by
  cases a with
  | refused => rfl
  | resp st rd em =>
    by_cases hs : st = 200
    · subst hs
      cases fin <;> cases em <;> simp [adminDownload, call, styleOf, treat, send, shut_last, live_append]
    · simp [adminDownload, call, styleOf, treat, send, shut_last, live_append, hs]

example : live (adminDownload (.resp 200 true false) false []) = 1 ∧ live (adminDownload (.resp 200 true false) true []) = 0 := by decide

/-! ## Streams -/

/-- **C110 (streams, exactly).**  For any operations on any number of readers in any order, the bodies open afterwards are those open
before, one for every answer with content and another status than 200, and one for every reader whose content has not been read to
its end and which has not been closed. -/
theorem C110_streams (k : Nat) (es : List (Nat × Op)) (hk : ∀ e ∈ es, e.1 < k) (h : Heap) :
    live (run es (opened h)).heap =
      live h + (follow es (fun _ => .fresh) 0).2 + holding (follow es (fun _ => .fresh) 0).1 k :=
  (inv_run es (inv_opened k h) hk).sum

example : live (run [(0, .read (.resp 200 true false) false), (1, .read (.resp 404 true false) false),
    (1, .read (.resp 404 true false) false), (0, .read .refused true)] (opened [])).heap = 2 := by decide

/-- No reader of a download but the first `k`, with answers of the status 200 only (or none). -/
def good (es : List (Nat × Op)) : Prop :=
  ∀ e ∈ es, ∀ st rd em, (∀ fin, e.2 = .read (.resp st rd em) fin → st = 200) ∧
    (∀ off fe fin, e.2 = .seek off fe (.resp st rd em) fin → st = 200)

theorem phase_good (o : Op) (p : Ph)
    (h1 : ∀ st rd em fin, o = .read (.resp st rd em) fin → st = 200)
    (h2 : ∀ st rd em off fe fin, o = .seek off fe (.resp st rd em) fin → st = 200) : (phase o p).2 = 0 := by
  have ha : ∀ a : Ans, (∀ st rd em, a = .resp st rd em → st = 200) → (asked a).2 = 0 := by
    intro a h
    cases a with
    | refused => rfl
    | resp st rd em => simp [asked, h st rd em rfl]
  cases o with
  | read a fin =>
    unfold phase; dsimp only; split
    · exact ha a (fun st rd em e => h1 st rd em fin (by rw [e]))
    · rfl
  | seek off fe a fin =>
    unfold phase; dsimp only; split
    · rfl
    · split
      · exact ha a (fun st rd em e => h2 st rd em off fe fin (by rw [e]))
      · split <;> rfl
  | close => rfl

theorem follow_good (es : List (Nat × Op)) (hg : good es) : ∀ ph n, (follow es ph n).2 = n := by
  induction es with
  | nil => intro ph n; rfl
  | cons e es ih =>
    intro ph n
    obtain ⟨i, o⟩ := e
    rw [follow, ih (fun e he => hg e (by simp [he])), phase_good o (ph i)]
    · rfl
    · intro st rd em fin h; exact (hg (i, o) (by simp) st rd em).1 fin h
    · intro st rd em off fe fin h; exact (hg (i, o) (by simp) st rd em).2 off fe fin h

theorem run_append (es fs : List (Nat × Op)) (s : St) : run (es ++ fs) s = run fs (run es s) := by
  induction es generalizing s with
  | nil => rfl
  | cons e es ih => obtain ⟨i, o⟩ := e; exact ih _

theorem follow_append (es fs : List (Nat × Op)) (ph : Nat → Ph) (n : Nat) :
    follow (es ++ fs) ph n = follow fs (follow es ph n).1 (follow es ph n).2 := by
  induction es generalizing ph n with
  | nil => rfl
  | cons e es ih => obtain ⟨i, o⟩ := e; exact ih _ _

/-- The bodies of a stream are given back when it is closed. -/
def C110_copy_statement : Prop :=
  ∀ (es : List (Nat × Op)) (h : Heap), (∀ e ∈ es, e.1 = 0) → live (copyClose (run es (opened h))).heap = live h

/-- **C110 (one reader, exactly).**  After `Close` of a stream with one reader, the bodies left are those of the answers with another
status than 200 and with content. -/
theorem C110_copy (es : List (Nat × Op)) (h : Heap) (h0 : ∀ e ∈ es, e.1 = 0) :
    live (copyClose (run es (opened h))).heap = live h + (follow es (fun _ => .fresh) 0).2 := by
  have e1 : copyClose (run es (opened h)) = run (es ++ [(0, .close)]) (opened h) := by rw [run_append]; rfl
  have hk : ∀ e ∈ es ++ [(0, Op.close)], e.1 < 1 := by
    intro e he
    rcases List.mem_append.1 he with h' | h'
    · rw [h0 e h']; omega
    · simp at h'; rw [h']; simp
  rw [e1, C110_streams 1 _ hk, follow_append]
  generalize follow es (fun _ => Ph.fresh) 0 = fp
  have e2 : follow [(0, Op.close)] fp.1 fp.2 = (setAt fp.1 0 (ended true (fp.1 0)), fp.2) := rfl
  rw [e2]
  have : holding (setAt fp.1 0 (ended true (fp.1 0))) 1 = 0 := by
    simp [holding, setAt]
    cases fp.1 0 <;> simp [ended]
  rw [this]; rfl

/-- **C110 (one reader, partial).**  If the data server answers with the status 200 whenever it answers, nothing is left.
Missing: answers with another status; see `C110_copy_fails`. -/
theorem C110_copy_partial (es : List (Nat × Op)) (h : Heap) (h0 : ∀ e ∈ es, e.1 = 0) (hg : good es) :
    live (copyClose (run es (opened h))).heap = live h := by
  rw [C110_copy es h h0, follow_good es hg]; rfl

example : good [(0, .seek 5 false (.resp 200 true false) false), (0, .read .refused false)] := by
  intro e he st rd em
  simp at he
  rcases he with rfl | rfl
  · exact ⟨(by intro fin h; cases h), (by intro off fe fin h; cases h; rfl)⟩
  · exact ⟨(by intro fin h; cases h), (by intro off fe fin h; cases h)⟩

/-- **C110 (one reader, refuted).**  An answer with another status is thrown away unread and unclosed. -/
theorem C110_copy_fails : ¬ C110_copy_statement := by
  intro h
  have := h [(0, .read (.resp 404 true false) false)] [] (by intro e he; simp at he; rw [he])
  exact absurd this (by decide)

/-- **C110 (one reader, without bound).**  As the reader stays unset, every further `Read` sends another request: there is no bound
for the bodies one stream leaves behind. -/
theorem C110_again (n st : Nat) (rd : Bool) (hs : st ≠ 200) (h : Heap) :
    live (copyClose (run (List.replicate n (0, .read (.resp st rd false) false)) (opened h))).heap = live h + n := by
  rw [C110_copy _ h (by intro e he; rw [List.eq_of_mem_replicate he])]
  have key : ∀ n m, (follow (List.replicate n (0, Op.read (.resp st rd false) false)) (fun _ => Ph.fresh) m).2 = m + n := by
    intro n
    induction n with
    | zero => intro m; rfl
    | succ n ih =>
      intro m
      have e1 : phase (.read (.resp st rd false) false) .fresh = (.fresh, 1) := by simp [phase, asked, hs, ended]
      have e2 : setAt (fun _ => Ph.fresh) 0 Ph.fresh = (fun _ => Ph.fresh) := by funext j; simp [setAt]
      rw [List.replicate_succ, follow, e1, e2, ih]; omega
  rw [key]; omega

example : live (copyClose (run (List.replicate 3 (0, .read (.resp 500 true false) false)) (opened [true]))).heap = 4 := by decide

/-- **C110 (GET of a replicated object).**  The handler sends one request at most, so one body at most is left, and exactly then when the
data server answers with another status than 200 and with content, and something is read. -/
theorem C110_get_copy (first : Option Int) (a : Ans) (fins : List Bool) (h : Heap) (hf : ∀ f, first = some f → 0 ≤ f) :
    live (getCopy first a fins h) =
      live h + (if first = none ∧ fins = [] then 0 else match a with | .resp 200 _ _ => 0 | .resp _ _ false => 1 | _ => 0) := by
  have hmap : ∀ (xs : List Bool) (s : St) (hv : ∃ ph n, Inv 1 (live h) s ph n ∧ ph 0 ≠ .fresh ∧ n = 0),
      live (copyClose (run (xs.map fun y => (0, Op.read a y)) s)).heap = live h := by
    intro xs
    induction xs with
    | nil =>
      rintro s ⟨ph, n, hv, hp, rfl⟩
      have := (inv_op hv 0 (by omega) .close).sum
      show live (op 0 .close s).heap = _
      rw [this]
      have : holding (setAt ph 0 (phase .close (ph 0)).1) 1 = 0 := by
        simp [holding, setAt, phase]; cases ph 0 <;> simp [ended]
      rw [this]; rfl
    | cons x xs ih =>
      rintro s ⟨ph, n, hv, hp, rfl⟩
      refine ih (op 0 (.read a x) s) ⟨_, _, inv_op hv 0 (by omega) (.read a x), ?_, ?_⟩
      · rw [setAt_at]; simp only [phase, if_neg hp]; cases hx : ph 0 <;> simp_all [ended] <;> cases x <;> simp
      · simp only [phase, if_neg hp]
  have hread : ∀ (s : St) (ph : Nat → Ph), Inv 1 (live h) s ph 0 → ph 0 ≠ .fresh →
      ∀ fins, live (copyClose (match fins with
        | [] => s
        | x :: xs =>
          let s := op 0 (.read a x) s
          if s.rd 0 = none then s else run (xs.map fun y => (0, Op.read a y)) s)).heap = live h := by
    intro s ph hv hp fins
    cases fins with
    | nil => exact hmap [] s ⟨ph, 0, hv, hp, rfl⟩
    | cons x xs =>
      have hv' := inv_op hv 0 (by omega) (.read a x)
      have hp' : (phase (.read a x) (ph 0)).1 ≠ .fresh := by
        simp only [phase, if_neg hp]; cases hx : ph 0 <;> simp_all [ended] <;> cases x <;> simp
      have hz : (phase (.read a x) (ph 0)).2 = 0 := by simp only [phase, if_neg hp]
      have hn : (op 0 (.read a x) s).rd 0 ≠ none := fun e => by
        have := (hv'.fresh 0).2 e; rw [setAt_at] at this; exact hp' this
      simp only [if_neg hn]
      exact hmap xs _ ⟨_, _, hv', by rw [setAt_at]; exact hp', by rw [hz]⟩
  have hv1 := inv_request (inv_opened 1 h) 0 (by omega) rfl a
  have hclose : ∀ s : St, s.rd 0 = none → copyClose s = s := by
    intro s hs; simp [copyClose, op, hs]
  cases first with
  | none =>
    cases fins with
    | nil => simp [getCopy, hclose, opened]
    | cons x xs =>
      cases a with
      | refused => simp [getCopy, opened, op, request, call, treat, send, consume, hclose]
      | resp st rd em =>
        by_cases hs : st = 200
        · subst hs
          have hv2 := inv_op (inv_opened 1 h) 0 (by omega) (.read (.resp 200 rd em) x)
          have hz : (phase (.read (.resp 200 rd em) x) .fresh).2 = 0 := rfl
          have hp : (phase (.read (.resp 200 rd em) x) .fresh).1 ≠ .fresh := by cases em <;> cases x <;> simp [phase, asked, ended]
          have hn : (op 0 (.read (.resp 200 rd em) x) (opened h)).rd 0 ≠ none := fun e => by
            have := (hv2.fresh 0).2 e; rw [setAt_at] at this; exact hp this
          have := hmap xs _ ⟨_, _, hv2, by rw [setAt_at]; exact hp, by rw [hz]⟩
          simp only [getCopy, ne_eq, not_true_eq_false, false_and, if_false, if_neg hn]
          simpa using this
        · have e1 : op 0 (.read (.resp st rd em) x) (opened h) = { opened h with heap := h ++ [!em] } := by
            simp [op, opened, request, call, styleOf, treat, send, hs, consume]
          simp only [getCopy, ne_eq, not_true_eq_false, false_and, if_false, e1]
          rw [if_pos (show (opened h).rd 0 = none from rfl), hclose _ rfl]
          show live (h ++ [!em]) = _
          rw [live_append]
          cases em <;> simp [hs]
  | some f =>
    have hf0 : ¬ f < 0 := by have := hf f rfl; omega
    have e0 : op 0 (.seek f false a false) (opened h) = request 0 a (opened h) := by
      simp [op, hf0]; rfl
    cases a with
    | refused =>
      have e1 : request 0 .refused (opened h) = opened h := rfl
      simp only [getCopy, e0, e1]
      rw [if_pos ⟨by simp, rfl⟩, hclose _ rfl]; simp [opened]
    | resp st rd em =>
      by_cases hs : st = 200
      · subst hs
        have hp : setAt (fun _ => Ph.fresh) 0 (asked (.resp 200 rd em)).1 0 ≠ .fresh := by
          rw [setAt_at]; cases em <;> simp [asked]
        have hn : (request 0 (.resp 200 rd em) (opened h)).rd 0 ≠ none := fun e => hp ((hv1.fresh 0).2 e)
        have := hread _ _ hv1 hp fins
        simp only [getCopy, e0]
        rw [if_neg (fun e => hn e.2)]
        cases fins <;> simpa using this
      · have e1 : request 0 (.resp st rd em) (opened h) = { opened h with heap := h ++ [!em] } := by
          simp [opened, request, call, styleOf, treat, send, hs]
        simp only [getCopy, e0, e1]
        rw [if_pos ⟨by simp, rfl⟩, hclose _ rfl]
        show live (h ++ [!em]) = _
        rw [live_append]
        cases em <;> simp [hs]

example : live (getCopy (some 10) (.resp 416 true false) [true] []) = 1 ∧
    live (getCopy none (.resp 200 true false) [false] []) = 0 := by decide

/-! ### Several shards -/

/-- The bodies of the shards are given back when the download is closed. -/
def C110_rs_statement : Prop :=
  ∀ (es : List (Nat × Op)) (h : Heap), good es → (∀ e ∈ es, ∃ a fin, e.2 = .read a fin) →
    live (rsClose (run es (opened h))).heap = live h

/-- **C110 (shards, exactly).**  `Close` of a download from `k` shards gives nothing back: left are the answers thrown away, and the bodies
not read to their end. -/
theorem C110_rs (k : Nat) (es : List (Nat × Op)) (hk : ∀ e ∈ es, e.1 < k) (h : Heap) :
    live (rsClose (run es (opened h))).heap =
      live h + (follow es (fun _ => .fresh) 0).2 + holding (follow es (fun _ => .fresh) 0).1 k :=
  C110_streams k es hk h

/-- **C110 (shards, partial).**  If every answer has the status 200 and every shard that was opened has been read to its end, nothing is left.
Missing: downloads that are broken off; see `C110_rs_fails`. -/
theorem C110_rs_partial (k : Nat) (es : List (Nat × Op)) (hk : ∀ e ∈ es, e.1 < k) (h : Heap) (hg : good es)
    (he : ∀ i < k, (follow es (fun _ => .fresh) 0).1 i ≠ .reading) :
    live (rsClose (run es (opened h))).heap = live h := by
  rw [C110_rs k es hk h, follow_good es hg]
  have : holding (follow es (fun _ => .fresh) 0).1 k = 0 := by
    unfold holding; rw [List.countP_eq_zero]; intro i hi; simpa using he i (List.mem_range.1 hi)
  rw [this]; rfl

example : ∀ i < 2, (follow [(0, .read (.resp 200 true false) true), (1, .read (.resp 200 true false) false), (1, .read .refused true)]
    (fun _ => .fresh) 0).1 i ≠ .reading := by decide

/-- The operations of a download from `k` shards that is broken off after its first block. -/
def brokenOff (k : Nat) : List (Nat × Op) := (List.range k).map fun i => (i, .read (.resp 200 true false) false)

/-- **C110 (shards, refuted).**  A client that goes away leaves one open body per shard. -/
theorem C110_broken_off (k : Nat) (h : Heap) : live (rsClose (run (brokenOff k) (opened h))).heap = live h + k := by
  have hk : ∀ e ∈ brokenOff k, e.1 < k := by
    intro e he
    obtain ⟨i, hi, rfl⟩ := List.mem_map.1 he
    exact List.mem_range.1 hi
  rw [C110_rs k _ hk h]
  have key : ∀ m ph n, (∀ i, i ≥ 0 → ph i = Ph.fresh) → ∀ j,
      (follow ((List.range m).map fun i => (i, Op.read (.resp 200 true false) false)) ph n).1 j = (if j < m then .reading else .fresh) ∧
      (follow ((List.range m).map fun i => (i, Op.read (.resp 200 true false) false)) ph n).2 = n := by
    intro m
    induction m with
    | zero => intro ph n hph j; exact ⟨by simpa [follow] using hph j (by omega), rfl⟩
    | succ m ih =>
      intro ph n hph j
      rw [List.range_succ, List.map_append, follow_append]
      have h1 := ih ph n hph
      generalize follow ((List.range m).map fun i => (i, Op.read (.resp 200 true false) false)) ph n = fp at h1
      have hm : fp.1 m = .fresh := by rw [(h1 m).1]; simp
      show setAt fp.1 m (phase (Op.read (.resp 200 true false) false) (fp.1 m)).1 j = _ ∧
        fp.2 + (phase (Op.read (.resp 200 true false) false) (fp.1 m)).2 = n
      rw [hm]
      refine ⟨?_, (h1 j).2⟩
      unfold setAt
      by_cases hj : j = m
      · rw [if_pos hj, hj, if_pos (by omega)]; rfl
      · rw [if_neg hj, (h1 j).1]
        by_cases hl : j < m
        · rw [if_pos hl, if_pos (by omega)]
        · rw [if_neg hl, if_neg (by omega)]
  have h2 := key k (fun _ => .fresh) 0 (fun _ _ => rfl)
  have e2 : (follow (brokenOff k) (fun _ => Ph.fresh) 0).2 = 0 := (h2 0).2
  have e3 : holding (follow (brokenOff k) (fun _ => Ph.fresh) 0).1 k = k := by
    unfold holding
    have : (List.range k).countP (fun i => (follow (brokenOff k) (fun _ => Ph.fresh) 0).1 i == Ph.reading) = (List.range k).length := by
      rw [List.countP_eq_length]
      intro i hi
      have := (h2 i).1
      rw [if_pos (List.mem_range.1 hi)] at this
      show ((follow (brokenOff k) (fun _ => Ph.fresh) 0).1 i == Ph.reading) = true
      unfold brokenOff; rw [this]; rfl
    rw [this, List.length_range]
  rw [e2, e3]; rfl

example : live (rsClose (run (brokenOff 6) (opened []))).heap = 6 := by decide

/-- **C110 (shards, refuted).** -/
theorem C110_rs_fails : ¬ C110_rs_statement := by
  intro h
  have := h (brokenOff 1) [] (by
      intro e he st rd em
      simp [brokenOff, List.range, List.range.loop] at he
      subst he
      exact ⟨(by intro fin h; cases h; rfl), (by intro off fe fin h; cases h)⟩)
    (by
      intro e he
      simp [brokenOff, List.range, List.range.loop] at he
      subst he
      exact ⟨_, _, rfl⟩)
  rw [C110_broken_off] at this
  cases this

end Verif.Bodies
