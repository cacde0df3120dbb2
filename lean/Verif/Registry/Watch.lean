import Verif.Common.Str

/-!
# Discovery after outages of etcd (C145)

Models `initService` and `asyncWatch` of src/common/registry/etcd_discovery.go:43-101 for one service over a whole life: the list is read once, then changes
are watched; when the watch ends the goroutine waits two seconds and watches again, from then on.  C55 has the names and views; here the keys are numbers.

Simplified: applying one event is one step; a response is one event; a watch that ends takes with it what it had not delivered (etcd cancels a watch whose
client is too slow or whose revision was compacted, and the goroutine does not say from which revision it wants to go on).  Writes of the list by other
goroutines are C123.
-/

namespace Verif.Watch

/-! ## Model -/

abbrev Map := Nat → Option Nat

/-- A change: `PUT` with an address or `DELETE`. -/
structure Change where
  key : Nat
  val : Option Nat

def Map.set (m : Map) (c : Change) : Map := fun k => if k = c.key then c.val else m k

/-- Lines 79-91: events in their order. -/
def Map.play (m : Map) (cs : List Change) : Map := cs.foldl Map.set m

/-- `combine`, service_list.go:18-22: what is in etcd is added, nothing is removed. -/
def Map.combine (m e : Map) : Map := fun k => match e k with | some v => some v | none => m k

inductive Mode
  /-- before the answer of line 50 -/
  | start
  /-- after line 53: the goroutine has ended -/
  | gone
  /-- before line 72 -/
  | waiting
  | watching
  /-- not in the code: the goroutine has ended because of `Close` -/
  | ended
  deriving DecidableEq

structure St where
  etcd : Map := fun _ => none
  view : Map := fun _ => none
  mode : Mode := .start
  /-- changes that the watch has still to deliver -/
  queue : List Change := []
  closed : Bool := false
  /-- how often line 72 was reached -/
  rounds : Nat := 0

inductive Ev
  | change (c : Change)
  | got
  | getFails
  | watch
  | deliver
  | breaks
  | close

/-- One step of lines 43-101; what cannot happen changes nothing.  `fixed`: not in the code; every round reads the list together with the revision from which
it watches, a failed read leads to another round, and `Close` ends the goroutine. -/
def step (fixed : Bool) (s : St) : Ev → St
  | .change c => { s with etcd := s.etcd.set c, queue := if s.mode = .watching then s.queue ++ [c] else s.queue }
  | .got => if s.mode = .start then { s with view := s.view.combine s.etcd, mode := .waiting } else s
  | .getFails => if s.mode = .start then { s with mode := if fixed then .waiting else .gone } else s
  | .watch =>
    if s.mode = .waiting then
      if s.closed then { s with mode := if fixed then .ended else .waiting, rounds := s.rounds + 1 }
      else { s with mode := .watching, queue := [], rounds := s.rounds + 1, view := if fixed then s.etcd else s.view }
    else s
  | .deliver =>
    match s.mode, s.queue with
    | .watching, c :: cs => { s with view := s.view.set c, queue := cs }
    | _, _ => s
  | .breaks => if s.mode = .watching then { s with mode := .waiting, queue := [] } else s
  | .close => { s with closed := true, mode := if s.mode = .watching then .waiting else s.mode, queue := if s.mode = .watching then [] else s.queue }

def run (fixed : Bool) (s : St) (es : List Ev) : St := es.foldl (step fixed) s

/-! ## Specification -/

/-- What the goroutine will have when it has applied what is on its way. -/
def Right (s : St) : Prop := s.mode = .watching → s.view.play s.queue = s.etcd

/-- **C145** A discovery that watches has the list of etcd but for what is on its way; it comes to watch whatever has failed before; and it ends after
`Close`. -/
structure Statement : Prop where
  right : ∀ es, Right (run false {} es)
  heals : ∀ es, (run false {} es).closed = false → ∃ es', (run false (run false {} es) es').mode = .watching
  ends : ∀ es, (run false {} es).closed = true → ∃ es', (run false (run false {} es) es').mode = .ended ∨ (run false (run false {} es) es').mode = .gone

/-! ## Lemmas -/

theorem play_append (m : Map) (a b : List Change) : m.play (a ++ b) = (m.play a).play b := List.foldl_append

theorem play_eq (cs : List Change) (k : Nat) : ∀ m m' : Map, m k = m' k → (m.play cs) k = (m'.play cs) k := by
  induction cs with
  | nil => intro m m' h; exact h
  | cons c cs ih =>
    intro m m' h
    refine ih _ _ ?_
    unfold Map.set
    split
    · rfl
    · exact h

theorem play_other (cs : List Change) (k : Nat) (h : ∀ c ∈ cs, c.key ≠ k) : ∀ m : Map, (m.play cs) k = m k := by
  induction cs with
  | nil => intro m; rfl
  | cons c cs ih =>
    intro m
    have h1 := ih (fun c' hc' => h c' (List.mem_cons_of_mem _ hc')) (m.set c)
    have h2 := h c List.mem_cons_self
    change ((m.set c).play cs) k = _
    rw [h1]
    unfold Map.set
    rw [if_neg (fun he => h2 he.symm)]

theorem run_inv {fixed : Bool} (p : St → Prop) (q : Ev → Prop) (hp : ∀ s e, q e → p s → p (step fixed s e)) (es : List Ev) :
    ∀ s, (∀ e ∈ es, q e) → p s → p (run fixed s es) := by
  induction es with
  | nil => intro s _ h; exact h
  | cons e es ih =>
    intro s hq h
    exact ih _ (fun e' he' => hq e' (List.mem_cons_of_mem _ he')) (hp s e (hq e List.mem_cons_self) h)

/-! ## Theorems -/

/-- The key is right, but for what is on its way. -/
def Key (k : Nat) (s : St) : Prop := s.mode = .watching ∧ (s.view.play s.queue) k = s.etcd k

theorem key_step (k : Nat) (s : St) (e : Ev) (he : match e with | .breaks => False | .close => False | _ => True) (h : Key k s) : Key k (step false s e) := by
  obtain ⟨h1, h2⟩ := h
  cases e with
  | change c =>
    unfold step
    refine ⟨h1, ?_⟩
    dsimp only
    rw [if_pos h1, play_append]
    change ((s.view.play s.queue).set c) k = (s.etcd.set c) k
    unfold Map.set
    split
    · rfl
    · exact h2
  | got => unfold step; dsimp only; rw [if_neg (by rw [h1]; nofun)]; exact ⟨h1, h2⟩
  | getFails => unfold step; dsimp only; rw [if_neg (by rw [h1]; nofun)]; exact ⟨h1, h2⟩
  | watch => unfold step; dsimp only; rw [if_neg (by rw [h1]; nofun)]; exact ⟨h1, h2⟩
  | deliver =>
    unfold step
    dsimp only
    split
    · rename_i c cs hm hq
      refine ⟨h1, ?_⟩
      dsimp only
      rw [hq] at h2
      exact h2
    · exact ⟨h1, h2⟩
  | breaks => exact he.elim
  | close => exact he.elim

/-- **C145, partial** A key that changes while the watch works is right from then on, whatever was wrong about it before, until the watch ends. -/
theorem C145_change_partial (s : St) (c : Change) (es : List Ev) (h : s.mode = .watching) (he : ∀ e ∈ es, match e with | .breaks => False | .close => False | _ => True) :
    ((run false (step false s (.change c)) es).view.play (run false (step false s (.change c)) es).queue) c.key =
      (run false (step false s (.change c)) es).etcd c.key := by
  refine (run_inv (Key c.key) _ (fun s e he h => key_step c.key s e he h) es _ he ?_).2
  refine ⟨h, ?_⟩
  unfold step
  dsimp only
  rw [if_pos h, play_append]
  change ((s.view.play s.queue).set c) c.key = (s.etcd.set c) c.key
  simp [Map.set]

/-- **C145, partial** A discovery that was right when a watch began has what etcd has, but for what is on its way, until the watch ends. -/
theorem C145_right_partial (s : St) (es : List Ev) (h : s.mode = .watching) (hq : s.queue = []) (hv : s.view = s.etcd)
    (he : ∀ e ∈ es, match e with | .breaks => False | .close => False | _ => True) :
    (run false s es).view.play (run false s es).queue = (run false s es).etcd := by
  funext k
  exact (run_inv (Key k) _ (fun s e he h => key_step k s e he h) es _ he ⟨h, by rw [hq, hv]; rfl⟩).2

/-- Nothing changes the key. -/
def noChange (k : Nat) : Ev → Prop
  | .change c => c.key ≠ k
  | _ => True

/-- **C145** What changed while nothing was watched is never learned, however long discovery goes on, until the key changes once more. -/
theorem C145_missed (k : Nat) (s : St) (hm : s.mode = .waiting) (hq : ∀ c ∈ s.queue, c.key ≠ k) (es : List Ev) (he : ∀ e ∈ es, noChange k e) :
    (run false s es).view k = s.view k ∧ (run false s es).etcd k = s.etcd k := by
  have h := run_inv (fixed := false) (fun t => t.mode ≠ .start ∧ (∀ c ∈ t.queue, c.key ≠ k) ∧ t.view k = s.view k ∧ t.etcd k = s.etcd k) (noChange k) ?_ es s he
    ⟨by rw [hm]; nofun, hq, rfl, rfl⟩
  · exact h.2.2
  · intro t e hn ⟨h1, h2, h3, h4⟩
    cases e with
    | change c =>
      have hn : c.key ≠ k := hn
      unfold step
      refine ⟨h1, ?_, h3, ?_⟩
      · dsimp only; split <;> grind
      · change (t.etcd.set c) k = _
        unfold Map.set
        rw [if_neg (fun he => hn he.symm)]
        exact h4
    | deliver =>
      unfold step; dsimp only; split
      · rename_i c cs hm' hq'
        have hc := h2 c (by rw [hq']; exact List.mem_cons_self)
        refine ⟨h1, fun c' hc' => h2 c' (by rw [hq']; exact List.mem_cons_of_mem _ hc'), ?_, h4⟩
        change (t.view.set c) k = _
        unfold Map.set
        rw [if_neg (fun he => hc he.symm)]
        exact h3
      · exact ⟨h1, h2, h3, h4⟩
    | _ => unfold step; dsimp only; (repeat' split) <;> grind

/-- **C145** The first read adds what etcd has, and keeps what the server knew of itself; it is done once. -/
theorem C145_first (s : St) (hm : s.mode = .start) : (∀ k v, s.etcd k = some v → (step false s .got).view k = some v) ∧
    (∀ k, s.etcd k = none → (step false s .got).view k = s.view k) ∧ step false (step false s .got) .got = step false s .got := by
  refine ⟨fun k v h => ?_, fun k h => ?_, ?_⟩ <;> simp [step, hm, Map.combine, *]

/-- **C145** If the first read fails, the goroutine ends and the service is never discovered: the list stays as it was, whatever is registered. -/
theorem C145_gone (s : St) (hm : s.mode = .gone) (es : List Ev) : (run false s es).mode = .gone ∧ (run false s es).view = s.view := by
  refine run_inv (fixed := false) (fun t => t.mode = .gone ∧ t.view = s.view) (fun _ => True) ?_ es s (fun _ _ => trivial) ⟨hm, rfl⟩
  intro t e _ ⟨h1, h2⟩
  cases e <;> unfold step <;> dsimp only <;> (repeat' split) <;> grind

/-- **C145** `success` is never true (lines 71, 76, 94): the goroutine does not end after `Close`, and tries again every two seconds, for ever. -/
theorem C145_forever (es : List Ev) : (run false {} es).mode ≠ .ended :=
  run_inv (fixed := false) (fun t => t.mode ≠ .ended) (fun _ => True)
    (by intro t e _ h; cases e <;> unfold step <;> dsimp only <;> (repeat' split) <;> grind) es {} (fun _ _ => trivial) (by nofun)

theorem C145_rounds (s : St) (hm : s.mode = .waiting) (hc : s.closed = true) (n : Nat) :
    (run false s (List.replicate n .watch)).rounds = s.rounds + n := by
  induction n generalizing s with
  | zero => rfl
  | succ n ih =>
    have h1 : step false s .watch = { s with rounds := s.rounds + 1 } := by
      cases s; simp_all [step]
    rw [List.replicate_succ]
    change (run false (step false s .watch) (List.replicate n .watch)).rounds = _
    rw [h1]
    have := ih { s with rounds := s.rounds + 1 } hm hc
    dsimp only at this
    omega

/-- A server registers while the watch is down. -/
def outage : List Ev := [.got, .watch, .breaks, .change ⟨1, some 7⟩, .watch]

/-- **C145** Each part fails. -/
theorem C145_parts_fail : (¬ ∀ es, Right (run false {} es)) ∧
    (¬ ∀ es, (run false {} es).closed = false → ∃ es', (run false (run false {} es) es').mode = .watching) ∧
    ¬ ∀ es, (run false {} es).closed = true → ∃ es', (run false (run false {} es) es').mode = .ended ∨ (run false (run false {} es) es').mode = .gone := by
  refine ⟨fun h => ?_, fun h => ?_, fun h => ?_⟩
  · have := congrFun (h outage rfl) 1
    exact absurd this (by decide)
  · obtain ⟨es', h'⟩ := h [.getFails] rfl
    rw [(C145_gone (run false {} [.getFails]) rfl es').1] at h'
    cases h'
  · obtain ⟨es', h'⟩ := h [.got, .watch, .close] rfl
    have h1 : ∀ s : St, s.mode = .waiting ∨ s.mode = .watching → (run false s es').mode = .waiting ∨ (run false s es').mode = .watching := by
      intro s hs
      exact run_inv (fixed := false) (fun t => t.mode = .waiting ∨ t.mode = .watching) (fun _ => True)
        (by intro t e _ h; cases e <;> unfold step <;> dsimp only <;> (repeat' split) <;> grind) es' s (fun _ _ => trivial) hs
    have h2 := h1 (run false {} [.got, .watch, .close]) (.inl rfl)
    rcases h' with h' | h' <;> rw [h'] at h2 <;> rcases h2 with h2 | h2 <;> cases h2

theorem C145_statement_fails : ¬ Statement := fun h => C145_parts_fail.1 h.right

/-- **C145, repaired** With a read and a revision in every round the list is right, but for what is on its way, in every state. -/
theorem C145_repair_right (es : List Ev) : Right (run true {} es) := by
  refine run_inv (fixed := true) Right (fun _ => True) ?_ es {} (fun _ _ => trivial) (by nofun)
  intro s e _ h
  cases e with
  | change c =>
    intro hm
    have hm : s.mode = .watching := hm
    unfold step
    dsimp only
    rw [if_pos hm, play_append, h hm]
    rfl
  | deliver =>
    unfold step; dsimp only; split
    · rename_i c cs hm' hq
      intro _
      have := h hm'
      rw [hq] at this
      exact this
    · exact h
  | watch =>
    unfold step; dsimp only; split
    · split
      · intro hm; cases hm
      · intro _; rfl
    · exact h
  | got => unfold step; dsimp only; split <;> first | exact h | (intro hm; cases hm)
  | getFails => unfold step; dsimp only; split <;> first | exact h | (intro hm; cases hm)
  | breaks => unfold step; dsimp only; split <;> first | exact h | (intro hm; cases hm)
  | close =>
    intro hm
    unfold step at hm
    dsimp only at hm
    split at hm
    · cases hm
    · rename_i hn; exact absurd hm hn

/-- **C145, repaired** It comes to watch from every state, and ends after `Close`. -/
theorem C145_repair_lives (es : List Ev) :
    ((run true {} es).closed = false → (run true {} (es ++ [.got, .breaks, .watch])).mode = .watching) ∧
    ((run true {} es).closed = true → (run true {} (es ++ [.got, .breaks, .watch])).mode = .ended) := by
  have h := run_inv (fixed := true) (fun t => t.mode ≠ .gone ∧ (t.mode = .ended → t.closed = true)) (fun _ => True)
    (by intro t e _ h; cases e <;> unfold step <;> dsimp only <;> (repeat' split) <;> grind) es {} (fun _ _ => trivial) ⟨by nofun, by nofun⟩
  have hr : run true {} (es ++ [.got, .breaks, .watch]) = run true (run true {} es) [.got, .breaks, .watch] := List.foldl_append
  rw [hr]
  generalize run true {} es = s at h
  obtain ⟨h1, h2⟩ := h
  constructor <;> intro hc <;> cases hm : s.mode <;> simp_all [run, step]

/-! ## Non-vacuity -/

/-- The hypotheses of `C145_missed`: another server registers, is learned, and the first is not. -/
example : let s := run false {} (outage.take 4)
    s.mode = .waiting ∧ s.queue = [] ∧ s.etcd 1 = some 7 ∧ s.view 1 = none ∧
      (run false s [.watch, .change ⟨2, some 8⟩, .deliver]).view 2 = some 8 ∧ (run false s [.watch, .change ⟨2, some 8⟩, .deliver]).view 1 = none :=
  ⟨rfl, rfl, rfl, rfl, rfl, rfl⟩

/-- A server that knows itself, under key 5, and one that is registered. -/
example : (step false { etcd := Map.set (fun _ => none) ⟨1, some 7⟩, view := Map.set (fun _ => none) ⟨5, some 9⟩ } .got).view 5 = some 9 ∧
    (step false { etcd := Map.set (fun _ => none) ⟨1, some 7⟩, view := Map.set (fun _ => none) ⟨5, some 9⟩ } .got).view 1 = some 7 := ⟨rfl, rfl⟩

/-- Two watches. -/
example : (run false {} outage).rounds = 2 := rfl

/-- Of `C145_change_partial`: it changes once more. -/
example : (run false {} outage).mode = .watching ∧ (run false {} (outage ++ [.change ⟨1, some 9⟩, .deliver])).view 1 = some 9 := ⟨rfl, rfl⟩

/-- Of `C145_right_partial`. -/
example : let s := run false {} [.got, .watch]
    s.mode = .watching ∧ s.queue = [] ∧ s.view = s.etcd := ⟨rfl, rfl, rfl⟩

example : (run false {} [.getFails]).mode = .gone ∧ (run false {} [.got, .watch, .close]).mode = .waiting ∧
    (run false {} [.got, .watch, .close]).closed = true := ⟨rfl, rfl, rfl⟩

end Verif.Watch
