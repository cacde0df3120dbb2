import Verif.Common.Str

/-!
# The goroutines that look after the drives (C140)

Models `ImmediateTick`, src/common/util/util.go:56-70, and its only caller `StartAutoUpdate`,
src/objectserver/internal/usecase/component/driver_manager.go:67-84, which a data server starts when it opens and stops when it leaves
(src/objectserver/internal/app/app.go:29-44; the order of starting and stopping is C90, what `Update` does is C52).

Every `StartAutoUpdate` makes a ticker (its channel holds one tick, others are dropped), a goroutine that passes ticks on (`feeder`), a channel
with one place, and the goroutine that updates (`looker`).  `range tk.C` ends when the channel is closed, which `Ticker.Stop` does not do (package
time), and which nothing else does.  A step is what one goroutine does without waiting; `select` takes any of its cases that is ready.
-/

namespace Verif.Ticks

/-! ## Model -/

inductive Phase
  /-- in `ImmediateTick`, before util.go:68 -/
  | starting
  /-- `StartAutoUpdate` has returned -/
  | running
  /-- the goroutine of driver_manager.go:71-82 has returned -/
  | ended
  deriving DecidableEq

structure Inst where
  phase : Phase := .starting
  /-- a tick waits in `tk.C` -/
  tk : Bool := false
  /-- the feeder has a tick in its hand, util.go:64-66 -/
  hand : Bool := false
  /-- the place of `ch` is taken -/
  buf : Bool := false
  /-- `stop` was called -/
  cancelled : Bool := false
  /-- the feeder exists, and its ticker with it -/
  feeder : Bool := true
  /-- for the specification: calls of `Update`, and times that the ticker went off -/
  updates : Nat := 0
  ticks : Nat := 0
  deriving DecidableEq

inductive Ev
  | tick | take | put | now | look | cancel | seen | exit
  deriving DecidableEq

/-- One step; a goroutine that would wait does nothing.  `fixed` is false for the code as it is; true lets the feeder end when `stop` was called. -/
def step (fixed : Bool) (s : Inst) : Ev → Inst
  | .tick => if s.feeder then { s with tk := true, ticks := s.ticks + 1 } else s
  | .take => if s.feeder && s.tk && !s.hand then { s with tk := false, hand := true } else s
  -- util.go:65
  | .put => if s.feeder && s.hand && !s.buf then { s with hand := false, buf := true } else s
  -- util.go:68
  | .now => if s.phase = .starting ∧ s.buf = false then { s with buf := true, phase := .running } else s
  -- driver_manager.go:78-79
  | .look => if s.phase = .running ∧ s.buf = true then { s with buf := false, updates := s.updates + 1 } else s
  -- the function that `StartAutoUpdate` returned
  | .cancel => if s.phase = .starting then s else { s with cancelled := true }
  -- driver_manager.go:75-77
  | .seen => if s.phase = .running ∧ s.cancelled = true then { s with phase := .ended } else s
  | .exit => if fixed && s.cancelled then { s with feeder := false, tk := false } else s

def run (fixed : Bool) (s : Inst) (es : List Ev) : Inst := es.foldl (step fixed) s

/-- A data server that opens again and again. -/
inductive SEv
  | start
  | at (k : Nat) (e : Ev)

def sstep (fixed : Bool) (l : List Inst) : SEv → List Inst
  | .start => l ++ [{}]
  | .at k e => l.modify k fun s => step fixed s e

def srun (fixed : Bool) (es : List SEv) : List Inst := es.foldl (sstep fixed) []

/-! ## Specification -/

def b2n (b : Bool) : Nat := if b then 1 else 0

/-- Updates that are owed: they follow without the ticker. -/
def owed (s : Inst) : Nat := b2n s.tk + b2n s.hand + b2n s.buf

/-- **C140** The drives are looked at once when the data server opens and once for every minute after that, not after `stop`, and then nothing of it
is left: (1) the start never waits for ever, (2) there are at most as many updates as ticks and one, and those that are owed are few, (3) no update
follows `stop`, (4) after `stop` everything ends. -/
structure Statement : Prop where
  starts : ∀ es, (run false {} es).phase = .starting → ∃ es', Ev.tick ∉ es' ∧ (run false (run false {} es) es').phase ≠ .starting
  rate : ∀ es, (run false {} es).updates ≤ (run false {} es).ticks + 1 ∧ owed (run false {} es) ≤ 3
  quiet : ∀ es es', (run false {} es).cancelled = true → (run false (run false {} es) es').updates = (run false {} es).updates
  gone : ∀ es, (run false {} es).cancelled = true → ∃ es', (run false (run false {} es) es').feeder = false ∧
    (run false (run false {} es) es').phase = .ended

/-! ## Theorems -/

theorem run_append (f : Bool) (s : Inst) (xs ys : List Ev) : run f s (xs ++ ys) = run f (run f s xs) ys := List.foldl_append

theorem run_cons (f : Bool) (s : Inst) (e : Ev) (es : List Ev) : run f s (e :: es) = run f (step f s e) es := rfl

theorem run_inv {f : Bool} (p : Inst → Prop) (hp : ∀ s e, p s → p (step f s e)) (es : List Ev) : ∀ s, p s → p (run f s es) := by
  induction es with
  | nil => intro s h; exact h
  | cons e es ih => intro s h; exact ih _ (hp s e h)

/-- Ticks are neither made up nor kept for later: what was done and what is owed is at most what the ticker gave and the first. -/
theorem bounded_step (f : Bool) (s : Inst) (e : Ev)
    (h : s.updates + owed s ≤ s.ticks + b2n (decide (s.phase ≠ .starting))) :
    (step f s e).updates + owed (step f s e) ≤ (step f s e).ticks + b2n (decide ((step f s e).phase ≠ .starting)) := by
  unfold owed at *
  cases e <;> unfold step <;> dsimp only <;> split <;> simp only [b2n] at * <;> grind

/-- **C140** At most one update for every tick, and the first; never more than three are owed. -/
theorem C140_rate (es : List Ev) : (run false {} es).updates + owed (run false {} es) ≤ (run false {} es).ticks + 1 ∧
    owed (run false {} es) ≤ 3 := by
  refine ⟨?_, ?_⟩
  · have := run_inv (f := false) _ (fun s e h => bounded_step false s e h) es {} (by decide)
    have h1 : ∀ b, b2n b ≤ 1 := by intro b; cases b <;> decide
    have := h1 (decide ((run false {} es).phase ≠ .starting))
    omega
  · have h1 : ∀ b, b2n b ≤ 1 := by intro b; cases b <;> decide
    have a := h1 (run false {} es).tk
    have b := h1 (run false {} es).hand
    have c := h1 (run false {} es).buf
    unfold owed
    omega

/-- **C140** Whatever was owed before, after a silent ticker no more than three updates follow. -/
theorem C140_burst (es es' : List Ev) (h : Ev.tick ∉ es') (hr : (run false {} es).phase ≠ .starting) :
    (run false (run false {} es) es').updates ≤ (run false {} es).updates + 3 := by
  have key : ∀ (es' : List Ev) (s : Inst), Ev.tick ∉ es' → s.phase ≠ .starting → (run false s es').updates + owed (run false s es') ≤ s.updates + owed s := by
    intro es'
    induction es' with
    | nil => intro s _ _; exact Nat.le_refl _
    | cons e es' ih =>
      intro s ht hs
      rw [run_cons]
      have h1 : (step false s e).phase ≠ .starting := by
        cases e <;> unfold step <;> dsimp only <;> split <;> grind
      have h2 := ih (step false s e) (by grind) h1
      have h3 : (step false s e).updates + owed (step false s e) ≤ s.updates + owed s := by
        unfold owed
        cases e <;> unfold step <;> dsimp only <;> split <;> simp only [b2n] at * <;> grind
      omega
  have h1 := key es' _ h hr
  have h2 := (C140_rate es).2
  omega

/-- **C140** When the ticker has not gone off before the start is through, the drives are looked at at once, without it. -/
theorem C140_at_once : (run false {} [.now, .look]).updates = 1 ∧ (run false {} [.now, .look]).ticks = 0 := by decide

/-- **C140** No tick is dropped while the goroutines are quick: if every tick finds `tk.C` empty and the start was through before the first, what was done
and what is owed is what the ticker gave and the first. -/
theorem C140_exact (es : List Ev) (h : ∀ xs ys, es = xs ++ .tick :: ys → (run false (run false {} [.now]) xs).tk = false) :
    (run false {} (.now :: es)).updates + owed (run false {} (.now :: es)) = (run false {} (.now :: es)).ticks + 1 := by
  have key : ∀ (es : List Ev) (s : Inst), s.feeder = true → s.phase ≠ .starting →
      (∀ xs ys, es = xs ++ .tick :: ys → (run false s xs).tk = false) → s.updates + owed s = s.ticks + 1 →
      (run false s es).updates + owed (run false s es) = (run false s es).ticks + 1 := by
    intro es
    induction es with
    | nil => intro s _ _ _ h; exact h
    | cons e es ih =>
      intro s hf hp ht hb
      rw [run_cons]
      have h0 : e = .tick → s.tk = false := fun he => ht [] es (by rw [he]; rfl)
      refine ih (step false s e) ?_ ?_ (fun xs ys hxy => by have := ht (e :: xs) ys (by rw [hxy]; rfl); exact this) ?_
      · cases e <;> unfold step <;> dsimp only <;> split <;> grind
      · cases e <;> unfold step <;> dsimp only <;> split <;> grind
      · unfold owed at *
        cases e <;> unfold step <;> dsimp only <;> split <;> simp only [b2n] at * <;> grind
  exact key es (run false {} [.now]) rfl (by decide) h (by decide)

/-- **C140** After the goroutine that updates has seen `stop` there is no update any more. -/
theorem C140_quiet_partial (es es' : List Ev) (h : (run false {} es).phase = .ended) :
    (run false (run false {} es) es').updates = (run false {} es).updates := by
  exact (run_inv (f := false) (fun s => s.phase = .ended ∧ s.updates = (run false {} es).updates)
    (by
      intro s e hs
      cases e <;> unfold step <;> dsimp only <;> split <;> grind) es' _ ⟨h, rfl⟩).2

/-- **C140** A stop can always be seen. -/
theorem C140_stops (es : List Ev) (h : (run false {} es).cancelled = true) : (run false (run false {} es) [.seen]).phase = .ended := by
  have h1 := run_inv (f := false) (fun s => s.cancelled = true → s.phase ≠ .starting)
    (by
      intro s e hs
      cases e <;> unfold step <;> dsimp only <;> split <;> grind) es {} (by decide) h
  unfold run at *
  simp only [List.foldl_cons, List.foldl_nil, step]
  cases hp : (List.foldl (step false) {} es).phase <;> simp_all

/-- **C140** Until then `select` may choose the ticks, as often as there are any. -/
theorem C140_late (k : Nat) : ∃ es', (run false (run false {} [.now, .look, .cancel]) es').updates = 1 + k := by
  let s0 := run false {} [.now, .look, .cancel]
  have key : ∀ k, ∃ es', (run false s0 es') = { s0 with updates := 1 + k, ticks := k } := by
    intro k
    induction k with
    | zero => exact ⟨[], by decide⟩
    | succ k ih =>
      obtain ⟨es', he⟩ := ih
      refine ⟨es' ++ [.tick, .take, .put, .look], ?_⟩
      rw [run_append, he]
      rfl
  obtain ⟨es', he⟩ := key k
  exact ⟨es', by change (run false s0 es').updates = _; rw [he]⟩

/-- **C140** If the ticker goes off before util.go:68, the feeder takes the place of the first tick; `ImmediateTick` waits for the one who would read, and
who is started after it: the data server never opens (its drives were looked at once before, instance.go:107). -/
theorem C140_stuck (es : List Ev) : (run false {} ([.tick, .take, .put] ++ es)).phase = .starting ∧
    (run false {} ([.tick, .take, .put] ++ es)).updates = 0 := by
  rw [run_append]
  have := run_inv (f := false) (fun s => s.phase = .starting ∧ s.updates = 0 ∧ s.buf = true)
    (by
      intro s e hs
      cases e <;> unfold step <;> dsimp only <;> split <;> grind) es (run false {} [.tick, .take, .put]) (by decide)
  exact ⟨this.1, this.2.1⟩

/-- **C140** The start is through whenever it comes first. -/
theorem C140_starts_partial (es : List Ev) (h : (run false {} es).buf = false) : (run false (run false {} es) [.now]).phase ≠ .starting := by
  unfold run at *
  simp only [List.foldl_cons, List.foldl_nil, step]
  split <;> simp_all

/-- **C140** No feeder and no ticker ever ends. -/
theorem C140_feeder (es : List Ev) : (run false {} es).feeder = true :=
  run_inv (f := false) (fun s => s.feeder = true)
    (by
      intro s e hs
      cases e <;> unfold step <;> dsimp only <;> split <;> grind) es {} rfl

/-- How often the server was opened. -/
def starts (es : List SEv) : Nat := (es.filter fun e => match e with | .start => true | _ => false).length

/-- **C140** A data server that was opened `k` times has `k` feeders and `k` tickers, whatever was stopped. -/
theorem C140_add_up (es : List SEv) : ((srun false es).filter (·.feeder)).length = starts es := by
  have key : ∀ (es : List SEv) (l : List Inst), (∀ s ∈ l, s.feeder = true) →
      (∀ s ∈ es.foldl (sstep false) l, s.feeder = true) ∧ (es.foldl (sstep false) l).length = l.length + starts es := by
    intro es
    induction es with
    | nil => intro l h; exact ⟨h, by simp [starts]⟩
    | cons e es ih =>
      intro l h
      cases e with
      | start =>
        have := ih (l ++ [({} : Inst)]) (by grind)
        refine ⟨this.1, ?_⟩
        rw [List.foldl_cons]
        change (es.foldl (sstep false) (l ++ [({} : Inst)])).length = _
        rw [this.2]
        simp [starts]
        omega
      | «at» k e =>
        have hm : ∀ s ∈ l.modify k fun s => step false s e, s.feeder = true := by
          intro s hs
          obtain ⟨i, hi, rfl⟩ := List.mem_iff_getElem.1 hs
          rw [List.getElem_modify]
          have hl := h (l[i]'(by simpa using hi)) (List.getElem_mem _)
          split
          · cases e <;> unfold step <;> dsimp only <;> split <;> grind
          · exact hl
        have := ih _ hm
        refine ⟨this.1, ?_⟩
        rw [List.foldl_cons]
        change (es.foldl (sstep false) (l.modify k fun s => step false s e)).length = _
        rw [this.2]
        simp [starts]
  obtain ⟨h1, h2⟩ := key es [] (by simp)
  unfold srun
  rw [List.filter_eq_self.2 h1, h2]
  simp

theorem C140_statement_fails : ¬ Statement := by
  intro h
  obtain ⟨es', h1, _⟩ := h.gone [.now, .cancel] (by decide)
  have := C140_feeder ([.now, .cancel] ++ es')
  rw [run_append, h1] at this
  cases this

/-- **C140** All but the second part fail. -/
theorem C140_parts_fail : (¬ ∀ es, (run false {} es).phase = .starting →
      ∃ es', Ev.tick ∉ es' ∧ (run false (run false {} es) es').phase ≠ .starting) ∧
    (¬ ∀ es es', (run false {} es).cancelled = true → (run false (run false {} es) es').updates = (run false {} es).updates) := by
  constructor
  · intro h
    obtain ⟨es', _, h2⟩ := h [.tick, .take, .put] (by decide)
    rw [← run_append] at h2
    exact h2 (C140_stuck es').1
  · intro h
    obtain ⟨es', h2⟩ := C140_late 1
    have := h [.now, .look, .cancel] es' (by decide)
    rw [h2] at this
    revert this
    decide

/-- **C140** With a feeder that watches for `stop` too, everything ends after it, and two steps are enough. -/
theorem C140_repair (es : List Ev) (h : (run true {} es).cancelled = true) : (run true (run true {} es) [.exit, .seen]).feeder = false ∧
    (run true (run true {} es) [.exit, .seen]).phase = .ended ∧
    ∀ es', (run true (run true (run true {} es) [.exit, .seen]) es').feeder = false ∧
      (run true (run true (run true {} es) [.exit, .seen]) es').updates = (run true {} es).updates := by
  have h1 := run_inv (f := true) (fun s => s.cancelled = true → s.phase ≠ .starting)
    (by
      intro s e hs
      cases e <;> unfold step <;> dsimp only <;> split <;> grind) es {} (by decide) h
  have h2 : (run true (run true {} es) [.exit, .seen]).feeder = false ∧ (run true (run true {} es) [.exit, .seen]).phase = .ended ∧
      (run true (run true {} es) [.exit, .seen]).updates = (run true {} es).updates := by
    unfold run at *
    simp only [List.foldl_cons, List.foldl_nil, step, h, Bool.and_self, ↓reduceIte, and_true]
    cases hp : (List.foldl (step true) {} es).phase <;> simp_all
  refine ⟨h2.1, h2.2.1, fun es' => ?_⟩
  have := run_inv (f := true) (fun s => s.feeder = false ∧ s.phase = .ended ∧ s.updates = (run true {} es).updates)
    (by
      intro s e hs
      cases e <;> unfold step <;> dsimp only <;> split <;> grind) es' _ h2
  exact ⟨this.1, this.2.2⟩

/-- **C140** Such a feeder does not end before `stop`. -/
theorem C140_repair_alive (es : List Ev) (h : (run true {} es).cancelled = false) : (run true {} es).feeder = true :=
  run_inv (f := true) (fun s => s.cancelled = false → s.feeder = true)
    (by
      intro s e hs
      cases e <;> unfold step <;> dsimp only <;> split <;> grind) es {} (fun _ => rfl) h

/-! ## Non-vacuity -/

example : (run true {} [.now, .tick, .exit, .take]).cancelled = false := by decide

/-- Three updates are owed while the first one hangs. -/
example : owed (run false {} [.now, .look, .tick, .take, .put, .tick, .take, .tick, .tick]) = 3 ∧
    (run false {} [.now, .look, .tick, .take, .put, .tick, .take, .tick, .tick]).ticks = 4 := by decide

/-- The hypothesis of `C140_exact`. -/
example : ∀ xs ys, ([.look, .tick, .take, .put, .look, .tick] : List Ev) = xs ++ .tick :: ys → (run false (run false {} [.now]) xs).tk = false := by
  intro xs ys h
  have : xs = [.look] ∨ xs = [.look, .tick, .take, .put, .look] := by
    rcases xs with _ | ⟨a, _ | ⟨b, _ | ⟨c, _ | ⟨d, _ | ⟨e, _ | ⟨f, xs⟩⟩⟩⟩⟩⟩ <;> first | grind | simp_all
  rcases this with rfl | rfl <;> decide

/-- A server that left and joined again. -/
example : ((srun false [.start, .at 0 .now, .at 0 .cancel, .at 0 .seen, .start]).filter (·.feeder)).length = 2 := by decide

example : (run true {} [.now, .cancel]).cancelled = true ∧ (run false {} [.now, .cancel, .seen]).phase = .ended := by decide

end Verif.Ticks
