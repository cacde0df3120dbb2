import Verif.Conc.Panics

/-!
# Panics of goroutines are contained (C77)
-/

namespace Verif.Conc.Panics

variable {σ : Type}

/-! ## Specification -/

/-- The logging function returns normally. -/
def Logger.Returns (lg : Logger σ) : Prop := ∀ msg p s, ∃ s', lg msg p s = (.ok (), p, s')

/-- Full statement, `Recover`: a goroutine that defers `graceful.Recover()` never ends the process. -/
def C77_recover_statement : Prop :=
  ∀ (σ : Type) (log : String → σ → σ) (body : M σ Unit) (s : σ),
    (goroutine (guarded (panicf log) none body) s).1 = .ok ()

/-- Full statement, `Done` ("recover and call Error() on panic"): a task of a group that panics is
counted as done, its panic is delivered as the error of the group, and the process goes on. -/
def C77_done_statement : Prop :=
  ∀ (body : M Group Unit) (s s' : Group) (p' : Option String) (e : String),
    body none s = (.error e, p', s') → s'.count ≠ 0 → s'.closed = false →
    ∃ g, goroutine (withDefers body [gDone (panicf logIn)]) s = (.ok (), g) ∧ g.errs = s'.errs ++ [e] ∧
      g.count = s'.count - 1 ∧ g.closed = true

/-! ## What holds -/

/-- **C77** partial: a goroutine with `defer graceful.Recover()` goes on exactly if its body does not
panic: recovery never stops a panic, it only logs it first.  Missing: the containment itself. -/
theorem C77_recover_partial (log : String → σ → σ) (body : M σ Unit) (s : σ) :
    (goroutine (guarded (panicf log) none body) s) =
      match body none s with
      | (.ok (), _, s') => (.ok (), s')
      | (.error e, _, s') => (.error e, log e s') := by
  unfold goroutine guarded withDefers
  rcases h : body none s with ⟨r, p', s'⟩
  cases r with
  | ok a => rfl
  | error e => rfl

/-- **C77** The function given to `Recover` runs exactly if the body panics, with the text of the
panic and before the message is logged; if it returns, the process still ends. -/
theorem C77_callback (log : String → σ → σ) (fn : String → M σ Unit) (body : M σ Unit) (s : σ) :
    (goroutine (guarded (panicf log) (some fn) body) s) =
      match body none s with
      | (.ok (), _, s') => (.ok (), s')
      | (.error e, _, s') => match fn e none s' with
        | (.ok (), _, s'') => (.error e, log e s'')
        | (.error e', _, s'') => (.error e', s'') := by
  unfold goroutine guarded withDefers
  rcases h : body none s with ⟨r, p', s'⟩
  cases r with
  | ok a => rfl
  | error e =>
    simp only [List.foldl_cons, List.foldl_nil, runDeferred, recoverFn, andThen, recover, call]
    rcases hf : fn e none s' with ⟨r', p'', s''⟩
    cases r' with
    | ok a => rfl
    | error e' => rfl

/-- **C77** The full statement for `Recover` is wrong for every body that panics. -/
theorem C77_recover_fails (log : String → σ → σ) (body : M σ Unit) (s s' : σ) (e : String) (p' : Option String)
    (h : body none s = (.error e, p', s')) :
    (goroutine (guarded (panicf log) none body) s).1 = .error e := by
  rw [C77_recover_partial, h]

theorem C77_recover_statement_fails : ¬ C77_recover_statement := fun h => by
  have := h Unit (fun _ s => s) (panic "nil pointer") ()
  simp [goroutine, guarded, withDefers, panic, runDeferred, recoverFn, andThen, recover, ret, printStacks, call,
    panicf, modify] at this

/-- Several deferred functions that leave panics alone do not change that: whatever else is deferred
around it, the panic arrives at the end of the goroutine. -/
theorem C77_more_deferred (log : String → σ → σ) (body : M σ Unit) (s : σ) (ds : List (σ → σ)) :
    ∀ (s' : σ) (e : String) (p' : Option String), body none s = (.error e, p', s') →
      ∃ s'', goroutine (withDefers body (recoverFn (panicf log) none :: ds.map modify)) s = (.error e, s'') := by
  intro s' e p' h
  have key : ∀ (ds : List (σ → σ)) (t : σ), ∃ t', (ds.map modify).foldl
      (fun (x : Except String Unit × σ) d => runDeferred d x.1 () x.2) (.error e, t) = (.error e, t') := by
    intro ds
    induction ds with
    | nil => intro t; exact ⟨t, rfl⟩
    | cons d ds ih => intro t; exact ih (d t)
  obtain ⟨t, ht⟩ := key ds (log e s')
  refine ⟨t, ?_⟩
  unfold goroutine withDefers
  rw [h]
  exact Prod.ext (congrArg Prod.fst ht) (congrArg Prod.snd ht)

/-! ### Groups -/

/-- **C77** partial: a task that does not panic is counted as done and nothing else happens.
Missing: a task that panics (`C77_done_panic`). -/
theorem C77_done_partial (lg : Logger Group) (body : M Group Unit) (s s' : Group) (p' : Option String)
    (h : body none s = (.ok (), p', s')) (hc : s'.count ≠ 0) :
    goroutine (withDefers body [gDone lg]) s = (.ok (), { s' with count := s'.count - 1 }) := by
  unfold goroutine withDefers
  rw [h]
  simp [runDeferred, gDone, withDefers, andThen, call, wgDone, hc, recoverAndDeliver, recover, ret]

/-- **C77** A task that panics is counted as done, no error is delivered, and the process ends. -/
theorem C77_done_panic (body : M Group Unit) (s s' : Group) (p' : Option String) (e : String)
    (h : body none s = (.error e, p', s')) (hc : s'.count ≠ 0) :
    goroutine (withDefers body [gDone (panicf logIn)]) s =
      (.error e, { s' with count := s'.count - 1, log := s'.log ++ [e, e] }) := by
  unfold goroutine withDefers
  rw [h]
  simp [runDeferred, gDone, withDefers, andThen, call, wgDone, hc, recoverAndDeliver, recover, printStacks,
    panicf, modify, panic, logIn]

theorem C77_done_statement_fails : ¬ C77_done_statement := by
  intro h
  obtain ⟨g, h1, _⟩ := h (panic "boom") { count := 1 } { count := 1 } none "boom" rfl (by decide) rfl
  rw [C77_done_panic (panic "boom") { count := 1 } { count := 1 } none "boom" rfl (by decide)] at h1
  cases h1

/-- **C77** One `Done` too many ends the process as well, without an error for the group. -/
theorem C77_done_too_often (s : Group) (h : s.count = 0) :
    goroutine (withDefers (ret ()) [gDone (panicf logIn)]) s =
      (.error "sync: negative WaitGroup counter",
        { s with log := s.log ++ ["sync: negative WaitGroup counter"] }) := by
  simp [goroutine, withDefers, ret, runDeferred, gDone, andThen, call, wgDone, h, recoverAndDeliver, recover,
    printStacks, panicf, modify, panic, logIn]

/-- **C77** The same for a limited group: the slot is given back, no error is delivered, and the process ends. -/
theorem C77_limit_panic (body : M Group Unit) (s s' : Group) (p' : Option String) (e : String)
    (h : body none s = (.error e, p', s')) (hc : s'.count ≠ 0) :
    goroutine (withDefers body [limitDone (panicf logIn)]) s =
      (.error e, { s' with count := s'.count - 1, slots := s'.slots - 1, log := s'.log ++ [e] }) := by
  unfold goroutine withDefers
  rw [h]
  simp [runDeferred, limitDone, gDone, withDefers, andThen, call, wgDone, hc, recoverAndDeliver, recover, ret,
    printStacks, panicf, modify, panic, logIn]

/-! ### The cause -/

/-- **C77** With a logging function that returns, `Recover` contains every panic. -/
theorem C77_cause_recover (lg : Logger σ) (hl : lg.Returns) (body : M σ Unit) (s : σ) :
    (goroutine (guarded lg none body) s).1 = .ok () := by
  unfold goroutine guarded withDefers
  rcases h : body none s with ⟨r, p', s'⟩
  cases r with
  | ok a => rfl
  | error e =>
    obtain ⟨t, ht⟩ := hl e none s'
    simp [runDeferred, recoverFn, andThen, recover, ret, printStacks, call, ht]

/-- **C77** With a logging function that only logs, `Done` delivers the panic of a task as the error of
the group, unless the group already has one. -/
theorem C77_cause_done (body : M Group Unit) (s s' : Group) (p' : Option String) (e : String)
    (h : body none s = (.error e, p', s')) (hc : s'.count ≠ 0) (ho : s'.closed = false) :
    ∃ g, goroutine (withDefers body [gDone (fun m => modify (logIn m))]) s = (.ok (), g) ∧
      g.errs = s'.errs ++ [e] ∧ g.count = s'.count - 1 ∧ g.closed = true := by
  unfold goroutine withDefers
  rw [h]
  simp [runDeferred, gDone, withDefers, andThen, call, wgDone, hc, recoverAndDeliver, recover, ret, printStacks,
    modify, logIn, gError, ho]

/-- **C77** A group that has an error keeps it: the panic of a later task is counted as done and not delivered. -/
theorem C77_first_only (body : M Group Unit) (s s' : Group) (p' : Option String) (e : String)
    (h : body none s = (.error e, p', s')) (hc : s'.count ≠ 0) (ho : s'.closed = true) :
    ∃ g, goroutine (withDefers body [gDone (fun m => modify (logIn m))]) s = (.ok (), g) ∧
      g.errs = s'.errs ∧ g.count = s'.count - 1 ∧ g.closed = true := by
  unfold goroutine withDefers
  rw [h]
  simp [runDeferred, gDone, withDefers, andThen, call, wgDone, hc, recoverAndDeliver, recover, ret, printStacks,
    modify, logIn, gError, ho]

/-- Two tasks panic one after the other: only the first panic is the error of the group. -/
example : (goroutine (withDefers (panic "b") [gDone (fun m => modify (logIn m))])
    (goroutine (withDefers (panic "a") [gDone (fun m => modify (logIn m))]) { count := 2 }).2).2.errs = ["a"] := by rfl

/-! ### Examples -/

/-- The rules of the built-ins: a deferred function that recovers stops the panic … -/
example : goroutine (withDefers (panic "a") [andThen recover fun r => modify fun _ => r]) none
    = (.ok (), some "a") := rfl

/-- … but not if it calls another function that recovers. -/
example : goroutine (withDefers (panic "a") [andThen (call recover) fun r => modify fun _ => r]) (some "x")
    = (.error "a", none) := rfl

/-- A panic in a deferred function replaces the first one; a later deferred function recovers it. -/
example : goroutine (withDefers (panic "a") [panic "b", andThen recover fun r => modify fun _ => r]) none
    = (.ok (), some "b") := rfl

example : goroutine (guarded (panicf fun m l => l ++ [m]) (some fun m => modify (· ++ ["fn " ++ m]))
    (andThen (modify (· ++ ["work"])) fun _ => panic "boom")) [] = (.error "boom", ["work", "fn boom", "boom"]) := by rfl

example : goroutine (withDefers (panic "boom") [gDone (panicf logIn)]) { count := 2 } =
    (.error "boom", { count := 1, log := ["boom", "boom"] }) := by rfl

example : Logger.Returns (fun m => (modify (logIn m) : M Group Unit)) := fun _ _ _ => ⟨_, rfl⟩

end Verif.Conc.Panics
