/-!
# Panics, deferred functions and recovery (model)

A small semantics of `panic`, `defer` and `recover`, and on top of it common/graceful/recover.go
and the `Done` functions of common/util/done_group.go.

Trusted: the Go rules for the three built-ins as written down here, and that logrus' `Panicf` logs
its message and then panics, also with every level and hook configured (library code; the logger is
`logs.New("panic-recover")`, recover.go:10, a `*logrus.Entry`).

Simplification: a panic value is its text; goroutines do not interleave here (`Verif.Conc.DoneGroup`
has the interleavings of the group without panics).
-/

namespace Verif.Conc.Panics

/-- A computation inside one function call.  The first argument is the panic that `recover` would
return in this call: `some p` only in a deferred function run because of the panic `p`, and only
while `p` has not been recovered.  The result is a value or a new panic, what `recover` would return
now, and the state. -/
def M (σ α : Type) : Type := Option String → σ → Except String α × Option String × σ

variable {σ α β : Type}

def ret (a : α) : M σ α := fun p s => (.ok a, p, s)

def andThen (m : M σ α) (f : α → M σ β) : M σ β := fun p s =>
  match m p s with
  | (.ok a, p', s') => f a p' s'
  | (.error e, p', s') => (.error e, p', s')

/-- Change the state. -/
def modify (f : σ → σ) : M σ Unit := fun p s => (.ok (), p, f s)

/-- The built-in `panic`. -/
def panic (e : String) : M σ α := fun p s => (.error e, p, s)

/-- The built-in `recover`: returns the panic and ends it. -/
def recover : M σ (Option String) := fun p s => (.ok p, none, s)

/-- An ordinary call: `recover` inside the callee returns nothing, because the callee is not the
deferred function itself. -/
def call (m : M σ α) : M σ α := fun p s =>
  match m none s with
  | (r, _, s') => (r, p, s')

/-- One deferred function at the end of a call that so far ends with `r`. -/
def runDeferred (d : M σ Unit) (r : Except String α) (zero : α) (s : σ) : Except String α × σ :=
  match r with
  | .ok a => match d none s with
    | (.ok _, _, s') => (.ok a, s')
    | (.error e, _, s') => (.error e, s')
  | .error e => match d (some e) s with
    | (.ok _, none, s') => (.ok zero, s')       -- recovered: the call returns normally
    | (.ok _, some _, s') => (.error e, s')
    | (.error e', _, s') => (.error e', s')     -- a new panic replaces the old one

/-- A function with deferred functions, given in the order in which they run (the last `defer`
first). -/
def withDefers (body : M σ Unit) (ds : List (M σ Unit)) : M σ Unit := fun p s =>
  match body p s with
  | (r, p', s') =>
    let out := ds.foldl (fun (x : Except String Unit × σ) d => runDeferred d x.1 () x.2) (r, s')
    (out.1, p', out.2)

/-- `go f()`: how the goroutine ends.  A panic that reaches its end ends the whole process. -/
def goroutine (f : M σ Unit) (s : σ) : Except String Unit × σ :=
  match f none s with
  | (r, _, s') => (r, s')

/-! ## common/graceful -/

/-- How `logger.Panicf` behaves: called with the text. -/
abbrev Logger (σ : Type) := String → M σ Unit

/-- logrus: the message is logged (`log`), then `Panicf` panics. -/
def panicf (log : String → σ → σ) : Logger σ := fun msg =>
  andThen (modify (log msg)) fun _ => panic msg

/-- recover.go:21-23 `PrintStacks` -/
def printStacks (lg : Logger σ) (msg : String) : M σ Unit := call (lg msg)

/-- recover.go:12-19 `Recover`, as the deferred function of `defer graceful.Recover(fn)`. -/
def recoverFn (lg : Logger σ) (fn : Option (String → M σ Unit)) : M σ Unit :=
  andThen recover fun r => match r with
    | none => ret ()
    | some e => andThen (match fn with
        | some f => call (f e)
        | none => ret ()) fun _ => printStacks lg e

/-- The shape of the 56 places with `go func() { defer graceful.Recover(fn); body }()`. -/
def guarded (lg : Logger σ) (fn : Option (String → M σ Unit)) (body : M σ Unit) : M σ Unit :=
  withDefers body [recoverFn lg fn]

/-! ## common/util/done_group.go -/

/-- done_group.go:34-38 `doneGroup`, with what was logged; `errs` are the errors delivered, `slots`
the used slots of a `limitDoneGroup`. -/
structure Group where
  count : Nat := 0
  closed : Bool := false
  errs : List String := []
  slots : Nat := 0
  log : List String := []
  deriving DecidableEq, Repr

/-- done_group.go:73-78 `Error` for a group with an error channel. -/
def gError (e : String) : M Group Unit := modify fun g =>
  if g.closed then g else { g with closed := true, errs := g.errs ++ [e] }

/-- `sync.WaitGroup.Done`: panics below zero. -/
def wgDone : M Group Unit := fun p g =>
  if g.count = 0 then (.error "sync: negative WaitGroup counter", p, g)
  else (.ok (), p, { g with count := g.count - 1 })

/-- The three lines `if err := recover(); err != nil { graceful.PrintStacks(err); d.Error(…) }`,
done_group.go:54-57, 61-64, 99-102 and 147-150. -/
def recoverAndDeliver (lg : Logger Group) : M Group Unit :=
  andThen recover fun r => match r with
    | none => ret ()
    | some e => andThen (printStacks lg e) fun _ => call (gError e)

/-- done_group.go:51-65 `Done`, as a deferred function -/
def gDone (lg : Logger Group) : M Group Unit :=
  withDefers (andThen (call wgDone) fun _ => recoverAndDeliver lg) [recoverAndDeliver lg]

/-- done_group.go:143-151 `limitDoneGroup.Done`, as a deferred function; receiving from the channel of
slots is modelled for a used slot only. -/
def limitDone (lg : Logger Group) : M Group Unit :=
  andThen (call (gDone lg)) fun _ =>
    andThen (modify fun g => { g with slots := g.slots - 1 }) fun _ => recoverAndDeliver lg

def logIn (msg : String) (g : Group) : Group := { g with log := g.log ++ [msg] }

end Verif.Conc.Panics
