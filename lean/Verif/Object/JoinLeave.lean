import Verif.Common.Str

/-!
# Joining and leaving of a data server (model)

Models the pool that a data server opens when it joins and closes when it leaves,
`src/objectserver/internal/usecase/pool/instance.go:38-76,161-178`, what `app.go:20-45` puts into it, and the
registration under a lease, `src/common/registry/etcd_lifecycle.go:47-94` and
`src/common/registry/etcd_registry.go:93-104`.

`Open` and `Close` each run inside a `sync.Once` which the other one replaces.  `Close` is several steps: its
functions run one after the other, and requests that join may come in between.  The loop that keeps the lease
and the goroutines that register are steps of their own.

Simplifications: etcd grants every lease it is asked for (what happens otherwise is C69) and is a set of valid
leases and one key, the registration; the other five background tasks are only started and stopped.  The
address registered is constant.
-/

namespace Verif.Object.JoinLeave

/-- The functions `app.go:31-43` hands to `pool.OnClose`, in that order. -/
inductive Kind where
  | lifecycle
  | unregister
  | locate
  | cleaners
  | drives
  | sysInfo
deriving DecidableEq, Repr

def kinds : List Kind := [.lifecycle, .unregister, .locate, .cleaners, .drives, .sysInfo]

/-- A task: the number of the opening that started it and its kind. -/
abbrev Task := Nat × Kind

/-- The tasks of one opening. -/
def tasks (g : Nat) : List Task := kinds.map fun k => (g, k)

/-- A goroutine in `DeadLoop` (`etcd_lifecycle.go:47-85`): about to ask for a lease, keeping one alive, or
returned. -/
inductive Loop where
  | asking
  | holding (lease : Nat)
  | ended
deriving DecidableEq, Repr

/-- The server and its part of etcd. -/
structure State where
  /-- `openOnce` has been used (`instance.go:42`). -/
  openUsed : Bool
  /-- `closeOnce` has been used or is in use (`instance.go:41`). -/
  closeUsed : Bool
  /-- `onCloseEvent` (`instance.go:40`). -/
  events : List Task
  /-- Calls of `Close` under way: the deferred functions that have not run. -/
  closing : List (List Task)
  /-- How often the pool was opened. -/
  opened : Nat
  /-- All tasks ever started, all ever stopped, in order, and those that run. -/
  started : List Task
  stopped : List Task
  running : List Task
  /-- The context of the one `Lifecycle` object is cancelled (`etcd_lifecycle.go:16,91-94`). -/
  cancelled : Bool
  loops : List Loop
  /-- Goroutines that will register under a lease (`etcd_lifecycle.go:32-39`). -/
  registering : List Nat
  /-- etcd: the valid leases, the next one, and the lease of the registration. -/
  leases : List Nat
  nextLease : Nat
  key : Option Nat
deriving DecidableEq, Repr

/-- Before `pool.Open()` (`app.go:45`). -/
def init : State :=
  { openUsed := false, closeUsed := false, events := [], closing := [], opened := 0, started := [], stopped := [],
    running := [], cancelled := false, loops := [], registering := [], leases := [], nextLease := 1, key := none }

/-- What may happen. -/
inductive Act where
  /-- `Open`, by `JoinCommand` or at start. -/
  | opens
  /-- `Close` up to its deferred functions; by `LeaveCommand` or at the end. -/
  | closeBegin
  /-- The call of `Close` at this position runs its next deferred function. -/
  | closeNext (i : Nat)
  /-- That call clears the list and returns. -/
  | closeEnd (i : Nat)
  /-- The loop at this position does its next step. -/
  | loop (i : Nat)
  /-- A goroutine registers. -/
  | register (i : Nat)
  /-- etcd lets a lease expire. -/
  | expire (lease : Nat)
deriving DecidableEq, Repr

/-- `Open` (`instance.go:54-59`) with the function of `app.go:29-44`. -/
def opens (s : State) : State :=
  if s.openUsed then s
  else { s with
    openUsed := true, closeUsed := false, opened := s.opened + 1, loops := s.loops ++ [.asking],
    started := s.started ++ tasks s.opened, running := s.running ++ tasks s.opened,
    events := s.events ++ tasks s.opened }

/-- `Close` (`instance.go:168-177`) up to the deferred functions, which will run last first.  A call while the
same `closeOnce` is in use waits for that one and does nothing. -/
def closeBegin (s : State) : State :=
  if s.closeUsed then s
  else { s with closeUsed := true, openUsed := false, closing := s.closing ++ [s.events.reverse] }

/-- One of the functions given to `OnClose`: `Lifecycle.Close` cancels the context, `Unregister` deletes the
key, the others end their task. -/
def stop (s : State) (t : Task) : State :=
  { s with
    stopped := s.stopped ++ [t], running := s.running.erase t,
    cancelled := s.cancelled || t.2 == .lifecycle,
    key := if t.2 = .unregister then none else s.key }

/-- The next deferred function of a call of `Close`. -/
def closeNext (s : State) (i : Nat) : State :=
  match s.closing[i]? with
  | some (t :: r) => { stop s t with closing := s.closing.set i r }
  | _ => s

/-- `defer slices.Clear(&onCloseEvent)` (`instance.go:170`), which runs last. -/
def closeEnd (s : State) (i : Nat) : State :=
  match s.closing[i]? with
  | some [] => { s with closing := s.closing.eraseIdx i, events := [] }
  | _ => s

/-- A lease ends: the key that hangs on it goes with it. -/
def drop (s : State) (l : Nat) : State :=
  { s with leases := s.leases.filter (· ≠ l), key := if s.key = some l then none else s.key }

/-- A step of `DeadLoop` (`etcd_lifecycle.go:49-84`): a lease is granted and the subscribers are told, each in
a goroutine; afterwards the channel of `KeepAlive` delivers until the lease is lost or the context is
cancelled — with a cancelled context it is closed at once; then the loop revokes the lease and returns, or
asks for another. -/
def loop (s : State) (i : Nat) : State :=
  match s.loops[i]? with
  | some .asking =>
    { s with
      loops := s.loops.set i (.holding s.nextLease), leases := s.leases ++ [s.nextLease],
      registering := s.registering ++ [s.nextLease], nextLease := s.nextLease + 1 }
  | some (.holding l) =>
    if s.cancelled then { drop s l with loops := s.loops.set i .ended }
    else if l ∈ s.leases then s
    else { s with loops := s.loops.set i .asking }
  | _ => s

/-- `Register` (`etcd_registry.go:93-99`): etcd refuses a put under a lease that is not valid. -/
def register (s : State) (i : Nat) : State :=
  match s.registering[i]? with
  | some l =>
    { s with registering := s.registering.eraseIdx i, key := if l ∈ s.leases then some l else s.key }
  | none => s

def step (s : State) : Act → State
  | .opens => opens s
  | .closeBegin => closeBegin s
  | .closeNext i => closeNext s i
  | .closeEnd i => closeEnd s i
  | .loop i => loop s i
  | .register i => register s i
  | .expire l => drop s l

def exec (s : State) (acts : List Act) : State := acts.foldl step s

/-- The commands, one after the other: `JoinCommand` and `LeaveCommand` (`migration_server.go:87-112`) as far
as the pool is concerned. -/
inductive Cmd where
  | joins
  | leaves
deriving DecidableEq, Repr

/-- What the steps of a command are when no other is under way. -/
def stepsOf (s : State) : Cmd → List Act
  | .joins => [.opens]
  | .leaves => if s.closeUsed then [] else .closeBegin :: (List.replicate s.events.length (.closeNext 0) ++ [.closeEnd 0])

def command (s : State) (c : Cmd) : State := exec s (stepsOf s c)

def commands (s : State) (cs : List Cmd) : State := cs.foldl command s

end Verif.Object.JoinLeave
