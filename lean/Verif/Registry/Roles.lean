import Verif.Common.Str

/-!
# The role under which a metadata server is registered (model)

Models how a metadata server follows the leadership of its raft group in the registry:
`src/metaserver/internal/usecase/raftimpl/raft_impl.go:124-147` (the loop over `LeaderCh`, one goroutine per
subscriber and change), `src/metaserver/internal/usecase/logic/registry_logic.go:11-18`,
`src/common/registry/etcd_registry.go:39-51,93-104`, `src/common/registry/etcd_lifecycle.go:32-85` and the order
of `src/metaserver/internal/app/app.go:30-67`.

C55 proves what holds when these goroutines run one after the other; here they interleave.  Simplifications:
etcd answers every request (C55 has refusals) and grants every lease (C69); the server's key is its role and
the lease it hangs on; a lease is a number, 0 before the first one, and a key put under lease 0 hangs on none.
-/

namespace Verif.Registry.Roles

/-- What a goroutine does next.  `del`, `name`, `ask` and `put` are the statements of
`Registry.OnLeaderChanged(b)` (`registry_logic.go:11-18`): delete the key of the present name, change the name,
ask for the lease, put the key of the then present name.  `renew` is `Register` called with a new lease
(`etcd_lifecycle.go:32-39`, `app.go:58`). -/
inductive G where
  | del (b : Bool)
  | name (b : Bool)
  | ask (b : Bool)
  | put (lease : Nat)
  | renew
deriving DecidableEq, Repr

/-- One server. -/
structure State where
  /-- `RaftWrapper.isLeader` (`raft_impl.go:128`). -/
  leader : Bool
  /-- The name of the registry: `true` for `AsMaster`. -/
  role : Bool
  /-- `RegisterLeaderChangedEvent` was called (`app.go:66-67`). -/
  subscribed : Bool
  /-- The keys `…_master` and `…_slave` in etcd, with their leases. -/
  master : Option Nat
  slave : Option Nat
  /-- `Lifecycle.lease` and whether etcd still knows it. -/
  lease : Nat
  valid : Bool
  /-- Goroutines. -/
  gs : List G
deriving DecidableEq, Repr

/-- A server of a raft group when `NewRaft` returns: `AsSlave` (`app.go:52-53`). -/
def init : State :=
  { leader := false, role := false, subscribed := false, master := none, slave := none, lease := 0, valid := false,
    gs := [] }

/-- The key of a role. -/
def key (s : State) (r : Bool) : Option Nat := if r then s.master else s.slave

/-- Put or delete the key of a role. -/
def setKey (s : State) (r : Bool) (v : Option Nat) : State :=
  if r then { s with master := v } else { s with slave := v }

/-- `Register(l)` (`etcd_registry.go:93-99`): refused when the lease is gone. -/
def register (s : State) (l : Nat) : State :=
  if l = 0 ∨ (s.valid = true ∧ l = s.lease) then setKey s s.role (some l) else s

/-- What may happen. -/
inductive Act where
  /-- `LeaderCh` delivers. -/
  | change (b : Bool)
  /-- The subscribers are registered. -/
  | subscribe
  /-- `DeadLoop` is granted a lease. -/
  | grant
  /-- The lease is lost. -/
  | lose
  /-- A goroutine does its next statement. -/
  | run (i : Nat)
deriving DecidableEq, Repr

/-- A statement of a goroutine, and what that goroutine does next. -/
def advance (s : State) : G → State × Option G
  | .del b => (setKey s s.role none, some (.name b))
  | .name b => ({ s with role := b }, some (.ask b))
  | .ask _ => (s, some (.put s.lease))
  | .put l => (register s l, none)
  | .renew => (register s s.lease, none)

def run (s : State) (i : Nat) : State :=
  match s.gs[i]? with
  | none => s
  | some g =>
    match (advance s g).2 with
    | some g' => { (advance s g).1 with gs := s.gs.set i g' }
    | none => { (advance s g).1 with gs := s.gs.eraseIdx i }

/-- A lost lease takes the keys that hang on it. -/
def lose (s : State) : State :=
  if s.valid then
    { s with
      valid := false
      master := if s.master = some s.lease then none else s.master
      slave := if s.slave = some s.lease then none else s.slave }
  else s

def step (s : State) : Act → State
  | .change b => { s with leader := b, gs := if s.subscribed then s.gs ++ [.del b] else s.gs }
  | .subscribe => { s with subscribed := true }
  | .grant => if s.valid then s else { s with lease := s.lease + 1, valid := true, gs := s.gs ++ [.renew] }
  | .lose => lose s
  | .run i => run s i

def exec (s : State) (acts : List Act) : State := acts.foldl step s

end Verif.Registry.Roles
