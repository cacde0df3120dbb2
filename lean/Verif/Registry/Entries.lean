import Verif.Common.Str

/-!
# What a server leaves in etcd (C93)

A server keeps two entries in etcd: its registration (`EtcdRegistry.Register`) and its statistics
(`StatSyncer.Sync`).  Both are put under the lease of `Lifecycle`; each new lease starts one goroutine
per entry, a ticker goroutine puts the statistics again every minute, and the main goroutine takes both
entries back when the server stops.

Modelled: these goroutines as explicit steps in any order, requests to etcd that arrive late or never,
leases that end, a stop by signal and a kill.  The mutex of `Lifecycle` is left out (its effect is C69),
the contents of the entries are reduced to the lease and, for the statistics, the time of the reading.

Trusted, of etcd: a put under a lease that does not exist is refused; a put replaces the lease of the
entry; an entry goes with its lease; lease 0 means no lease; lease numbers are not 0 and not reused.
-/

namespace Verif.Entries

/-- The ticker goroutine of `StartAutoSave`, src/common/system/syncer.go:30-43: waiting, inside `Sync`
before the request, waiting for the answer to the request (lease, time of the reading), ended. -/
inductive Ticker where
  | idle
  | syncing
  | put (lease stamp : Nat)
  | ended
deriving DecidableEq

/-- The main goroutine: serving, then the deferred calls in the order in which they run:
`cancel` and `Clear` of `StartAutoSave` (syncer.go:44-49), `Unregister`, `Lifecycle.Close`, the end of the
process.  The same for src/apiserver/internal/app/app.go:17-50, src/metaserver/internal/app/app.go:24-80 and
src/objectserver/internal/app/app.go:19-50 with `Close`, src/objectserver/internal/usecase/pool/instance.go:168-177
(the list of `OnClose` is run from the back). -/
inductive Main where
  | serving
  | cancel
  | clear
  | unregister
  | close
  | exit
  | dead
deriving DecidableEq

/-- etcd, and the goroutines of one server. -/
structure St where
  /-- the clock -/
  now : Nat
  /-- etcd: the leases that exist, and all that ever did -/
  leases : List Nat
  granted : List Nat
  /-- etcd: the lease of the registration, if there is one -/
  reg : Option Nat
  /-- etcd: the lease and the time of the reading of the statistics, if there are any -/
  stat : Option (Nat × Nat)
  /-- `Lifecycle.lease`, src/common/registry/etcd_lifecycle.go:14; 0 at first -/
  cur : Nat
  /-- `StatSyncer.LeaseID`, syncer.go:20; 0 at first -/
  sLease : Nat
  /-- notifications that have not read `lc.lease` yet (etcd_lifecycle.go:34-37), of `Register` and of the
  statistics -/
  nReg : Nat
  nStat : Nat
  /-- `Register` requests on the way -/
  pReg : List Nat
  /-- statistics notifications that have read the lease and not stored it yet; stored it and not
  called `Sync` yet; requests on the way -/
  wStat : List Nat
  sStat : Nat
  pStat : List (Nat × Nat)
  ticker : Ticker
  /-- the context of the ticker, and that of `Lifecycle`, is cancelled -/
  cancelled : Bool
  closed : Bool
  /-- the loop of `Lifecycle` has returned -/
  loopEnded : Bool
  main : Main
  /-- the result of `srv.ListenAndServe`'s attempt to listen -/
  listening : Option Bool
deriving DecidableEq

/-- A server at its start, nothing in etcd. -/
def St.init : St where
  now := 0
  leases := []
  granted := []
  reg := none
  stat := none
  cur := 0
  sLease := 0
  nReg := 0
  nStat := 0
  pReg := []
  wStat := []
  sStat := 0
  pStat := []
  ticker := .idle
  cancelled := false
  closed := false
  loopEnded := false
  main := .serving
  listening := none

/-- What can happen next.  A flag `ok` says whether the request reaches etcd. -/
inductive Ev where
  | pass
  | grant (id : Nat)
  | expire (id : Nat)
  | loopEnds (ok : Bool)
  | readReg
  | putReg (id : Nat) (ok : Bool)
  | readStat
  | setStat (id : Nat)
  | syncStat
  | putStat (id stamp : Nat) (ok : Bool)
  | tick
  | tickSync
  | tickPut (ok : Bool)
  | tickEnds
  | signal
  | main (ok : Bool)
  | kill
  | listen (ok : Bool)
deriving DecidableEq

/-- etcd: a lease ends, and its entries with it. -/
def dropLease (s : St) (id : Nat) : St :=
  { s with
    leases := s.leases.filter (· ≠ id)
    reg := if s.reg = some id then none else s.reg
    stat := match s.stat with
      | some (l, t) => if l = id then none else some (l, t)
      | none => none }

/-- etcd: a put under lease `id` is accepted. -/
def accepts (s : St) (id : Nat) : Bool := id = 0 || id ∈ s.leases

/-- `e.cli.Put(…, e.Key(), e.addr, clientv3.WithLease(id))`, src/common/registry/etcd_registry.go:93-99. -/
def putReg (s : St) (id : Nat) (ok : Bool) : St :=
  if ok && accepts s id then { s with reg := some id } else s

/-- `d.cli.Put(…, d.key, …, clientv3.WithLease(d.LeaseID))`, syncer.go:61. -/
def putStat (s : St) (id stamp : Nat) (ok : Bool) : St :=
  if ok && accepts s id then { s with stat := some (id, stamp) } else s

/-- The process ends: goroutines vanish, requests may be on the way still. -/
def die (s : St) : St :=
  { s with
    main := .dead
    nReg := 0
    nStat := 0
    wStat := []
    sStat := 0
    loopEnded := true
    ticker := match s.ticker with
      | .put l t => .put l t
      | _ => .ended }

/-- The next deferred call of the main goroutine; syncer.go:44-49 and :65-68, etcd_registry.go:101-104,
etcd_lifecycle.go:91-94. -/
def mainStep (s : St) (ok : Bool) : Option St :=
  match s.main with
  | .serving => none
  | .cancel => some { s with main := .clear, cancelled := true }
  | .clear => some { s with main := .unregister, stat := if ok then none else s.stat }
  | .unregister => some { s with main := .close, reg := if ok then none else s.reg }
  | .close => some { s with main := .exit, closed := true }
  | .exit => some (die s)
  | .dead => none

/-- One step; `none` if it cannot happen now.

* `grant`: etcd_lifecycle.go:51-62 — `lc.lease` is set and one goroutine per subscriber started
  (the subscribers: src/objectserver/internal/app/app.go:24-28 and alike);
* `readReg`, `readStat`: `fn(lc.lease)` reads the field when the goroutine runs, etcd_lifecycle.go:36;
* `setStat`, `syncStat`: `syncer.LeaseID = id`, then `Sync` reads the field again, syncer.go:52-61;
* `tick`, `tickSync`, `tickPut`, `tickEnds`: syncer.go:32-41.  When the context is cancelled *and* the
  ticker has fired, `select` takes either;
* `loopEnds`: etcd_lifecycle.go:76-80;
* `listen`: src/common/graceful/graceful.go:28-35 — an error is logged, nothing else. -/
def step (s : St) : Ev → Option St
  | .pass => some { s with now := s.now + 1 }
  | .grant id =>
    if s.loopEnded = false ∧ id ≠ 0 ∧ id ∉ s.granted then
      some { s with
        leases := id :: s.leases
        granted := id :: s.granted
        cur := id
        nReg := s.nReg + 1
        nStat := s.nStat + 1 }
    else none
  | .expire id => if id ∈ s.leases then some (dropLease s id) else none
  | .loopEnds ok =>
    if s.closed ∧ s.loopEnded = false then
      some { (if ok then dropLease s s.cur else s) with loopEnded := true }
    else none
  | .readReg => if 0 < s.nReg then some { s with nReg := s.nReg - 1, pReg := s.cur :: s.pReg } else none
  | .putReg id ok => if id ∈ s.pReg then some (putReg { s with pReg := s.pReg.erase id } id ok) else none
  | .readStat => if 0 < s.nStat then some { s with nStat := s.nStat - 1, wStat := s.cur :: s.wStat } else none
  | .setStat id =>
    if id ∈ s.wStat then some { s with wStat := s.wStat.erase id, sLease := id, sStat := s.sStat + 1 } else none
  | .syncStat =>
    if 0 < s.sStat then some { s with sStat := s.sStat - 1, pStat := (s.sLease, s.now) :: s.pStat } else none
  | .putStat id stamp ok =>
    if (id, stamp) ∈ s.pStat then
      some (putStat { s with pStat := s.pStat.erase (id, stamp) } id stamp ok) else none
  | .tick => if s.ticker = .idle then some { s with ticker := .syncing } else none
  | .tickSync => if s.ticker = .syncing then some { s with ticker := .put s.sLease s.now } else none
  | .tickPut ok =>
    match s.ticker with
    | .put id stamp =>
      some (putStat { s with ticker := if s.main = .dead then .ended else .idle } id stamp ok)
    | _ => none
  | .tickEnds => if s.ticker = .idle ∧ s.cancelled then some { s with ticker := .ended } else none
  | .signal => if s.main = .serving then some { s with main := .cancel } else none
  | .main ok => mainStep s ok
  | .kill => if s.main = .dead then none else some (die s)
  | .listen ok =>
    if s.listening = none ∧ s.main ≠ .dead then some { s with listening := some ok } else none

/-- A run. -/
def run (s : St) : List Ev → Option St
  | [] => some s
  | e :: es => match step s e with
    | none => none
    | some s' => run s' es

end Verif.Entries
