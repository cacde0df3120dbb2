import Verif.Common.KMap
import Verif.Msgp.Props

/-!
# Monitoring in the admin server (model)

adminserver/internal/usecase/db/server_stat_db.go and
adminserver/internal/usecase/logic/server_monitor.go, with the samples of common/system/syncer.go.

Simplifications: percentages are values of any type `P`, computed by parameters; a Go map is a
`KMap` and its iteration order an arbitrary list of its entries.  The unsynchronised access of the
watching goroutines to one map is not modelled: a sample is added in one step.
-/

namespace Verif.Admin.Stat

open Verif Verif.Msgp

/-- server_stat_db.go:25-28 `TimeStat` -/
structure TimeStat (P : Type) where
  time : Nat
  percent : P
  deriving DecidableEq, Repr

/-- server_stat_db.go:22 -/
def maxTimeStat : Nat := 59

/-- server_stat_db.go:43-49: one list of `Append`.  In a full list the first element gets the new
value and is moved to the back. -/
def push {α : Type} (l : List α) (x : α) : List α :=
  if l.length = maxTimeStat then l.tail ++ [x] else l ++ [x]

/-- server_stat_db.go:30-33 `statTimeline` -/
structure Timeline (P : Type) where
  cpu : List (TimeStat P) := []
  mem : List (TimeStat P) := []
  deriving DecidableEq, Repr

/-- server_stat_db.go:42-57 `Append` -/
def Timeline.append {P : Type} (t : Timeline P) (cpu mem : TimeStat P) : Timeline P :=
  ⟨push t.cpu cpu, push t.mem mem⟩

/-- How percentages are computed: `CpuStatus.UsedPercent` (a float, given by its bits) and
`Ceil(Used * 100 / All) / 100`, server_stat_db.go:151-157. -/
structure Percent (P : Type) where
  cpu : Nat → P
  mem : Nat → Nat → P

/-- server_stat_db.go:80-86: `timeline`, service → server → timeline. -/
abbrev DB (P : Type) := KMap (KMap (Timeline P))

/-- common/cst/etcd_prefix.go:35-37 `FmtSystemInfo` -/
def fmtSystemInfo (group serv id : Str) : Str :=
  group ++ '/' :: ("sys_info".toList ++ '/' :: (serv ++ '/' :: id))

/-- server_stat_db.go:140-141: what follows the last `/`. -/
def idOfKey (key : Str) : Str :=
  match cutLast '/' key with
  | some (_, id) => id
  | none => key

inductive Added (P : Type)
  | ok (db : DB P)
  | failed (db : DB P)        -- the error return
  | panic                     -- nil pointer

/-- server_stat_db.go:133-159 `addStat` -/
def addStat {P : Type} (pc : Percent P) (db : DB P) (serv key : Str) (value : Bytes) (now : Nat) : Added P :=
  let mp := (db.get serv).getD .empty
  match decodeMsgp readSysInfo {} value with
  | none => .failed (db.put serv mp)
  | some info =>
    let id := idOfKey key
    let tl := (mp.get id).getD {}
    match info.cpuStatus, info.memStatus with
    | some c, some m =>
      .ok (db.put serv (mp.put id (tl.append ⟨now, pc.cpu c.usedPercent⟩ ⟨now, pc.mem m.used m.all⟩)))
    | _, _ => .panic

/-- What a goroutine of `init` (server_stat_db.go:106-131) and `watching` (161-172) gets from etcd. -/
inductive Event
  /-- an entry of the first read or a PUT event of the watch -/
  | value (serv id : Str) (value : Bytes) (now : Nat)
  /-- a DELETE event -/
  | deleted (serv id : Str)
  /-- the first read fails -/
  | readFailed (serv : Str)

/-- The process: its timelines, or `crashed`.  A panic in a goroutine ends the process, because
`graceful.Recover` panics again (common/graceful/recover.go:21-23, see `Verif.Conc.Panics`). -/
inductive Proc (P : Type)
  | up (db : DB P)
  | crashed

/-- One event. -/
def step {P : Type} (pc : Percent P) (group : Str) : Proc P → Event → Proc P
  | .crashed, _ => .crashed
  | .up db, .value serv id v now =>
    match addStat pc db serv (fmtSystemInfo group serv id) v now with
    | .ok db' => .up db'
    | .failed db' => .up db'         -- logged, lines 121-123, 167-169
    | .panic => .crashed
  | .up db, .deleted _ _ => .up db   -- lines 164-166
  | .up _, .readFailed _ => .crashed -- lines 116-119: logged, then `res.Kvs` of a nil response

def run {P : Type} (pc : Percent P) (group : Str) (evs : List Event) : Proc P :=
  evs.foldl (step pc group) (.up .empty)

/-- server_stat_db.go:99-104 `GetTimeline` -/
def getTimeline {P : Type} (db : DB P) (serv : Str) : KMap (Timeline P) := (db.get serv).getD .empty

/-! ## The monitoring pages -/

/-- server_monitor.go:69-80 `NameOfServerNo`; `names` are the configured names of the API, metadata
and data servers. -/
def nameOfServerNo (names : Str × Str × Str) (num : Int) : Str :=
  if num = 0 then names.1 else if num = 1 then names.2.1 else if num = 2 then names.2.2 else []

/-- server_monitor.go:83-94 `StatTimeline` -/
def statTimeline {P : Type} (db : DB P) (names : Str × Str × Str) (servNo : Int) (statType : Str) :
    KMap (List (TimeStat P)) :=
  (getTimeline db (nameOfServerNo names servNo)).entries.foldl
    (fun res e => res.put e.1 (if statType = "cpu".toList then e.2.cpu else e.2.mem)) .empty

/-- server_monitor.go:102-105: the inner loop of `StatTimeLineOverview` for one service, over its
timelines in the order of iteration; the CPU part. -/
def overviewOf {P : Type} (name : Str) (order : List (Str × Timeline P)) (res : KMap (List (TimeStat P))) :
    KMap (List (TimeStat P)) :=
  order.foldl (fun res e => res.put name e.2.cpu) res

/-- server_monitor.go:37 etc. `entity.ServerInfo` -/
structure ServerInfo where
  id : Str
  addr : Str
  sys : SysInfo
  deriving DecidableEq, Repr

/-- common/system/system_info.go:18-25 `ZeroInfo` -/
def zeroInfo : SysInfo := ⟨some {}, some {}, some {}, some {}⟩

/-- server_monitor.go:23-40 `SysInfo`, on the entries of etcd under the prefix of the service. -/
def sysInfo (kvs : List (Str × Bytes)) : Option (KMap SysInfo) :=
  kvs.foldl (fun res kv => res.bind fun m =>
    (decodeMsgp readSysInfo {} kv.2).map fun i => m.put (idOfKey kv.1) i) (some .empty)

/-- server_monitor.go:51-57: the body of the second loop of `ServerStat`. -/
def addSys (m : KMap ServerInfo) (e : Str × SysInfo) : KMap ServerInfo :=
  match m.get e.1 with
  | some v => m.put e.1 { v with sys := e.2 }
  | none => m

/-- server_monitor.go:42-59 `ServerStat`; `mapping` are the discovered servers. -/
def serverStat (mapping : KMap Str) (kvs : List (Str × Bytes)) : Option (KMap ServerInfo) :=
  (sysInfo kvs).map fun sys =>
    let mp : KMap ServerInfo := mapping.entries.foldl (fun m e => m.put e.1 ⟨e.1, e.2, zeroInfo⟩) .empty
    sys.entries.foldl addSys mp

end Verif.Admin.Stat
