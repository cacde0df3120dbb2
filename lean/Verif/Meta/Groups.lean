import Verif.Common.KMap
import Verif.HashSlot.Model

/-!
# Slots of a group of metadata servers (model)

Which slots a group of metadata servers owns is recorded in etcd under the store id of the group.
Modelled: hashslot_service.go `OnLeaderChanged`, hashslot_logic.go, raft_cluster_logic.go
`UpdateConfiguration`, config.go `initialize`, the start and the end of app.go `Run`, and
hashslot_db.go `reloadProvider`.

Simplifications: one event runs to its end before the next one starts; the asynchronous writing of
the configuration file is finished with its event; the status of the slot database is `normal` (see
`Verif.Meta.MigStatus`); etcd is a map whose operations fail together within one event.
-/

namespace Verif.Meta.Groups

open Verif

/-- common/hashslot/slot_info.go `SlotInfo`, without the (unused) location. -/
structure SlotInfo where
  groupId : Str
  serverId : Str
  slots : List Str
  deriving DecidableEq, Repr

/-- What a metadata server knows: config.go `Cluster.Enable`, `Cluster.GroupID`, `HashSlot.StoreID`,
`HashSlot.Slots`; whether it runs and whether it leads (`RaftWrapper.isLeader`). -/
structure Server where
  enabled : Bool
  groupId : Str
  storeId : Str
  slots : List Str
  up : Bool := false
  leader : Bool := false
  deriving DecidableEq, Repr

structure St where
  servers : KMap Server
  etcd : KMap SlotInfo
  deriving DecidableEq

inductive Ev
  /-- the server becomes leader of its group -/
  | lead (s : Str) (ok : Bool)
  /-- the server loses the leadership -/
  | unlead (s : Str)
  /-- a migration ended and the server records its new slots -/
  | publish (s : Str) (slots : List Str) (ok : Bool)
  /-- orderly shutdown -/
  | stop (s : Str)
  /-- the process is killed -/
  | crash (s : Str)
  /-- the process starts -/
  | start (s : Str) (ok : Bool)
  /-- the server joined the group `g` and takes over its configuration -/
  | join (s g : Str) (ok : Bool)
  deriving DecidableEq, Repr

/-- hashslot_logic.go:31-42 `SaveToEtcd`; the configuration is changed also if the write fails. -/
def saveToEtcd (st : St) (s : Str) (srv : Server) (id : Str) (slots : List Str) (ok : Bool) : St where
  servers := st.servers.put s { srv with slots := slots }
  etcd := if ok then st.etcd.put id ⟨id, s, slots⟩ else st.etcd

/-- hashslot_service.go:48-68 `OnLeaderChanged(true)` -/
def onLeader (st : St) (s : Str) (srv : Server) (ok : Bool) : St :=
  if ok then match st.etcd.get srv.storeId with
    | some i => saveToEtcd st s srv srv.storeId i.slots true
    | none => saveToEtcd st s srv srv.storeId srv.slots true
  else { st with servers := st.servers.put s srv }

/-- config.go:48-53: the store id after reading the configuration. -/
def storeIdOf (s : Str) (srv : Server) : Str := if srv.enabled then srv.groupId else s

/-- src/metaserver/internal/usecase/logic/hashslot_logic.go:44-60 `GetById` for the own store id -/
def getOwn (st : St) (srv : Server) (id : Str) : List Str :=
  match st.etcd.get id with
  | some i => i.slots
  | none => srv.slots

/-- raft_cluster_logic.go:17-53 `UpdateConfiguration` with the group id `g`, without the list of nodes
(`Verif.Meta.Members`) -/
def updateConfiguration (st : St) (s : Str) (srv : Server) (g : Str) (ok : Bool) : St :=
  let srv1 := { srv with groupId := g }
  if srv.leader && srv.enabled then
    if ok then
      saveToEtcd { st with etcd := st.etcd.del srv.storeId } s { srv1 with storeId := g } g
        (getOwn st srv srv.storeId) true
    else { st with servers := st.servers.put s srv1 }
  else
    let srv2 := { srv1 with storeId := g }
    if ok then { st with servers := st.servers.put s { srv2 with slots := getOwn st srv2 g } }
    else { st with servers := st.servers.put s srv2 }

/-- app.go:66-75: the end of `Run`.  Without an entry the deferred function ends with a nil pointer,
which changes nothing here. -/
def shutdown (st : St) (s : Str) (srv : Server) : St :=
  let off : Server := { srv with up := false, leader := false }
  match st.etcd.get srv.storeId with
  | none => { st with servers := st.servers.put s off }
  | some i =>
    { servers := st.servers.put s { off with slots := i.slots },
      etcd := if (srv.leader && srv.enabled) || !srv.enabled then st.etcd.del srv.storeId else st.etcd }

def step (st : St) : Ev → St
  | .lead s ok => match st.servers.get s with
    | some srv => if srv.up && srv.enabled then onLeader st s { srv with leader := true } ok else st
    | none => st
  | .unlead s => match st.servers.get s with
    | some srv => { st with servers := st.servers.put s { srv with leader := false } }
    | none => st
  | .publish s slots ok => match st.servers.get s with
    | some srv => if srv.up && (st.etcd.get srv.storeId).isSome then saveToEtcd st s srv srv.storeId slots ok else st
    | none => st
  | .stop s => match st.servers.get s with
    | some srv => if srv.up then shutdown st s srv else st
    | none => st
  | .crash s => match st.servers.get s with
    | some srv => { st with servers := st.servers.put s { srv with up := false, leader := false } }
    | none => st
  | .start s ok => match st.servers.get s with
    | some srv =>
      let on : Server := { srv with up := true, leader := false, storeId := storeIdOf s srv }
      -- app.go:52-57
      if srv.up then st else if srv.enabled then { st with servers := st.servers.put s on } else onLeader st s on ok
    | none => st
  | .join s g ok => match st.servers.get s with
    | some srv => if srv.up && srv.enabled then updateConfiguration st s srv g ok else st
    | none => st

def run (st : St) (evs : List Ev) : St := evs.foldl step st

/-- hashslot_db.go:97-121 `reloadProvider`: the table that every server uses for routing. -/
def routing (S : HashSlot.Sorter) (etcd : KMap SlotInfo) : Except HashSlot.SlotErr (List HashSlot.Edge) :=
  HashSlot.wrapSlots S (etcd.entries.foldl (fun (m : KMap (List Str)) e => m.put e.2.serverId e.2.slots) .empty).entries

end Verif.Meta.Groups
