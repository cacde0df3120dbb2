import Verif.Common.KMap

/-!
# Members of a group of metadata servers (model)

metaserver/internal/controller/grpc/raft_cmd_server.go: which servers belong to a raft group, and the
list of nodes in the configuration of its leader.

hashicorp/raft is written out as far as it is used here: a change of the members is made by the leader
only, is refused if the new members were not valid (an empty id or address, an address used twice, no
member at all), replaces the address of a member that exists, and does nothing for the removal of a
server that is no member.  Changes that time out are not modelled.
-/

namespace Verif.Meta.Members

open Verif

/-- Members of a raft group: id and address. -/
abbrev Members := KMap Str

/-- `leads`: the servers that lead a group, with the members of the group.  `nodes`: the list
`Cluster.Nodes` in the configuration of every server. -/
structure W where
  leads : KMap Members
  nodes : KMap (List Str)
  deriving DecidableEq

/-- raft `AddVoter` -/
def raftAdd (m : Members) (id addr : Str) : Option Members :=
  if id = [] ∨ addr = [] ∨ m.entries.any (fun e => decide (e.1 ≠ id) && decide (e.2 = addr)) then none
  else some (m.put id addr)

/-- raft `RemoveServer` -/
def raftRemove (m : Members) (id : Str) : Option Members :=
  if (m.del id).size = 0 then none else some (m.del id)

/-- raft_cmd_server.go:75-90: every voter is tried, and all must succeed. -/
def addAll (m : Members) : List (Str × Str) → Members × Bool
  | [] => (m, true)
  | (id, addr) :: vs => match raftAdd m id addr with
    | some m' => addAll m' vs
    | none => let r := addAll m vs; (r.1, false)

/-- The text of a node: `fmt.Sprint(id, ",", addr)`. -/
def node (id addr : Str) : Str := id ++ ',' :: addr

/-- raft_cmd_server.go:95-102: the loop calls `append` without an element, so the list stays. -/
def addNodes (nodes : List Str) (_voters : List (Str × Str)) : List Str := nodes

/-- raft_cmd_server.go:70-110 `AddVoter` on the server `l` -/
def addVoter (w : W) (l : Str) (voters : List (Str × Str)) : Bool × W :=
  if voters = [] then (false, w)
  else match w.leads.get l with
    | none => (false, w)
    | some m =>
      let r := addAll m voters
      let w' := { w with leads := w.leads.put l r.1 }
      if r.2 then (true, { w' with nodes := w'.nodes.put l (addNodes ((w.nodes.get l).getD []) voters) })
      else (false, w')

/-- raft_cmd_server.go:143-154: the list of nodes after the removal of `id`.  The found element and the
first one are exchanged and the first one is dropped, but not if the found element is the first. -/
def removeNode (nodes : List Str) (id : Str) : List Str :=
  match nodes.findIdx? (fun n => hasPrefix n (id ++ [','])) with
  | some (k + 1) => match nodes with
    | n0 :: rest => rest.set k n0
    | [] => []
  | _ => nodes

/-- raft_cmd_server.go:138-162 `RemoveFollower` on the server `l` -/
def removeFollower (w : W) (l id : Str) : Bool × W :=
  match w.leads.get l with
  | none => (false, w)
  | some m => match raftRemove m id with
    | none => (false, w)
    | some m' => (true, { leads := w.leads.put l m', nodes := w.nodes.put l (removeNode ((w.nodes.get l).getD []) id) })

/-- raft_cmd_server.go:119-136 `LeaveCluster` on the server `s`; `leader` is the leader it knows, `next`
the member that is elected after a leader left. -/
def leaveCluster (w : W) (s leader next : Str) : Bool × W :=
  match w.leads.get s with
  | some m => match raftRemove m s with
    | none => (false, w)
    | some m' => (true, { w with leads := (w.leads.del s).put next m' })
  | none => removeFollower w leader s

/-- raft_cmd_server.go:165-211 `JoinLeader` on the server `s` with address `addr`; `old` is the leader it
knows, empty for none.  Without the slots (`Verif.Meta.Groups`). -/
def joinLeader (w : W) (s addr master old : Str) : Bool × W :=
  let added : Option W :=
    if old = master then some w
    else
      let removed : Option W :=
        if old ≠ [] then (match removeFollower w master s with
          | (true, w') => some w'
          | (false, _) => none)
        else some w
      removed.bind fun w' => match addVoter w' master [(s, addr)] with
        | (true, w'') => some w''
        | (false, _) => none
  match added with
  | none => (false, w)
  | some w' => (true, { w' with nodes := w'.nodes.put s ((w'.nodes.get master).getD []) })

/-- raft_cmd_server.go:53-64: a node of the list as member; `none` is the zero `raft.Server`, which stays
in the list. -/
def parseNode (n : Str) : Option (Str × Str) :=
  match splitOn ',' n with
  | [id, addr] => some (id, addr)
  | _ => none

/-- raft_cmd_server.go:37-68 `Bootstrap` without services in the request, for the address `addr`;
`clusterText` is the text that `fmt.Sprint` gives for the whole cluster configuration.  The result are the
members, `none` if raft refuses them. -/
def bootstrap (nodes : List Str) (clusterText addr : Str) : Option Members :=
  let nodes := if nodes = [] then [node clusterText addr] else nodes
  nodes.foldl (fun m n => m.bind fun m => match parseNode n with
    | some (id, a) => if (m.get id).isSome then none else raftAdd m id a
    | none => none) (some .empty)

/-- config.go:87: the list of nodes from the environment variable, separated by commas. -/
def envNodes (text : Str) : List Str := splitOn ',' text

end Verif.Meta.Members
