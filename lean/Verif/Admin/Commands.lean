import Verif.Common.KMap
import Verif.Common.Str
import Verif.Api.Errors
import Verif.Msgp.Props

/-!
# Commands of the administration server (C102)

Models the handlers that make other servers do something and the two pages about the metadata cluster:
src/adminserver/internal/controller/http/metadata.go:70-142 and object.go:67-81, with
src/adminserver/internal/usecase/logic/metadata_logic.go:127-244, object_logic.go:43-83, conn.go:47-60.

Simplified: `grpc.Dial` does not fail (it does not connect; connections are `Verif.Conc.ConnPool`).  The server at an address
is a function of the command it gets.  JSON is read by the library; a request is the fields it yields, none if the body
is malformed.  A status error of gRPC is its code and message.
-/

namespace Verif.Admin.Commands
open Verif Verif.Api.Errors Verif.Msgp

/-! ## Addresses -/

/-- `net.SplitHostPort` of the standard library (net/ipsock.go), written out; none is an error. -/
def splitHostPort (a : Str) : Option (Str × Str) :=
  match cutLast ':' a with
  | none => none
  | some (pre, port) =>
    match a with
    | '[' :: t => match cutOn ']' t with
      | none => none
      | some (host, rest) =>
        if pre ≠ '[' :: host ++ [']'] then none
        else if '[' ∈ t ∨ ']' ∈ rest then none
        else some (host, port)
    | _ => if ':' ∈ pre then none else if '[' ∈ a ∨ ']' ∈ a then none else some (pre, port)

/-- `net.JoinHostPort`, written out. -/
def joinHostPort (host port : Str) : Str :=
  if ':' ∈ host then '[' :: host ++ (']' :: ':' :: port) else host ++ ':' :: port

/-! ## Commands -/

/-- What is sent to a server. -/
inductive Cmd
  | join | leave                                                -- ObjectMigration.JoinCommand, LeaveCommand
  | leaveRaft | joinLeader (master : Str)                       -- RaftCmd.LeaveCluster, JoinLeader
  | migrate (slots : List Str) (host port : Str)                -- HashSlot.StartMigration
  | peers                                                       -- MetadataApi.GetPeers
deriving DecidableEq, Repr

/-- The answer of a server: a status error, or the message of success or failure. -/
inductive RpcAns
  | fails (c : Code) (m : Str)
  | resp (success : Bool) (m : Str)
deriving DecidableEq, Repr

/-- The servers that are known and how they answer. -/
structure Net where
  /-- `Discovery.GetServiceMapping` for the data servers and for the metadata servers. -/
  data : KMap Str
  metas : KMap Str
  answer : Str → Cmd → RpcAns
  /-- What the server at an address answers to `GetPeers`. -/
  peersOf : Str → Except (Code × Str) (List Str)

/-- What is sent where, and the error returned; none is nil. -/
abbrev Res := List (Str × Cmd) × Option GoErr

/-- The common part of the functions that check `resp.Success`; object_logic.go:54-61, 75-82, metadata_logic.go:142-156,
209-217. -/
def checked (n : Net) (addr : Str) (c : Cmd) : Res :=
  ([(addr, c)], match n.answer addr c with
    | .fails code m => some (.status code m)
    | .resp true _ => none
    | .resp false m => some (.resp 400 m))

/-- `Objects.JoinCluster`, `Objects.LeaveCluster`; object_logic.go:43-62, 64-83. -/
def dataCommand (n : Net) (c : Cmd) (id : Str) : Res :=
  match n.data.get id with
  | none => ([], some (.resp 400 "serverId not exist".toList))
  | some addr => checked n addr c

/-- `Metadata.StartMigration`; metadata_logic.go:127-156.  A missing id and an empty address look the same. -/
def startMigration (n : Net) (src dest : Str) (slots : List Str) : Res :=
  let srcAddr := (n.metas.get src).getD []
  let destAddr := (n.metas.get dest).getD []
  if srcAddr = [] ∨ destAddr = [] then ([], some (.resp 400 "invalid server id".toList))
  else match splitHostPort destAddr with
    | none => ([], some (.plain "address".toList))
    | some (host, port) => checked n srcAddr (.migrate slots host port)

/-- `Metadata.LeaveRaftCluster`; metadata_logic.go:185-197: the response is thrown away. -/
def leaveRaft (n : Net) (id : Str) : Res :=
  match n.metas.get id with
  | none => ([], some (.resp 400 "unknown server id".toList))
  | some addr => ([(addr, .leaveRaft)], match n.answer addr .leaveRaft with
    | .fails code m => some (.status code m)
    | .resp _ _ => none)

/-- `Metadata.JoinRaftCluster`; metadata_logic.go:199-218. -/
def joinRaft (n : Net) (master id : Str) : Res :=
  match n.metas.get id with
  | none => ([], some (.resp 400 "unknown server id".toList))
  | some addr => checked n addr (.joinLeader master)

/-- `ResolveErr`; conn.go:47-60, on a status that is not OK. -/
def resolve : Code × Str → GoErr
  | (.invalidArgument, m) | (.aborted, m) | (.notFound, m) => .resp 400 m
  | (_, m) => .resp 500 m

/-- `Metadata.GetPeers`; metadata_logic.go:220-244: ids with their addresses. -/
def getPeers (n : Net) (id : Str) : List (Str × Cmd) × Except GoErr (List (Str × Str)) :=
  match n.metas.get id with
  | none => ([], .error (.resp 400 "unknown server id".toList))
  | some addr => ([(addr, .peers)], match n.peersOf addr with
    | .error e => .error (resolve e)
    | .ok ids => .ok ((ids ++ [id]).map fun i => (i, (n.metas.get i).getD [])))

/-! ## Handlers -/

/-- A request with its body; none stands for a body that is no JSON. -/
inductive Req
  | join (id : Str) | leave (id : Str)                                  -- object.go:67-81
  | migration (b : Option (Str × Str × Option (List Str)))              -- metadata.go:70-84; none is a list that is not there
  | joinLeader (b : Option (Str × Str))                                 -- metadata.go:95-108: server, master
  | leaveCluster (b : Option Str)                                       -- metadata.go:110-126
deriving DecidableEq, Repr

/-- The handlers up to the logic: `binding:"required"` refuses missing and empty texts and lists that are not there
(validator library). -/
def command (n : Net) : Req → Res
  | .join id => dataCommand n .join id
  | .leave id => dataCommand n .leave id
  | .migration none | .joinLeader none | .leaveCluster none => ([], some (.plain "json".toList))
  | .migration (some (src, dest, slots)) => match slots with
    | none => ([], some (.validation []))
    | some ss => if src = [] ∨ dest = [] then ([], some (.validation [])) else startMigration n src dest ss
  | .joinLeader (some (id, master)) => if id = [] ∨ master = [] then ([], some (.validation [])) else joinRaft n master id
  | .leaveCluster (some id) => if id = [] then ([], some (.validation [])) else leaveRaft n id

/-- The status answered: `response.Ok` or `response.FailErr`. -/
def status (r : Res) : Nat := match r.2 with
  | none => 200
  | some e => failErr e

/-! ## The page of the slots -/

/-- `GetSlotsDetail`; metadata_logic.go:158-177: from the entries in etcd to the map of groups; none is the error that makes
the page fail.  A later entry of the same group replaces an earlier one. -/
def slotsDetail : List (Str × Bytes) → Option (Bytes → Option SlotInfo)
  | kvs => kvs.foldl (fun res kv => res.bind fun m =>
      (decodeMsgp readSlotInfo {} kv.2).map fun i => fun g => if g = i.groupID then some i else m g) (some fun _ => none)

/-! ## Specification -/

/-- The server a request is about, with the service it belongs to, and what it asks of it. -/
def wanted (n : Net) : Req → Option (Option Str)
  | .join id | .leave id => some (n.data.get id)
  | .migration (some (src, _, _)) => some (n.metas.get src)
  | .joinLeader (some (id, _)) => some (n.metas.get id)
  | .leaveCluster (some id) => some (n.metas.get id)
  | _ => none

/-- The command a request stands for. -/
def meant (n : Net) : Req → Option Cmd
  | .join _ => some .join
  | .leave _ => some .leave
  | .migration (some (_, dest, some ss)) => ((n.metas.get dest).bind splitHostPort).map fun hp => .migrate ss hp.1 hp.2
  | .joinLeader (some (_, m)) => some (.joinLeader m)
  | .leaveCluster (some _) => some .leaveRaft
  | _ => none

/-- **C102** in full: a request that is answered with 200 was carried out by the server it names. -/
def C102_statement : Prop :=
  ∀ (n : Net) (r : Req), status (command n r) = 200 →
    ∃ addr c m, wanted n r = some (some addr) ∧ meant n r = some c ∧ (command n r).1 = [(addr, c)] ∧ n.answer addr c = .resp true m

/-! ## Proofs -/

theorem failErr_ne (e : GoErr) (h : ∀ m, e ≠ .resp 200 m) : failErr e ≠ 200 := by
  cases e <;> simp_all [failErr]

theorem checked_ok (n : Net) (addr : Str) (c : Cmd) :
    status (checked n addr c) = 200 ↔ ∃ m, n.answer addr c = .resp true m := by
  unfold status checked
  cases h : n.answer addr c with
  | fails code m => simp [failErr]
  | resp s m => cases s <;> simp [failErr]

/-- **C102** A request makes at most one server do something: the one it names, at the address it is registered with, and
what it asks for. -/
theorem C102_sent (n : Net) (r : Req) :
    (command n r).1 = [] ∨ ∃ addr c, wanted n r = some (some addr) ∧ meant n r = some c ∧ (command n r).1 = [(addr, c)] := by
  cases r with
  | join id => simp only [command, dataCommand, checked, wanted, meant]; cases n.data.get id <;> simp
  | leave id => simp only [command, dataCommand, checked, wanted, meant]; cases n.data.get id <;> simp
  | migration b =>
    match b with
    | none => exact Or.inl rfl
    | some (src, dest, none) => exact Or.inl rfl
    | some (src, dest, some ss) =>
      simp only [command, wanted, meant]
      split
      · exact Or.inl rfl
      · unfold startMigration checked
        cases hs : n.metas.get src with
        | none => simp
        | some a =>
          cases hd : n.metas.get dest with
          | none => simp
          | some d =>
            simp only [Option.getD_some, Option.bind_some]
            split
            · exact Or.inl rfl
            · cases splitHostPort d with
              | none => exact Or.inl rfl
              | some hp => exact Or.inr ⟨a, _, rfl, rfl, rfl⟩
  | joinLeader b =>
    match b with
    | none => exact Or.inl rfl
    | some (id, m) =>
      simp only [command, wanted, meant]
      split
      · exact Or.inl rfl
      · unfold joinRaft checked; cases n.metas.get id <;> simp
  | leaveCluster b =>
    match b with
    | none => exact Or.inl rfl
    | some id =>
      simp only [command, wanted, meant]
      split
      · exact Or.inl rfl
      · unfold leaveRaft; cases n.metas.get id <;> simp

/-- **C102** holds for every request but the one that makes a metadata server leave its group. -/
theorem C102_partial (n : Net) (r : Req) (hr : ∀ b, r ≠ .leaveCluster b) (h : status (command n r) = 200) :
    ∃ addr c m, wanted n r = some (some addr) ∧ meant n r = some c ∧ (command n r).1 = [(addr, c)] ∧ n.answer addr c = .resp true m := by
  cases r with
  | join id =>
    simp only [command, dataCommand, wanted, meant] at *
    cases hg : n.data.get id with
    | none => rw [hg] at h; simp [status, failErr] at h
    | some a =>
      rw [hg] at h
      obtain ⟨m, hm⟩ := (checked_ok ..).1 h
      exact ⟨a, .join, m, rfl, rfl, rfl, hm⟩
  | leave id =>
    simp only [command, dataCommand, wanted, meant] at *
    cases hg : n.data.get id with
    | none => rw [hg] at h; simp [status, failErr] at h
    | some a =>
      rw [hg] at h
      obtain ⟨m, hm⟩ := (checked_ok ..).1 h
      exact ⟨a, .leave, m, rfl, rfl, rfl, hm⟩
  | migration b =>
    match b with
    | none => simp [command, status, failErr] at h
    | some (src, dest, none) => simp [command, status, failErr] at h
    | some (src, dest, some ss) =>
      simp only [command, wanted, meant] at *
      split at h
      · simp [status, failErr] at h
      · rename_i hne
        rw [if_neg hne]
        unfold startMigration at *
        cases hs : n.metas.get src with
        | none => rw [hs] at h; simp [status, failErr] at h
        | some a =>
          cases hd : n.metas.get dest with
          | none => rw [hs, hd] at h; simp [status, failErr] at h
          | some d =>
            rw [hs, hd] at h
            simp only [Option.getD_some] at h
            split at h
            · simp [status, failErr] at h
            · rename_i he
              simp only [Option.getD_some, if_neg he, Option.bind_some]
              cases hp : splitHostPort d with
              | none => rw [hp] at h; simp [status, failErr] at h
              | some q =>
                rw [hp] at h
                obtain ⟨m, hm⟩ := (checked_ok ..).1 h
                exact ⟨a, _, m, rfl, rfl, rfl, hm⟩
  | joinLeader b =>
    match b with
    | none => simp [command, status, failErr] at h
    | some (id, ms) =>
      simp only [command, wanted, meant] at *
      split at h
      · simp [status, failErr] at h
      · rename_i hne
        rw [if_neg hne]
        unfold joinRaft at *
        cases hg : n.metas.get id with
        | none => rw [hg] at h; simp [status, failErr] at h
        | some a =>
          rw [hg] at h
          obtain ⟨m, hm⟩ := (checked_ok ..).1 h
          exact ⟨a, _, m, rfl, rfl, rfl, hm⟩
  | leaveCluster b => exact absurd rfl (hr b)

def sampleNet : Net where
  data := KMap.empty.put "d1".toList "10.0.0.7:8100".toList
  metas := (KMap.empty.put "m1".toList "10.0.0.1:8010".toList).put "m2".toList "[fe80::2]:8010".toList
  answer := fun a c => if a = "10.0.0.1:8010".toList ∧ c = .leaveRaft then .resp false "no leader".toList else .resp true "ok".toList
  peersOf := fun _ => .ok ["m2".toList, "m9".toList]

/-- Slots go from m1 to m2, which has an IPv6 address. -/
example : command sampleNet (.migration (some ("m1".toList, "m2".toList, some ["0-9".toList]))) =
    ([("10.0.0.1:8010".toList, .migrate ["0-9".toList] "fe80::2".toList "8010".toList)], none) := by decide

example : status (command sampleNet (.join "d1".toList)) = 200 ∧ status (command sampleNet (.join "d2".toList)) = 400 ∧
    status (command sampleNet (.joinLeader (some ("m2".toList, "m1".toList)))) = 200 := by decide

/-- **C102** in full is false: the refusal of a server to leave its group is answered with 200. -/
theorem C102_statement_fails : ¬ C102_statement := by
  intro h
  obtain ⟨addr, c, m, h1, h2, _, h4⟩ := h sampleNet (.leaveCluster (some "m1".toList)) (by decide)
  have e1 : wanted sampleNet (.leaveCluster (some "m1".toList)) = some (some "10.0.0.1:8010".toList) := by decide
  have e2 : meant sampleNet (.leaveCluster (some "m1".toList)) = some .leaveRaft := by decide
  rw [e1] at h1; rw [e2] at h2
  simp only [Option.some.injEq] at h1 h2
  subst h1; subst h2
  have e4 : sampleNet.answer "10.0.0.1:8010".toList .leaveRaft = .resp false "no leader".toList := by decide
  rw [e4] at h4
  cases h4

/-- All fields of a request are there. -/
def Complete : Req → Prop
  | .migration (some (s, d, some _)) => s ≠ [] ∧ d ≠ []
  | .joinLeader (some (i, m)) => i ≠ [] ∧ m ≠ []
  | .leaveCluster (some i) => i ≠ []
  | .join _ | .leave _ => True
  | _ => False

/-- **C102** A complete request for a server that is known is always sent, and answered as the server does: 200 if it has
succeeded, 400 if it refuses (but 200 if it refuses to leave its group), 500 if it fails or is not reached. -/
theorem C102_done (n : Net) (r : Req) (addr : Str) (c : Cmd) (hc : Complete r) (hw : wanted n r = some (some addr))
    (hm : meant n r = some c) (ha : addr ≠ []) :
    (command n r).1 = [(addr, c)] ∧
    status (command n r) = match n.answer addr c with
      | .resp true _ => 200
      | .resp false _ => if c = .leaveRaft then 200 else 400
      | .fails _ _ => 500 := by
  have key : ∀ c, c ≠ .leaveRaft → (checked n addr c).1 = [(addr, c)] ∧
      status (checked n addr c) = match n.answer addr c with
        | .resp true _ => 200
        | .resp false _ => if c = .leaveRaft then 200 else 400
        | .fails _ _ => 500 := by
    intro c hc
    refine ⟨rfl, ?_⟩
    unfold status checked
    cases h : n.answer addr c with
    | fails code m => rfl
    | resp s m => cases s <;> simp [failErr, hc]
  cases r with
  | join id =>
    simp only [wanted, meant, Option.some.injEq] at hw hm
    subst hm
    simp only [command, dataCommand, hw]
    exact key _ (by simp)
  | leave id =>
    simp only [wanted, meant, Option.some.injEq] at hw hm
    subst hm
    simp only [command, dataCommand, hw]
    exact key _ (by simp)
  | migration b =>
    match b with
    | none => simp [meant] at hm
    | some (src, dest, none) => simp [meant] at hm
    | some (src, dest, some ss) =>
      simp only [wanted, meant, Option.some.injEq, Complete] at hw hm hc
      simp only [command, startMigration, hw, hc.1, hc.2, or_self, if_false, Option.getD_some, ha, false_or]
      cases hd : n.metas.get dest with
      | none => simp [hd] at hm
      | some d =>
        cases hp : splitHostPort d with
        | none => simp [hd, hp] at hm
        | some q =>
          have hdne : d ≠ [] := by intro e; subst e; simp [splitHostPort, cutLast] at hp
          simp only [hd, Option.bind_some, hp, Option.map_some, Option.some.injEq] at hm
          subst hm
          simp only [Option.getD_some, hdne, if_false, hp]
          exact key _ (by simp)
  | joinLeader b =>
    match b with
    | none => simp [meant] at hm
    | some (id, ms) =>
      simp only [wanted, meant, Option.some.injEq, Complete] at hw hm hc
      subst hm
      simp only [command, hc.1, hc.2, or_self, if_false, joinRaft, hw]
      exact key _ (by simp)
  | leaveCluster b =>
    match b with
    | none => simp [meant] at hm
    | some id =>
      simp only [wanted, meant, Option.some.injEq, Complete] at hw hm hc
      subst hm
      simp only [command, hc, if_false, leaveRaft, hw]
      refine ⟨by simp, ?_⟩
      unfold status
      cases h : n.answer addr .leaveRaft with
      | fails code m => rfl
      | resp s m => cases s <;> simp

example : Complete (.leaveCluster (some "m1".toList)) ∧ status (command sampleNet (.leaveCluster (some "m1".toList))) = 200 ∧
    status (command sampleNet (.leaveCluster (some []))) = 400 ∧
    status (command { sampleNet with answer := fun _ _ => .fails .unavailable [] } (.leave "d1".toList)) = 500 := by
  refine ⟨?_, ?_⟩
  · simp [Complete]
  · decide

/-- **C102** A request with a field that is missing is sent nowhere; it is answered with 400, and with 500 if it has no JSON. -/
theorem C102_incomplete (n : Net) (r : Req) (h : ¬ Complete r) :
    (command n r).1 = [] ∧
    status (command n r) = if r = .migration none ∨ r = .joinLeader none ∨ r = .leaveCluster none then 500 else 400 := by
  match r with
  | .join _ | .leave _ => exact absurd trivial h
  | .migration none | .joinLeader none | .leaveCluster none => exact ⟨rfl, by simp [command, status, failErr]⟩
  | .migration (some (s, d, none)) => exact ⟨rfl, by simp [command, status, failErr]⟩
  | .migration (some (s, d, some ss)) =>
    have : s = [] ∨ d = [] := by
      simp only [Complete] at h
      by_cases h1 : s = []
      · exact Or.inl h1
      · exact Or.inr (by by_cases h2 : d = [] <;> simp_all)
    simp [command, this, status, failErr]
  | .joinLeader (some (i, m)) =>
    have : i = [] ∨ m = [] := by
      simp only [Complete] at h
      by_cases h1 : i = []
      · exact Or.inl h1
      · exact Or.inr (by by_cases h2 : m = [] <;> simp_all)
    simp [command, this, status, failErr]
  | .leaveCluster (some i) =>
    have : i = [] := by simpa [Complete] using h
    simp [command, this, status, failErr]

example : ¬ Complete (.joinLeader (some ("m1".toList, []))) := by simp [Complete]

/-- **C102** What a request that fails is answered with: 400 for a server that is not known, a field that is missing and a
refusal, 500 for a body that is no JSON, an address that is none and a server that cannot be reached. -/
theorem C102_errors (n : Net) :
    (∀ id, n.data.get id = none → status (command n (.join id)) = 400 ∧ status (command n (.leave id)) = 400) ∧
    (∀ id m, n.metas.get id = none → status (command n (.joinLeader (some (id, m)))) = 400 ∧ status (command n (.leaveCluster (some id))) = 400) ∧
    (∀ s d ss, n.metas.get s = none ∨ n.metas.get d = none → status (command n (.migration (some (s, d, ss)))) = 400) ∧
    (∀ id a m, n.data.get id = some a → n.answer a .join = .resp false m → status (command n (.join id)) = 400) ∧
    (∀ id a c m, n.data.get id = some a → n.answer a .join = .fails c m → status (command n (.join id)) = 500) ∧
    status (command n (.migration none)) = 500 ∧ status (command n (.joinLeader none)) = 500 ∧ status (command n (.leaveCluster none)) = 500 := by
  refine ⟨?_, ?_, ?_, ?_, ?_, rfl, rfl, rfl⟩
  · intro id h; simp [command, dataCommand, h, status, failErr]
  · intro id m h
    simp only [command, joinRaft, leaveRaft, h]
    constructor <;> (split <;> rfl)
  · intro s d ss h
    cases ss with
    | none => rfl
    | some ss =>
      simp only [command, startMigration]
      split
      · rfl
      · have : (n.metas.get s).getD [] = [] ∨ (n.metas.get d).getD [] = [] := by
          rcases h with h | h <;> simp [h]
        rw [if_pos this]; rfl
  · intro id a m h ha; simp [command, dataCommand, h, checked, ha, status, failErr]
  · intro id a c m h ha; simp [command, dataCommand, h, checked, ha, status, failErr]

/-- **C102** The page of the peers shows whom the server names, and itself, with the addresses they are registered with. -/
theorem C102_peers (n : Net) (id addr : Str) (ids : List Str) (h : n.metas.get id = some addr) (hp : n.peersOf addr = .ok ids) :
    getPeers n id = ([(addr, .peers)], .ok ((ids ++ [id]).map fun i => (i, (n.metas.get i).getD []))) := by
  unfold getPeers
  rw [h]
  simp only [hp]

example : (getPeers sampleNet "m1".toList).1 = [("10.0.0.1:8010".toList, .peers)] ∧
    (match (getPeers sampleNet "m1".toList).2 with | .ok l => l | .error _ => []) =
      [("m2".toList, "[fe80::2]:8010".toList), ("m9".toList, []), ("m1".toList, "10.0.0.1:8010".toList)] := by decide

/-- **C102** When the peers cannot be had, nothing is shown: 400 for a server that is not known and for an error that the
request has caused, 500 for all others. -/
theorem C102_peers_fail (n : Net) (id : Str) :
    (n.metas.get id = none → (getPeers n id).1 = [] ∧ ∃ e, (getPeers n id).2 = .error e ∧ failErr e = 400) ∧
    (∀ addr c m, n.metas.get id = some addr → n.peersOf addr = .error (c, m) → ∃ e, (getPeers n id).2 = .error e ∧
      failErr e = if c = .invalidArgument ∨ c = .aborted ∨ c = .notFound then 400 else 500) := by
  unfold getPeers
  refine ⟨fun h => ?_, fun addr c m h hp => ?_⟩
  · rw [h]; exact ⟨rfl, _, rfl, rfl⟩
  · rw [h]
    simp only [hp]
    exact ⟨_, rfl, by cases c <;> rfl⟩

/-! ### Addresses -/

/-- **C102** The address the source of a migration dials, put together from the host and the port it gets, is the registered
address of the destination (or the same without needless brackets). -/
theorem C102_target (a h p : Str) (hs : splitHostPort a = some (h, p)) :
    joinHostPort h p = a ∨ (a = '[' :: h ++ (']' :: ':' :: p) ∧ joinHostPort h p = h ++ ':' :: p) := by
  unfold splitHostPort at hs
  cases hc : cutLast ':' a with
  | none => rw [hc] at hs; simp at hs
  | some q =>
    obtain ⟨pre, port⟩ := q
    rw [hc] at hs
    have ha := (cutLast_some hc).1
    simp only [] at hs
    split at hs
    · rename_i t
      split at hs
      · simp at hs
      · rename_i host rest ht
        split at hs
        · simp at hs
        · rename_i hpre
          split at hs
          · simp at hs
          · simp only [Option.some.injEq, Prod.mk.injEq] at hs
            obtain ⟨rfl, rfl⟩ := hs
            have hpre : pre = '[' :: host ++ [']'] := by simpa using hpre
            unfold joinHostPort
            rw [ha, hpre]
            by_cases hcol : ':' ∈ host
            · left; rw [if_pos hcol]; simp
            · right; rw [if_neg hcol]; simp
    · split at hs
      · simp at hs
      · rename_i hcol
        split at hs
        · simp at hs
        · simp only [Option.some.injEq, Prod.mk.injEq] at hs
          obtain ⟨rfl, rfl⟩ := hs
          left
          unfold joinHostPort
          rw [if_neg hcol, ha]

/-- **C102** Every host without brackets and every port is found again in the address made of the two. -/
theorem C102_split_join (h p : Str) (hb : '[' ∉ h ∧ ']' ∉ h) (hp : '[' ∉ p ∧ ']' ∉ p ∧ ':' ∉ p) :
    splitHostPort (joinHostPort h p) = some (h, p) := by
  unfold joinHostPort
  by_cases hcol : ':' ∈ h
  · rw [if_pos hcol]
    unfold splitHostPort
    have e : '[' :: h ++ (']' :: ':' :: p) = ('[' :: h ++ [']']) ++ ':' :: p := by simp
    rw [e, cutLast_append hp.2.2]
    simp only [List.cons_append, List.append_assoc, List.nil_append]
    rw [cutOn_append hb.2]
    simp [hb.1, hp.1, hp.2.1]
  · rw [if_neg hcol]
    unfold splitHostPort
    rw [cutLast_append hp.2.2]
    simp only []
    split
    · rename_i t ht
      exfalso
      cases h with
      | nil => simp at ht
      | cons c cs =>
        simp only [List.cons_append, List.cons.injEq] at ht
        exact hb.1 (by rw [ht.1]; exact List.mem_cons_self ..)
    · rw [if_neg hcol, if_neg]
      simp [hb.1, hb.2, hp.1, hp.2.1]

example : splitHostPort "10.0.0.1:8010".toList = some ("10.0.0.1".toList, "8010".toList) ∧
    splitHostPort "fe80::2:8010".toList = none ∧ splitHostPort "meta1".toList = none ∧
    joinHostPort "fe80::2".toList "8010".toList = "[fe80::2]:8010".toList := by decide

/-! ### Slots -/

/-- The records a page is made of. -/
def decoded (kvs : List (Str × Bytes)) : List (Option SlotInfo) := kvs.map fun kv => decodeMsgp readSlotInfo {} kv.2

theorem slots_fold (kvs : List (Str × Bytes)) : ∀ (m : Bytes → Option SlotInfo) (is : List SlotInfo),
    decoded kvs = is.map some →
    kvs.foldl (fun res kv => res.bind fun m =>
      (decodeMsgp readSlotInfo {} kv.2).map fun i => fun g => if g = i.groupID then some i else m g) (some m) =
    some (fun g => ((is.reverse.find? (fun i => i.groupID = g)).or (m g))) := by
  induction kvs with
  | nil =>
    intro m is h
    cases is with
    | nil => simp
    | cons i is => simp [decoded] at h
  | cons kv kvs ih =>
    intro m is h
    cases is with
    | nil => simp [decoded] at h
    | cons i is =>
      simp only [decoded, List.map_cons, List.cons.injEq] at h
      rw [List.foldl_cons]
      simp only [Option.bind_some, h.1, Option.map_some]
      rw [ih _ is h.2]
      congr 1
      funext g
      rw [List.reverse_cons, List.find?_append]
      cases is.reverse.find? (fun i => decide (i.groupID = g)) with
      | some x => simp
      | none =>
        by_cases hg : g = i.groupID
        · simp [hg]
        · simp [hg, Ne.symm hg]

/-- **C102** The page of the slots shows, for every group, the last entry in etcd that carries its id; in particular every
group whose entry is the only one with its id. -/
theorem C102_slots (kvs : List (Str × Bytes)) (is : List SlotInfo) (h : decoded kvs = is.map some) (g : Bytes) :
    (slotsDetail kvs).map (fun m => m g) = some (is.reverse.find? (fun i => i.groupID = g)) := by
  unfold slotsDetail
  rw [slots_fold kvs _ is h]
  simp

/-- **C102** One entry that cannot be read makes the whole page fail. -/
theorem C102_slots_fail (a b : List (Str × Bytes)) (kv : Str × Bytes) (h : decodeMsgp readSlotInfo {} kv.2 = none) :
    slotsDetail (a ++ kv :: b) = none := by
  unfold slotsDetail
  rw [List.foldl_append, List.foldl_cons, h]
  simp only [Option.map_none]
  generalize ha : a.foldl _ _ = x
  cases x <;> simp only [Option.bind_none, Option.bind_some]
  all_goals
    clear ha h
    induction b with
    | nil => rfl
    | cons _ _ ih => simpa using ih

/-- **C102** What the masters have saved is what is shown: with one record per group, each group is shown as saved. -/
theorem C102_slots_saved (kvs : List (Str × SlotInfo)) (hok : ∀ kv ∈ kvs, kv.2.Ok) (hd : (kvs.map (·.2.groupID)).Nodup)
    (kv : Str × SlotInfo) (hm : kv ∈ kvs) :
    (slotsDetail (kvs.map fun x => (x.1, encodeMsgp appendSlotInfo x.2))).map (fun m => m kv.2.groupID) = some (some kv.2) := by
  have hdec : decoded (kvs.map fun x => (x.1, encodeMsgp appendSlotInfo x.2)) = (kvs.map (·.2)).map some := by
    unfold decoded
    rw [List.map_map, List.map_map]
    apply List.map_congr_left
    intro x hx
    have := C73_SlotInfo_roundtrip x.2 (hok x hx) {} []
    simpa [whole] using this
  rw [C102_slots _ _ hdec]
  congr 1
  have hmem : kv.2 ∈ (kvs.map (·.2)).reverse := by
    rw [List.mem_reverse]; exact List.mem_map_of_mem hm
  cases hf : (kvs.map (·.2)).reverse.find? (fun i => decide (i.groupID = kv.2.groupID)) with
  | none =>
    rw [List.find?_eq_none] at hf
    exact absurd (hf kv.2 hmem) (by simp)
  | some i =>
    have h1 := List.find?_some hf
    have h2 := List.mem_of_find?_eq_some hf
    rw [List.mem_reverse] at h2
    have h3 : kv.2 ∈ kvs.map (·.2) := by rwa [List.mem_reverse] at hmem
    simp only [decide_eq_true_eq] at h1
    have hd' : ((kvs.map (·.2)).map (·.groupID)).Nodup := by rwa [List.map_map]
    congr 1
    clear hf hmem hm hdec hd hok
    generalize kvs.map (·.2) = l at *
    induction l with
    | nil => simp at h2
    | cons x xs ih =>
      simp only [List.map_cons, List.nodup_cons] at hd'
      rcases List.mem_cons.1 h2 with e | e
      · rcases List.mem_cons.1 h3 with f | f
        · rw [e, f]
        · exact absurd (List.mem_map_of_mem (f := (·.groupID)) f) (by rw [← h1, e]; exact hd'.1)
      · rcases List.mem_cons.1 h3 with f | f
        · exact absurd (List.mem_map_of_mem (f := (·.groupID)) e) (by rw [h1, f]; exact hd'.1)
        · exact ih e f hd'.2

def slotA : SlotInfo := ⟨[97], [109, 49], [[48]]⟩
def slotB : SlotInfo := ⟨[98], [109, 50], []⟩
example : (slotsDetail ([("g/hash_slot/a".toList, slotA), ("g/hash_slot/b".toList, slotB)].map fun x =>
    (x.1, encodeMsgp appendSlotInfo x.2))).map (fun m => (m [97], m [98], m [99])) = some (some slotA, some slotB, none) := by decide

/-- **C102** What is taken apart has no brackets left in it: stray ones make an address invalid. -/
theorem C102_no_brackets (a h p : Str) (hs : splitHostPort a = some (h, p)) :
    ('[' ∉ h ∧ ']' ∉ h) ∧ ('[' ∉ p ∧ ']' ∉ p) ∧ ':' ∉ p := by
  unfold splitHostPort at hs
  cases hc : cutLast ':' a with
  | none => rw [hc] at hs; simp at hs
  | some q =>
    obtain ⟨pre, port⟩ := q
    rw [hc] at hs
    obtain ⟨ha, hcol⟩ := cutLast_some hc
    simp only [] at hs
    split at hs
    · rename_i t
      split at hs
      · cases hs
      · rename_i host rest hcut
        obtain ⟨ht, hb⟩ := cutOn_some hcut
        split at hs
        · cases hs
        · rename_i hpre
          simp only [ne_eq, Decidable.not_not] at hpre
          split at hs
          · cases hs
          · rename_i hbr
            simp only [not_or] at hbr
            cases hs
            rw [hpre] at ha
            simp only [List.cons_append, List.append_assoc, List.cons.injEq, true_and, List.nil_append] at ha
            rw [ht] at ha hbr
            have hrest := List.append_cancel_left ha
            simp only [List.cons.injEq, true_and] at hrest
            subst hrest
            simp only [List.mem_append, List.mem_cons, not_or] at hbr
            exact ⟨⟨hbr.1.1, hb⟩, ⟨hbr.1.2.2.2, hbr.2.2⟩, hcol⟩
    · split at hs
      · cases hs
      · split at hs
        · cases hs
        · rename_i hbr
          cases hs
          rw [ha] at hbr
          simp only [List.mem_append, List.mem_cons, not_or] at hbr
          exact ⟨⟨hbr.1.1, hbr.2.1⟩, ⟨hbr.1.2.2, hbr.2.2.2⟩, hcol⟩

example : splitHostPort "[::1]:80".toList = some ("::1".toList, "80".toList) ∧ splitHostPort "[[::1]:80".toList = none ∧
    splitHostPort "[::1]:8]0".toList = none ∧ splitHostPort "a]:80".toList = none := by decide

end Verif.Admin.Commands
