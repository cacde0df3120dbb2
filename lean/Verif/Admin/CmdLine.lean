import Verif.Admin.Commands
import Verif.Meta.MemberProps
import Verif.Util.Slices
import Verif.Object.PathDb
import Verif.Util.Range

/-!
# The command lines of the servers (C106)

* common/cmd/cmd.go: `Register`, `Run`;
* metaserver/cmd/raft/raft.go, metaserver/cmd/hashslot/hashslot.go, objectserver/cmd/rpc/rpc.go: the commands that are sent to a
  running server;
* metaserver/cmd/app, objectserver/cmd/app, apiserver/cmd/app, adminserver/cmd/app: starting a server;
* common/util/ip_tool.go:19-34: `GetHost`, `GetHostPort`.

Simplified: what is printed is not modelled; `grpc.Dial` without `WithBlock` does not fail for any address
(`getClient`); the name of the machine is a parameter.  The protobuf library is written out in one point: a nil
element of a repeated field arrives as a message without fields (google.golang.org/protobuf `proto.Marshal`).
-/

namespace Verif.CmdLine

open Verif

/-! ## Model -/

inductive Ran
  | call (name : Str) (args : List Str)
  | unknown (name : Str)
  | panic
deriving DecidableEq, Repr

/-- common/cmd/cmd.go:34-55 `Run`; `cmds`: the names that were registered (cmd.go:30-32). -/
def run (cmds : List Str) (args defArgs : List Str) : Ran :=
  let args := if args.length ≤ 1 then args ++ defArgs else args
  match args[1]? with
  | none => .panic
  | some cmd =>
    let rest := if args.length > 2 then args.drop 2 else args.take 0
    if cmd ∈ cmds then .call cmd rest else .unknown cmd

/-- Requests to a server; a voter or server that is nil is `none`. -/
inductive Rq
  | addVoter (voters : List (Option (Str × Str × Nat)))
  | joinLeader (id : Str)
  | appliedIndex
  | bootstrap (servers : List (Option (Str × Str)))
  | peers
  | leave
  | removeFollower (id : Str) (prev : Nat)
  | migrate (slots : List Str) (host port : Str)
  | getSlots
  | joinCluster
  | leaveCluster
deriving DecidableEq, Repr

/-- What a command does: nothing (a hint is printed), a request to an address, starting a server with a configuration
file, or a panic. -/
inductive Act
  | nothing
  | send (addr : Str) (r : Rq)
  | start (file : Str)
  | panic
deriving DecidableEq, Repr

/-- util.go:152-161 `ToUint64`: 0 for what is no number, the largest number for larger ones. -/
def toUint64 (s : Str) : Nat := match parseDigits s with
  | some n => min n (2 ^ 64 - 1)
  | none => 0

/-- raft.go:75-86: one voter of `add_voter`. -/
def voter (v : Str) : Option (Str × Str × Nat) :=
  match splitOn ',' v with
  | [id, addr, idx] => some (id, addr, toUint64 idx)
  | _ => none

/-- raft.go:127-137: one server of `bootstrap`. -/
def server (v : Str) : Option (Str × Str) :=
  match splitOn ',' v with
  | [id, addr] => some (id, addr)
  | _ => none

/-- raft.go:16-58 with the functions it calls. -/
def raftCmd (host : Str) (args : List Str) : Act :=
  match args with
  | port :: cmd :: rest =>
    let addr := Admin.Commands.joinHostPort host port
    if cmd = "add_voter".toList then
      if rest = [] then .nothing else .send addr (.addVoter (rest.map voter))
    else if cmd = "join_leader".toList then
      match rest with
      | [] => .nothing
      | l :: _ => .send addr (.joinLeader l)
    else if cmd = "applied_index".toList then .send addr .appliedIndex
    else if cmd = "bootstrap".toList then .send addr (.bootstrap (rest.map server))
    else if cmd = "peers".toList then .send addr .peers
    else if cmd = "leave".toList then .send addr .leave
    else if cmd = "demote_voter".toList then
      match rest with
      | id :: prev :: _ => .send addr (.removeFollower id (toUint64 prev))
      | _ => .nothing
    else .nothing
  | _ => .nothing

/-- hashslot.go:17-24, 44-61 -/
def startMigration (host : Str) (args : List Str) : Act :=
  match args with
  | [port, target, tport, slots] =>
    .send (Admin.Commands.joinHostPort host port) (.migrate (splitOn ',' slots) target tport)
  | _ => .nothing

/-- hashslot.go:25-32, 63-74 -/
def getSlots (host : Str) (args : List Str) : Act :=
  match args with
  | [] => .nothing
  | port :: _ => .send (Admin.Commands.joinHostPort host port) .getSlots

/-- objectserver/cmd/rpc/rpc.go:19-32, 43-63 -/
def rpcCmd (host : Str) (args : List Str) : Act :=
  match args with
  | port :: cmd :: _ =>
    let r : Option Rq := if cmd = "join-cluster".toList then some .joinCluster
      else if cmd = "leave-cluster".toList then some .leaveCluster else none
    match r with
    | none => .nothing
    | some r =>
      match Slices.safeChunk args 2 (-1) with
      | none => .panic
      | some _ => .send (Admin.Commands.joinHostPort host port) r
  | _ => .nothing

/-- app.go:11-25 of all servers: the configuration file; `wd`: the working directory. -/
def appCmd (wd file : Str) (args : List Str) : Act :=
  match args with
  | f :: _ => .start f
  | [] => .start (wd ++ '/' :: file)

/-- The environment of a process. -/
structure Env where
  host : Str
  wd : Str

/-- metaserver/main.go with everything it registers. -/
def metaMain (e : Env) (args : List Str) : Act :=
  match run ["app".toList, "raft".toList, "start-migration".toList, "get-slots".toList] args ["app".toList] with
  | .panic => .panic
  | .unknown _ => .nothing
  | .call name rest =>
    if name = "app".toList then appCmd e.wd "conf/meta-server.yaml".toList rest
    else if name = "raft".toList then raftCmd e.host rest
    else if name = "start-migration".toList then startMigration e.host rest
    else getSlots e.host rest

/-- objectserver/main.go with everything it registers. -/
def dataMain (e : Env) (args : List Str) : Act :=
  match run ["app".toList, "rpc".toList] args ["app".toList] with
  | .panic => .panic
  | .unknown _ => .nothing
  | .call name rest =>
    if name = "app".toList then appCmd e.wd "conf/object-server.yaml".toList rest
    else rpcCmd e.host rest

/-- apiserver/main.go and adminserver/main.go: `app` is the only command. -/
def appMain (file : Str) (e : Env) (args : List Str) : Act :=
  match run ["app".toList] args ["app".toList] with
  | .panic => .panic
  | .unknown _ => .nothing
  | .call _ rest => appCmd e.wd file rest

/-- ip_tool.go:19-30 `GetHost`: the variable HOST, even when it is empty, else the name of the machine, else the
detected address. -/
def getHost (env : Option Str) (hostname : Option Str) (detected : Str) : Str :=
  match env with
  | some h => h
  | none => hostname.getD detected

/-! ### The server -/

/-- What arrives of an element of a repeated field. -/
def arrive2 (v : Option (Str × Str × Nat)) : Str × Str := match v with
  | some (id, addr, _) => (id, addr)
  | none => ([], [])

def arrive1 (v : Option (Str × Str)) : Str × Str := v.getD ([], [])

/-- raft_cmd_server.go:36-47, 66-73 `Bootstrap` with servers in the request: raft refuses an empty id or address, an id or
address used twice (hashicorp/raft `checkConfiguration`). -/
def bootstrapReq (servers : List (Str × Str)) : Option Meta.Members.Members :=
  servers.foldl (fun m n => m.bind fun m =>
    if (m.get n.1).isSome then none else Meta.Members.raftAdd m n.1 n.2) (some .empty)

/-! ## Specification -/

/-- A command for a metadata server. -/
inductive Line
  | addVoter (port : Str) (voters : List (Str × Str × Nat))
  | joinLeader (port id : Str)
  | appliedIndex (port : Str)
  | bootstrap (port : Str) (servers : List (Str × Str))
  | peers (port : Str)
  | leave (port : Str)
  | demote (port id : Str) (prev : Nat)
  | migrate (port host tport : Str) (slots : List Str)
  | slots (port : Str)

/-- How it is typed. -/
def Line.words : Line → List Str
  | .addVoter port vs => "raft".toList :: port :: "add_voter".toList ::
      vs.map fun v => v.1 ++ ',' :: (v.2.1 ++ ',' :: fmtNat v.2.2)
  | .joinLeader port id => ["raft".toList, port, "join_leader".toList, id]
  | .appliedIndex port => ["raft".toList, port, "applied_index".toList]
  | .bootstrap port ss => "raft".toList :: port :: "bootstrap".toList :: ss.map fun s => s.1 ++ ',' :: s.2
  | .peers port => ["raft".toList, port, "peers".toList]
  | .leave port => ["raft".toList, port, "leave".toList]
  | .demote port id prev => ["raft".toList, port, "demote_voter".toList, id, fmtNat prev]
  | .migrate port host tport ss => ["start-migration".toList, port, host, tport, PathDb.joinC ss]
  | .slots port => ["get-slots".toList, port]

def Line.port : Line → Str
  | .addVoter p _ | .joinLeader p _ | .appliedIndex p | .bootstrap p _ | .peers p | .leave p | .demote p _ _
  | .migrate p _ _ _ | .slots p => p

/-- What it asks for. -/
def Line.asks : Line → Rq
  | .addVoter _ vs => .addVoter (vs.map some)
  | .joinLeader _ id => .joinLeader id
  | .appliedIndex _ => .appliedIndex
  | .bootstrap _ ss => .bootstrap (ss.map some)
  | .peers _ => .peers
  | .leave _ => .leave
  | .demote _ id prev => .removeFollower id prev
  | .migrate _ host tport ss => .migrate ss host tport
  | .slots _ => .getSlots

/-- It can be written: no commas in what is separated by commas, numbers of 64 bits, something to add, and slots. -/
def Line.Proper : Line → Prop
  | .addVoter _ vs => vs ≠ [] ∧ ∀ v ∈ vs, ',' ∉ v.1 ∧ ',' ∉ v.2.1 ∧ v.2.2 < 2 ^ 64
  | .bootstrap _ ss => ∀ s ∈ ss, ',' ∉ s.1 ∧ ',' ∉ s.2
  | .demote _ _ prev => prev < 2 ^ 64
  | .migrate _ _ _ ss => ss ≠ [] ∧ ∀ s ∈ ss, ',' ∉ s
  | _ => True

/-! ## C106 -/

theorem run_words (cmds : List Str) (prog name : Str) (rest defs : List Str) (h : name ∈ cmds) :
    run cmds (prog :: name :: rest) defs = .call name rest := by
  have h1 : ¬ rest.length + 1 + 1 ≤ 1 := by omega
  simp only [run, List.length_cons, if_neg h1, List.getElem?_cons_succ, List.getElem?_cons_zero, List.drop_succ_cons, List.drop_zero,
    List.take_zero]
  rw [if_pos h]
  cases rest <;> simp

theorem run_unknown (cmds : List Str) (prog name : Str) (rest defs : List Str) (h : name ∉ cmds) :
    run cmds (prog :: name :: rest) defs = .unknown name := by
  have h1 : ¬ rest.length + 1 + 1 ≤ 1 := by omega
  simp only [run, List.length_cons, if_neg h1, List.getElem?_cons_succ, List.getElem?_cons_zero]
  rw [if_neg h]

theorem run_default (cmds : List Str) (prog d : Str) (h : d ∈ cmds) : run cmds [prog] [d] = .call d [] := by
  simp [run, h]

theorem toUint64_fmtNat {n : Nat} (h : n < 2 ^ 64) : toUint64 (fmtNat n) = n := by
  unfold toUint64
  rw [parseDigits_fmtNat]
  show min n (2 ^ 64 - 1) = n
  omega

theorem joinC_splitOn (s : Str) : PathDb.joinC (splitOn ',' s) = s := by
  induction s with
  | nil => rfl
  | cons c s ih =>
    unfold splitOn
    split
    · rename_i h
      rw [PathDb.joinC_cons _ (splitOn_ne_nil _ _), ih, h]; rfl
    · split
      · rename_i h; exact absurd h (splitOn_ne_nil _ _)
      · rename_i a t h
        rw [h] at ih
        cases t with
        | nil => simp only [PathDb.joinC] at ih ⊢; rw [ih]
        | cons b t =>
          rw [PathDb.joinC_cons _ (by simp)] at ih ⊢
          rw [List.cons_append, ih]

/-- **C106** A voter is understood exactly when it has three parts. -/
theorem C106_voter (v id addr : Str) (n : Nat) :
    voter v = some (id, addr, n) ↔
      ∃ idx, v = id ++ ',' :: (addr ++ ',' :: idx) ∧ ',' ∉ id ∧ ',' ∉ addr ∧ ',' ∉ idx ∧ n = toUint64 idx := by
  constructor
  · intro h
    unfold voter at h
    split at h
    · rename_i a b c hs
      simp only [Option.some.injEq, Prod.mk.injEq] at h
      obtain ⟨rfl, rfl, rfl⟩ := h
      have hj : v = PathDb.joinC (splitOn ',' v) := (joinC_splitOn v).symm
      refine ⟨c, ?_, ?_, ?_, ?_, rfl⟩
      · rw [hj, hs]; rfl
      · exact Range.splitOn_no_sep ',' v a (by simp [hs])
      · exact Range.splitOn_no_sep ',' v b (by simp [hs])
      · exact Range.splitOn_no_sep ',' v c (by simp [hs])
    · cases h
  · rintro ⟨idx, rfl, h1, h2, h3, rfl⟩
    unfold voter
    rw [splitOn_append h1, splitOn_append h2, splitOn_of_not_mem h3]

/-- **C106** A server is understood exactly when it has two parts. -/
theorem C106_server (v id addr : Str) :
    server v = some (id, addr) ↔ v = id ++ ',' :: addr ∧ ',' ∉ id ∧ ',' ∉ addr := by
  constructor
  · intro h
    unfold server at h
    split at h
    · rename_i a b hs
      simp only [Option.some.injEq, Prod.mk.injEq] at h
      obtain ⟨rfl, rfl⟩ := h
      have hj : v = PathDb.joinC (splitOn ',' v) := (joinC_splitOn v).symm
      refine ⟨?_, ?_, ?_⟩
      · rw [hj, hs]; rfl
      · exact Range.splitOn_no_sep ',' v a (by simp [hs])
      · exact Range.splitOn_no_sep ',' v b (by simp [hs])
    · cases h
  · rintro ⟨rfl, h1, h2⟩
    unfold server
    rw [splitOn_append h1, splitOn_of_not_mem h2]

example : voter "m2,10.0.0.2:8090,7".toList = some ("m2".toList, "10.0.0.2:8090".toList, 7) ∧
    voter "m2,10.0.0.2:8090".toList = none ∧ server "m2,10.0.0.2:8090".toList = some ("m2".toList, "10.0.0.2:8090".toList) := by
  decide

/-- **C106** Every command that is typed properly sends exactly what it asks for, to the server on that port of this
machine. -/
theorem C106_sent (e : Env) (prog : Str) (l : Line) (h : l.Proper) :
    metaMain e (prog :: l.words) = .send (Admin.Commands.joinHostPort e.host l.port) l.asks := by
  cases l with
  | addVoter port vs =>
    obtain ⟨h1, h2⟩ := h
    simp only [Line.words, metaMain]
    rw [run_words _ _ _ _ _ (by decide)]
    dsimp only
    rw [if_neg (by decide), if_pos rfl]
    unfold raftCmd
    dsimp only
    rw [if_pos rfl, if_neg (by simpa using h1)]
    simp only [Line.port, Line.asks, List.map_map]
    congr 2
    apply List.map_congr_left
    intro v hv
    obtain ⟨a1, a2, a3⟩ := h2 v hv
    simp only [Function.comp_apply]
    exact (C106_voter _ _ _ _).2 ⟨fmtNat v.2.2, rfl, a1, a2, fmtNat_not_mem (by decide), (toUint64_fmtNat a3).symm⟩
  | joinLeader port id => rfl
  | appliedIndex port => rfl
  | bootstrap port ss =>
    simp only [Line.words, metaMain]
    rw [run_words _ _ _ _ _ (by decide)]
    dsimp only
    rw [if_neg (by decide), if_pos rfl]
    unfold raftCmd
    dsimp only
    rw [if_neg (by decide), if_neg (by decide), if_neg (by decide), if_pos rfl]
    simp only [Line.port, Line.asks, List.map_map]
    congr 2
    apply List.map_congr_left
    intro v hv
    obtain ⟨a1, a2⟩ := h v hv
    exact (C106_server _ _ _).2 ⟨rfl, a1, a2⟩
  | peers port => rfl
  | leave port => rfl
  | demote port id prev =>
    have : metaMain e (prog :: (Line.demote port id prev).words) =
      .send (Admin.Commands.joinHostPort e.host port) (.removeFollower id (toUint64 (fmtNat prev))) := rfl
    rw [this, toUint64_fmtNat h]; rfl
  | migrate port host tport ss =>
    have : metaMain e (prog :: (Line.migrate port host tport ss).words) =
      .send (Admin.Commands.joinHostPort e.host port) (.migrate (splitOn ',' (PathDb.joinC ss)) host tport) := rfl
    rw [this, PathDb.splitOn_joinC h.1 h.2]; rfl
  | slots port => rfl

example : metaMain ⟨"here".toList, []⟩ ("meta".toList ::
      (Line.addVoter "8091".toList [("m2".toList, "10.0.0.2:8090".toList, 7)]).words) =
    .send "here:8091".toList (.addVoter [some ("m2".toList, "10.0.0.2:8090".toList, 7)]) :=
  C106_sent _ _ _ ⟨by simp, by decide⟩

/-- **C106** A request is only sent by the commands that are registered, and always to the port that was typed. -/
theorem C106_target (e : Env) (args : List Str) (addr : Str) (r : Rq) (h : metaMain e args = .send addr r) :
    ∃ prog name port rest, args = prog :: name :: port :: rest ∧ addr = Admin.Commands.joinHostPort e.host port ∧
      name ∈ ["raft".toList, "start-migration".toList, "get-slots".toList] := by
  unfold metaMain at h
  rcases args with _ | ⟨prog, _ | ⟨name, rest⟩⟩
  · cases h
  · rw [run_default _ _ _ (by decide)] at h
    cases h
  · by_cases hn : name ∈ ["app".toList, "raft".toList, "start-migration".toList, "get-slots".toList]
    · rw [run_words _ _ _ _ _ hn] at h
      dsimp only at h
      have hn' := hn
      simp only [List.mem_cons, List.not_mem_nil, or_false] at hn
      split at h
      · unfold appCmd at h; split at h <;> cases h
      · rename_i happ
        have hmem : name ∈ ["raft".toList, "start-migration".toList, "get-slots".toList] := by
          rcases hn with hn | hn
          · exact absurd hn happ
          · simpa using hn
        split at h
        · unfold raftCmd at h
          split at h
          · rename_i port cmd rest
            refine ⟨prog, name, port, cmd :: rest, rfl, ?_, hmem⟩
            dsimp only at h
            (repeat' split at h) <;> first | cases h; rfl | cases h
          · cases h
        · split at h
          · unfold startMigration at h
            split at h
            · rename_i port target tport slots
              cases h
              exact ⟨prog, name, port, _, rfl, rfl, hmem⟩
            · cases h
          · unfold getSlots at h
            split at h
            · cases h
            · rename_i port rest
              cases h
              exact ⟨prog, name, port, rest, rfl, rfl, hmem⟩
    · rw [run_unknown _ _ _ _ _ hn] at h
      cases h

/-- **C106** What is not a command does nothing; without a command the server is started with the file below the working directory,
and with a file after `app`, with that one. -/
theorem C106_start (e : Env) (prog : Str) (file : Str) :
    metaMain e [prog] = .start (e.wd ++ '/' :: "conf/meta-server.yaml".toList) ∧
    dataMain e [prog] = .start (e.wd ++ '/' :: "conf/object-server.yaml".toList) ∧
    appMain file e [prog] = .start (e.wd ++ '/' :: file) ∧
    (∀ f rest, metaMain e (prog :: "app".toList :: f :: rest) = .start f ∧
      dataMain e (prog :: "app".toList :: f :: rest) = .start f ∧ appMain file e (prog :: "app".toList :: f :: rest) = .start f) ∧
    (∀ name rest, name ∉ ["app".toList, "raft".toList, "start-migration".toList, "get-slots".toList] →
      metaMain e (prog :: name :: rest) = .nothing) ∧
    (∀ name rest, name ∉ ["app".toList, "rpc".toList] → dataMain e (prog :: name :: rest) = .nothing) ∧
    (∀ name rest, name ≠ "app".toList → appMain file e (prog :: name :: rest) = .nothing) := by
  refine ⟨rfl, rfl, rfl, fun f rest => ⟨rfl, rfl, rfl⟩, fun name rest h => ?_, fun name rest h => ?_, fun name rest h => ?_⟩
  · unfold metaMain; rw [run_unknown _ _ _ _ _ h]
  · unfold dataMain; rw [run_unknown _ _ _ _ _ h]
  · unfold appMain; rw [run_unknown _ _ _ _ _ (by simpa using h)]

/-- **C106** The commands of a data server. -/
theorem C106_data (e : Env) (prog port : Str) (rest : List Str) :
    dataMain e (prog :: "rpc".toList :: port :: "join-cluster".toList :: rest) =
      .send (Admin.Commands.joinHostPort e.host port) .joinCluster ∧
    dataMain e (prog :: "rpc".toList :: port :: "leave-cluster".toList :: rest) =
      .send (Admin.Commands.joinHostPort e.host port) .leaveCluster ∧
    ∀ cmd, cmd ≠ "join-cluster".toList → cmd ≠ "leave-cluster".toList →
      dataMain e (prog :: "rpc".toList :: port :: cmd :: rest) = .nothing := by
  have hch : ∀ cmd : Str, ∃ c, Slices.safeChunk (port :: cmd :: rest) 2 (-1) = some c := by
    intro cmd
    obtain ⟨c, hc, _⟩ := Slices.C58_safe_chunk_partial (port :: cmd :: rest) 2 (-1) (by simp) (by omega) (by
      rintro ⟨_, hd⟩
      have := Int.natAbs_dvd_natAbs.2 hd
      simp at this
      omega)
    exact ⟨c, hc⟩
  refine ⟨?_, ?_, fun cmd h1 h2 => ?_⟩
  · unfold dataMain
    rw [run_words _ _ _ _ _ (by decide)]
    dsimp only
    rw [if_neg (by decide)]
    unfold rpcCmd
    obtain ⟨c, hc⟩ := hch "join-cluster".toList
    dsimp only
    rw [if_pos rfl, hc]
  · unfold dataMain
    rw [run_words _ _ _ _ _ (by decide)]
    dsimp only
    rw [if_neg (by decide)]
    unfold rpcCmd
    obtain ⟨c, hc⟩ := hch "leave-cluster".toList
    dsimp only
    rw [if_neg (by decide), if_pos rfl, hc]
  · unfold dataMain
    rw [run_words _ _ _ _ _ (by decide)]
    dsimp only
    rw [if_neg (by decide)]
    unfold rpcCmd
    dsimp only
    rw [if_neg h1, if_neg h2]

/-- **C106** Only a process without any argument, not even its own name, panics. -/
theorem C106_no_panic (e : Env) (file : Str) (args : List Str) :
    (metaMain e args = .panic ↔ args = []) ∧ (dataMain e args = .panic ↔ args = []) ∧ (appMain file e args = .panic ↔ args = []) := by
  rcases args with _ | ⟨prog, _ | ⟨name, rest⟩⟩
  · exact ⟨by simp; rfl, by simp; rfl, by simp; rfl⟩
  · refine ⟨?_, ?_, ?_⟩ <;> constructor <;> intro h <;> cases h
  · refine ⟨⟨fun h => ?_, fun h => by cases h⟩, ⟨fun h => ?_, fun h => by cases h⟩, ⟨fun h => ?_, fun h => by cases h⟩⟩
    · exfalso
      unfold metaMain at h
      by_cases hn : name ∈ ["app".toList, "raft".toList, "start-migration".toList, "get-slots".toList]
      · rw [run_words _ _ _ _ _ hn] at h
        dsimp only at h
        split at h
        · unfold appCmd at h; split at h <;> cases h
        · split at h
          · unfold raftCmd at h
            dsimp only at h
            (repeat' split at h) <;> cases h
          · split at h
            · unfold startMigration at h; split at h <;> cases h
            · unfold getSlots at h; split at h <;> cases h
      · rw [run_unknown _ _ _ _ _ hn] at h
        cases h
    · exfalso
      by_cases hn : name ∈ ["app".toList, "rpc".toList]
      · by_cases ha : name = "app".toList
        · subst ha
          unfold dataMain at h
          rw [run_words _ _ _ _ _ hn] at h
          dsimp only at h
          rw [if_pos rfl] at h
          unfold appCmd at h; split at h <;> cases h
        · have hr : name = "rpc".toList := by
            simp only [List.mem_cons, List.not_mem_nil, or_false] at hn
            exact hn.resolve_left ha
          subst hr
          rcases rest with _ | ⟨port, _ | ⟨cmd, rest⟩⟩
          · cases h
          · cases h
          · obtain ⟨d1, d2, d3⟩ := C106_data e prog port rest
            by_cases h1 : cmd = "join-cluster".toList
            · subst h1; rw [d1] at h; cases h
            · by_cases h2 : cmd = "leave-cluster".toList
              · subst h2; rw [d2] at h; cases h
              · rw [d3 cmd h1 h2] at h; cases h
      · unfold dataMain at h
        rw [run_unknown _ _ _ _ _ hn] at h
        cases h
    · exfalso
      unfold appMain at h
      by_cases hn : name ∈ ["app".toList]
      · rw [run_words _ _ _ _ _ hn] at h
        dsimp only at h
        unfold appCmd at h; split at h <;> cases h
      · rw [run_unknown _ _ _ _ _ hn] at h
        cases h

/-! ### What becomes of it at the server -/

theorem bootstrapReq_none (l : List (Str × Str)) : l.foldl (fun (m : Option Meta.Members.Members) n => m.bind fun m =>
    if (m.get n.1).isSome then none else Meta.Members.raftAdd m n.1 n.2) none = none := by
  induction l with
  | nil => rfl
  | cons a l ih => exact ih

theorem bootstrap_fold (l : List (Str × Str)) (m0 m : Meta.Members.Members)
    (h : l.foldl (fun (m : Option Meta.Members.Members) n => m.bind fun m =>
      if (m.get n.1).isSome then none else Meta.Members.raftAdd m n.1 n.2) (some m0) = some m) :
    (∀ s ∈ l, s.1 ≠ [] ∧ s.2 ≠ []) ∧ ∀ id addr, m.get id = some addr ↔ m0.get id = some addr ∨ (id, addr) ∈ l := by
  induction l generalizing m0 with
  | nil =>
    cases h
    simp
  | cons a l ih =>
    simp only [List.foldl_cons, Option.bind_some] at h
    by_cases hs : (m0.get a.1).isSome
    · rw [if_pos hs, bootstrapReq_none] at h; cases h
    · rw [if_neg hs] at h
      by_cases hv : a.1 = [] ∨ a.2 = [] ∨ m0.entries.any (fun e => decide (e.1 ≠ a.1) && decide (e.2 = a.2)) = true
      · rw [show Meta.Members.raftAdd m0 a.1 a.2 = none from if_pos hv, bootstrapReq_none] at h; cases h
      · rw [show Meta.Members.raftAdd m0 a.1 a.2 = some (m0.put a.1 a.2) from if_neg hv] at h
        simp only [not_or] at hv
        obtain ⟨i1, i2⟩ := ih _ h
        refine ⟨fun s hsm => ?_, fun id addr => ?_⟩
        · rcases List.mem_cons.1 hsm with rfl | hsm
          · exact ⟨hv.1, hv.2.1⟩
          · exact i1 s hsm
        · rw [i2, KMap.get_put]
          by_cases hk : id = a.1
          · subst hk
            rw [if_pos rfl]
            have hn : m0.get a.1 = none := by simpa using hs
            rw [hn]
            constructor
            · rintro (h | h)
              · cases h; exact Or.inr (List.mem_cons_self ..)
              · exact Or.inr (List.mem_cons_of_mem _ h)
            · rintro (h | h)
              · cases h
              · rcases List.mem_cons.1 h with h | h
                · left; rw [← h]
                · exact Or.inr h
          · rw [if_neg hk]
            constructor
            · rintro (h | h)
              · exact Or.inl h
              · exact Or.inr (List.mem_cons_of_mem _ h)
            · rintro (h | h)
              · exact Or.inl h
              · rcases List.mem_cons.1 h with h | h
                · exact absurd (by rw [← h]) hk
                · exact Or.inr h

/-- **C106** Bootstrapping with typed servers makes exactly these the members, or none: a server that is not written properly makes
all of it fail. -/
theorem C106_bootstrap (words : List Str) (m : Meta.Members.Members)
    (h : bootstrapReq ((words.map server).map arrive1) = some m) :
    (∀ w ∈ words, ∃ id addr, w = id ++ ',' :: addr ∧ ',' ∉ id ∧ ',' ∉ addr ∧ id ≠ [] ∧ addr ≠ []) ∧
    ∀ id addr, m.get id = some addr ↔ id ++ ',' :: addr ∈ words ∧ ',' ∉ id ∧ ',' ∉ addr := by
  obtain ⟨h1, h2⟩ := bootstrap_fold _ _ _ h
  have hw : ∀ w ∈ words, ∃ id addr, server w = some (id, addr) ∧ id ≠ [] ∧ addr ≠ [] := by
    intro w hw
    have := h1 (arrive1 (server w)) (List.mem_map_of_mem (List.mem_map_of_mem hw))
    cases hs : server w with
    | none => rw [hs] at this; exact absurd rfl this.1
    | some x => rw [hs] at this; exact ⟨x.1, x.2, rfl, this⟩
  refine ⟨fun w hwm => ?_, fun id addr => ?_⟩
  · obtain ⟨id, addr, a1, a2, a3⟩ := hw w hwm
    obtain ⟨b1, b2, b3⟩ := (C106_server _ _ _).1 a1
    exact ⟨id, addr, b1, b2, b3, a2, a3⟩
  · rw [h2]
    have he : (KMap.empty : Meta.Members.Members).get id = none := rfl
    rw [he]
    simp only [reduceCtorEq, false_or, List.mem_map, List.map_map, Function.comp_apply]
    constructor
    · rintro ⟨w, hwm, hx⟩
      obtain ⟨id', addr', a1, _⟩ := hw w hwm
      rw [a1] at hx
      cases hx
      obtain ⟨b1, b2, b3⟩ := (C106_server _ _ _).1 a1
      exact ⟨b1 ▸ hwm, b2, b3⟩
    · rintro ⟨c1, c2, c3⟩
      exact ⟨_, c1, by rw [(C106_server _ id addr).2 ⟨rfl, c2, c3⟩]; rfl⟩

example : (bootstrapReq (["m1,a:1".toList, "m2,a:2".toList].map server |>.map arrive1)).isSome = true ∧
    bootstrapReq (["m1,a:1".toList, "m2".toList].map server |>.map arrive1) = none := by decide

/-- Full statement: an `add_voter` that is not answered with success changes nothing. -/
def AddAllOrNothing : Prop :=
  ∀ (w w' : Meta.Members.W) (l : Str) (words : List Str),
    Meta.Members.addVoter w l ((words.map voter).map arrive2) = (false, w') → w' = w

theorem addAll_blank (m : Meta.Members.Members) (l : List (Str × Str)) (h : ([], []) ∈ l) :
    (Meta.Members.addAll m l).2 = false := by
  induction l generalizing m with
  | nil => cases h
  | cons a l ih =>
    obtain ⟨id, addr⟩ := a
    simp only [Meta.Members.addAll]
    rcases List.mem_cons.1 h with h | h
    · cases h
      simp [Meta.Members.raftAdd]
    · split
      · exact ih _ h
      · rfl

/-- **C106** A voter that is not written properly is never added, and the command is never answered with success.  Missing for the full
property: the other voters are added nevertheless (`C106_add_half`). -/
theorem C106_add_malformed_partial (w : Meta.Members.W) (l : Str) (words : List Str) (v : Str) (hv : v ∈ words)
    (hm : voter v = none) : (Meta.Members.addVoter w l ((words.map voter).map arrive2)).1 = false := by
  unfold Meta.Members.addVoter
  rw [if_neg (by cases words <;> simp_all)]
  split
  · rfl
  · rename_i m _
    have : (Meta.Members.addAll m ((words.map voter).map arrive2)).2 = false := by
      apply addAll_blank
      simp only [List.map_map, List.mem_map, Function.comp_apply]
      exact ⟨v, hv, by rw [hm]; rfl⟩
    dsimp only
    rw [this]
    rfl

/-- One server that leads itself. -/
def one : Meta.Members.W :=
  ⟨KMap.empty.put "m1".toList (KMap.empty.put "m1".toList "a:1".toList), KMap.empty.put "m1".toList ["m1,a:1".toList]⟩

example : (Meta.Members.addVoter one "m1".toList
    ((["m2,a:2,0".toList, "m3".toList].map voter).map arrive2)).1 = false :=
  C106_add_malformed_partial _ _ _ "m3".toList (by simp) (by decide)

/-- **C106 fails**: of two voters, one of them written wrongly, the other one is added although the command fails. -/
theorem C106_add_half : ¬ AddAllOrNothing := by
  intro h
  have := h one (Meta.Members.addVoter one "m1".toList ((["m2,a:2,0".toList, "m3".toList].map voter).map arrive2)).2
    "m1".toList ["m2,a:2,0".toList, "m3".toList] (by decide)
  revert this
  decide

/-- **C106** The index a voter was typed with, which should make the command fail if the members changed since, has no effect. -/
theorem C106_index_ignored (w : Meta.Members.W) (l : Str) (vs vs' : List (Str × Str × Nat))
    (h : vs.map (fun v => (v.1, v.2.1)) = vs'.map fun v => (v.1, v.2.1)) :
    Meta.Members.addVoter w l ((vs.map some).map arrive2) = Meta.Members.addVoter w l ((vs'.map some).map arrive2) := by
  have : ∀ vs : List (Str × Str × Nat), (vs.map some).map arrive2 = vs.map fun v => (v.1, v.2.1) := by
    intro vs; rw [List.map_map]; rfl
  rw [this, this, h]

example : [("m2".toList, "a:2".toList, 7)].map (fun v : Str × Str × Nat => (v.1, v.2.1)) =
    [("m2".toList, "a:2".toList, 0)].map fun v => (v.1, v.2.1) := rfl

/-- A command is sent only when it was typed properly. -/
def OnlyProper : Prop :=
  ∀ (e : Env) (args : List Str) (addr : Str) (r : Rq), metaMain e args = .send addr r →
    ∃ (prog : Str) (l : Line), l.Proper ∧ args = prog :: l.words

/-- **C106 fails**: an index that is no number is sent as 0, which means that it is not checked. -/
theorem C106_number_misread : ¬ OnlyProper := by
  intro h
  obtain ⟨prog, l, h1, h2⟩ := h ⟨[], []⟩ [[], "raft".toList, "1".toList, "demote_voter".toList, "m".toList, "x".toList]
    (Admin.Commands.joinHostPort [] "1".toList) (.removeFollower "m".toList 0) (by rfl)
  have hd : ∀ n : Nat, fmtNat n ≠ ['x'] := by
    intro n hn
    have : 'x'.isDigit = true := fmtNat_isDigit (n := n) (by rw [hn]; simp)
    exact absurd this (by decide)
  cases l with
  | demote port id prev =>
    simp only [Line.words, List.cons.injEq, and_true] at h2
    exact hd prev h2.2.2.2.2.2.symm
  | addVoter port vs => simp [Line.words] at h2
  | bootstrap port vs => simp [Line.words] at h2
  | joinLeader | appliedIndex | peers | leave | migrate | slots => simp [Line.words] at h2

/-- **C106** The variable HOST is used even when it is empty; else the name of the machine. -/
theorem C106_host (env hostname : Option Str) (detected : Str) :
    (∀ h, env = some h → getHost env hostname detected = h) ∧
    (env = none → ∀ n, hostname = some n → getHost env hostname detected = n) ∧
    (env = none → hostname = none → getHost env hostname detected = detected) := by
  refine ⟨?_, ?_, ?_⟩
  · rintro h rfl; rfl
  · rintro rfl n rfl; rfl
  · rintro rfl rfl; rfl

end Verif.CmdLine
