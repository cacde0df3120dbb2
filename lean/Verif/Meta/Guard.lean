import Verif.Meta.Fsm

/-!
# Which requests may change the store: C28, C61

The middlewares of the metadata server (src/metaserver/internal/controller/http/middleware.go,
controller/grpc/middleware.go), the handlers behind them and the services, as one decision: what a
request does to the server that receives it.
-/

namespace Verif.Meta

open Verif

/-! ## Model -/

/-- The state of a server that the middlewares and `ApplyRaft` look at. -/
structure Env where
  enabled : Bool         -- pool.RaftWrapper.Enabled
  leadGuard : Bool       -- RaftWrapper.isLeader when the middleware reads it
  leadApply : Bool       -- RaftWrapper.isLeader when `ApplyRaft` reads it
  normal : Bool          -- pool.HashSlot.IsNormal()
  owns : Str → Bool      -- logic.NewHashSlot().IsKeyOnThisServer(key)
  now : Int              -- time.Now().UnixMilli()
  uid : Str              -- logic.GenerateUniqueId()

/-- Requests with valid bodies (a body that does not bind is answered 400 before anything happens;
routes: http/metadata_rest.go:22-28, version_rest.go:20-28, bucket_rest.go:20-28;
grpc/metadata_server.go, hashslot_server.go:39-69).  All other routes only read. -/
inductive Req
  | httpPostMeta (name : Str) (d : Metadata)
  | httpPutMeta (name : Str) (d : Metadata)
  | httpDeleteMeta (name : Str)
  | httpPostVersion (name : Str) (d : Version)
  | httpPutVersion (name : Str) (ver : Int) (d : Version)
  | httpDeleteVersion (name : Str) (ver : Int)
  | httpPatchLocate (hash : Str) (index : Nat) (locate : Str)
  | httpListByHash (hash : Str)
  | httpPostBucket (d : Bucket)
  | httpPutBucket (name : Str) (d : Bucket)
  | httpDeleteBucket (name : Str)
  | httpRead (name : Str)
  | grpcSaveMetadata (id : Str) (d : Metadata)
  | grpcSaveVersion (id : Str) (d : Version)
  | grpcUpdateVersion (id : Str) (ver : Int) (d : Version)
  | grpcRemoveVersion (id : Str) (ver : Int)
  | grpcSaveBucket (id : Str) (d : Bucket)
  | grpcVersionsByHash (id hash : Str)
  | grpcRead (id : Str)
  | grpcReceiveVersion (name : Str) (d : Version)      -- items of StreamingReceive
  | grpcReceiveMetadata (name : Str) (d : Metadata)
  | grpcReceiveBucket (d : Bucket)

/-- What becomes of a request. -/
inductive Outcome
  | refused           -- by a middleware or a check of the handler
  | logged (c : Cmd)  -- handed to raft; the store changes when the entry is applied
  | direct (op : Op)  -- carried out on this server's own store, outside of the log
  | readOnly
  deriving DecidableEq

/-- `uint64(ver)`. -/
def toU64 (v : Int) : Nat := (v % 18446744073709551616).toNat

/-- `ApplyRaft(data)` and the code after it in every method of the services
(raftimpl/raft_apply.go:19-41, service/metadata_service.go:26-135, bucket_service.go:20-62): the
leader logs, anyone else carries the operation out directly.  Simplified: raft accepts the entry (an
error is returned to the client and nothing else happens). -/
def submit (e : Env) (op : Op) : Outcome :=
  if e.leadApply && e.enabled then
    match opCmd op with
    | some c => .logged c
    | none => .direct op
  else .direct op

/-- `RemoveVersion(name, ver)`, metadata_service.go:120-135. -/
def removeVersionOp (name : Str) (ver : Int) : Op :=
  if ver < 0 then .removeAllVersion name else .removeVer name ver.toNat

/-- The three middlewares for a writing HTTP method, http/middleware.go:18-55; `name` is the `name`
parameter of the route, empty if it has none. -/
def httpWrite (e : Env) (name : Str) (o : Outcome) : Outcome :=
  if !e.normal then .refused
  else if e.enabled && !(e.leadGuard && e.enabled) then .refused
  else if name ≠ [] ∧ e.owns name = false then .refused
  else o

/-- gRPC `CheckKeySlot`, grpc/middleware.go:101-133. -/
def grpcKey (e : Env) (id : Str) (o : Outcome) : Outcome :=
  if id ≠ [] ∧ e.owns id = false then .refused else o

/-- gRPC `CheckWritable…` for a method in `checkWritableMethods`, grpc/middleware.go:59-91. -/
def grpcWrite (e : Env) (streaming : Bool) (o : Outcome) : Outcome :=
  if e.enabled && !(e.leadGuard && e.enabled) then .refused
  else if !streaming && !e.normal then .refused
  else o

/-- A request from arrival to its effect.  The times and unique ids that the services set
(metadata_service.go:27-28, 42-43, 79, 93-94, bucket_service.go:24-25, 52) come from `Env`. -/
def serve (e : Env) : Req → Outcome
  | .httpPostMeta n d =>
    httpWrite e n (submit e (.addMeta n { d with createTime := e.now, updateTime := e.now }))
  | .httpPutMeta n d => httpWrite e n (submit e (.updateMeta n { d with updateTime := e.now }))
  | .httpDeleteMeta n => httpWrite e n (submit e (.removeMeta n))
  | .httpPostVersion n d =>
    httpWrite e n (submit e (.addVer n { d with sequence := 0, uniqueId := e.uid, ts := e.now }))
  | .httpPutVersion n v d =>
    httpWrite e n (submit e (.updateVer n { d with ts := e.now, sequence := toU64 v }))
  | .httpDeleteVersion n v => httpWrite e n (submit e (removeVersionOp n v))
  | .httpPatchLocate h i l => httpWrite e [] (.direct (.updateLocate e.now h i l))
  | .httpListByHash h => .direct (.findByHash h)
  | .httpPostBucket d =>
    httpWrite e [] (
      if d.name = [] then .refused
      else if e.owns d.name = false then .refused
      else submit e (.bucketCreate { d with createTime := e.now, updateTime := e.now }))
  | .httpPutBucket n d =>
    httpWrite e n (submit e (.bucketUpdate { d with name := n, updateTime := e.now }))
  | .httpDeleteBucket n => httpWrite e n (submit e (.bucketDelete n))
  | .httpRead _ => .readOnly
  | .grpcSaveMetadata id d =>
    grpcKey e id (grpcWrite e false (
      if id = [] then .refused
      else submit e (.addMeta id { d with createTime := e.now, updateTime := e.now })))
  | .grpcSaveVersion id d =>
    grpcKey e id (grpcWrite e false (
      if id = [] then .refused else submit e (.addVer id { d with uniqueId := e.uid, ts := e.now })))
  | .grpcUpdateVersion id v d =>
    grpcKey e id (
      if id = [] ∨ v ≤ 0 then .refused
      else submit e (.updateVer id { d with ts := e.now, sequence := toU64 v }))
  | .grpcRemoveVersion id v =>
    grpcKey e id (grpcWrite e false (
      if id = [] ∨ v ≤ 0 then .refused else submit e (removeVersionOp id v)))
  | .grpcSaveBucket id d =>
    grpcKey e id (grpcWrite e false (
      if id = [] then .refused
      else submit e (.bucketCreate { d with name := id, createTime := e.now, updateTime := e.now })))
  | .grpcVersionsByHash id h => grpcKey e id (if h = [] then .refused else .direct (.findByHash h))
  | .grpcRead id => grpcKey e id .readOnly
  | .grpcReceiveVersion n d => grpcWrite e true (submit e (.migrateVer n d))
  | .grpcReceiveMetadata n d =>
    grpcWrite e true (submit e (.addMeta n { d with createTime := e.now, updateTime := e.now }))
  | .grpcReceiveBucket d =>
    grpcWrite e true (submit e (.bucketCreate { d with createTime := e.now, updateTime := e.now }))

/-! ## Specification -/

/-- The store of the server right after it has answered, apart from log entries being applied. -/
def Outcome.local (s : Store) : Outcome → Store
  | .direct op => (step s op).2
  | _ => s

/-- The full property: in cluster mode no request changes the store except through the log. -/
def OnlyThroughLog : Prop :=
  ∀ (e : Env) (r : Req) (s : Store), Reachable s → e.enabled = true → (serve e r).local s = s

/-- The requests whose handlers bypass the log. -/
def Req.bypasses : Req → Bool
  | .httpPatchLocate .. => true
  | .httpListByHash .. => true
  | .grpcVersionsByHash .. => true
  | _ => false

/-- The request that should be guarded by `checkWritableMethods` and is not. -/
def Req.unguarded : Req → Bool
  | .grpcUpdateVersion .. => true
  | _ => false

/-- The key a request names, if it wants to change what is stored under a key. -/
def Req.key : Req → Option Str
  | .httpPostMeta n _ | .httpPutMeta n _ | .httpDeleteMeta n | .httpPostVersion n _
  | .httpPutVersion n _ _ | .httpDeleteVersion n _ | .httpPutBucket n _ | .httpDeleteBucket n
  | .grpcSaveMetadata n _ | .grpcSaveVersion n _ | .grpcUpdateVersion n _ _ | .grpcRemoveVersion n _
  | .grpcSaveBucket n _ => some n
  | .httpPostBucket d => some d.name
  | _ => none

/-! ## Theorems -/

theorem opCmd_removeVersion (n : Str) (v : Int) : ∃ c, opCmd (removeVersionOp n v) = some c := by
  unfold removeVersionOp
  split <;> exact ⟨_, rfl⟩

theorem submit_leader {e : Env} {op : Op} {c : Cmd} (h1 : e.enabled = true) (h2 : e.leadApply = true)
    (h3 : opCmd op = some c) : submit e op = .logged c := by
  simp [submit, h1, h2, h3]

/-- In cluster mode a server that loses no leadership between the check and the log either
refuses a guarded request or logs it. -/
theorem guarded_not_direct {e : Env} (hen : e.enabled = true)
    (hst : e.leadGuard = true → e.leadApply = true) {r : Req} (hb : r.bypasses = false)
    (hu : r.unguarded = true → e.leadApply = true) (op : Op) : serve e r ≠ .direct op := by
  have hs : ∀ {o : Op} {c : Cmd}, e.leadApply = true → opCmd o = some c →
      submit e o ≠ .direct op := by
    intro o c h1 h2
    rw [submit_leader hen h1 h2]
    simp
  have hw : ∀ {n : Str} {o : Outcome}, (e.leadApply = true → o ≠ .direct op) →
      httpWrite e n o ≠ .direct op := by
    intro n o h
    unfold httpWrite
    split
    · simp
    · split
      · simp
      · rename_i hg
        simp only [hen, Bool.and_true, Bool.true_and, Bool.not_eq_true', Bool.not_eq_false] at hg
        split
        · simp
        · exact h (hst hg)
  have hgw : ∀ {st : Bool} {o : Outcome}, (e.leadApply = true → o ≠ .direct op) →
      grpcWrite e st o ≠ .direct op := by
    intro st o h
    unfold grpcWrite
    split
    · simp
    · rename_i hg
      simp only [hen, Bool.and_true, Bool.true_and, Bool.not_eq_true', Bool.not_eq_false] at hg
      split
      · simp
      · exact h (hst hg)
  have hk : ∀ {n : Str} {o : Outcome}, o ≠ .direct op → grpcKey e n o ≠ .direct op := by
    intro n o h
    unfold grpcKey
    split
    · simp
    · exact h
  have hif : ∀ {p : Prop} [Decidable p] {o : Outcome}, o ≠ .direct op →
      (if p then Outcome.refused else o) ≠ .direct op := by
    intro p _ o h
    split
    · simp
    · exact h
  cases r with
  | httpPatchLocate => cases hb
  | httpListByHash => cases hb
  | grpcVersionsByHash => cases hb
  | httpRead => simp [serve]
  | grpcRead => exact hk (by simp)
  | httpPostMeta => exact hw fun h => hs h rfl
  | httpPutMeta => exact hw fun h => hs h rfl
  | httpDeleteMeta => exact hw fun h => hs h rfl
  | httpPostVersion => exact hw fun h => hs h rfl
  | httpPutVersion => exact hw fun h => hs h rfl
  | httpDeleteVersion n v => exact hw fun h => hs h (opCmd_removeVersion n v).choose_spec
  | httpPostBucket => exact hw fun h => hif (hif (hs h rfl))
  | httpPutBucket => exact hw fun h => hs h rfl
  | httpDeleteBucket => exact hw fun h => hs h rfl
  | grpcSaveMetadata => exact hk (hgw fun h => hif (hs h rfl))
  | grpcSaveVersion => exact hk (hgw fun h => hif (hs h rfl))
  | grpcUpdateVersion => exact hk (hif (hs (hu rfl) rfl))
  | grpcRemoveVersion n v => exact hk (hgw fun h => hif (hs h (opCmd_removeVersion n v).choose_spec))
  | grpcSaveBucket => exact hk (hgw fun h => hif (hs h rfl))
  | grpcReceiveVersion => exact hgw fun h => hs h rfl
  | grpcReceiveMetadata => exact hgw fun h => hs h rfl
  | grpcReceiveBucket => exact hgw fun h => hs h rfl

/-- **C28, partial**: what is missing is exactly the three bypassing requests, gRPC `UpdateVersion`
on a follower and a loss of leadership between the middleware and `ApplyRaft`.  For everything else,
in cluster mode, a request leaves the store alone unless it goes through the log. -/
theorem C28_only_through_log_partial (e : Env) (hen : e.enabled = true)
    (hst : e.leadGuard = true → e.leadApply = true) (r : Req) (hb : r.bypasses = false)
    (hu : r.unguarded = true → e.leadApply = true) (s : Store) : (serve e r).local s = s := by
  have h := guarded_not_direct hen hst hb hu
  cases hr : serve e r with
  | direct op => exact absurd hr (h op)
  | refused => rfl
  | logged c => rfl
  | readOnly => rfl

/-- **C28, partial** A follower refuses every guarded write outright. -/
theorem C28_follower_refuses_partial (e : Env) (hen : e.enabled = true) (hl : e.leadGuard = false)
    (r : Req) (n : Str) (hk : r.key = some n) (hu : r.unguarded = false) : serve e r = .refused := by
  have hw : ∀ (n : Str) (o : Outcome), httpWrite e n o = .refused := by
    intro n o; simp [httpWrite, hen, hl]
  have hg : ∀ (st : Bool) (o : Outcome), grpcWrite e st o = .refused := by
    intro st o; simp [grpcWrite, hen, hl]
  have hkk : ∀ (n : Str), grpcKey e n .refused = .refused := by intro n; simp [grpcKey]
  cases r <;> simp_all [Req.key, Req.unguarded, serve]

/-- **C28** What goes to the log of the leader is applied on every replica as the operation itself
(with `C27_log_refines_store`): the outcome of a write on a stable leader in normal state that owns
the key is the log entry of exactly that operation. -/
theorem C28_leader_logs (e : Env) (hen : e.enabled = true) (h1 : e.leadGuard = true)
    (h2 : e.leadApply = true) (hn : e.normal = true) (n : Str) (hn' : n ≠ []) (ho : e.owns n = true)
    (d : Version) :
    serve e (.grpcSaveVersion n d) =
      .logged ⟨1, 1, n, 0, some { d with uniqueId := e.uid, ts := e.now }, none, none⟩ := by
  simp [serve, grpcKey, grpcWrite, submit, opCmd, hen, h1, h2, hn, hn', ho]

/-- A leader, a follower, and a leader about to lose its role. -/
def sampleLeader : Env := ⟨true, true, true, true, fun _ => true, 100, "u9".toList⟩
def sampleFollower : Env := ⟨true, false, false, true, fun _ => true, 100, "u9".toList⟩
def sampleLosing : Env := ⟨true, true, false, true, fun _ => true, 100, "u9".toList⟩

/-- **C28** What a leader that owns the key logs for every writing request with a name: the operation, the kind of
record, the name and the number that the client gave, and its data with the times and ids of the service.  A version with
a negative number stands for all versions of the object; 0 is an ordinary number. -/
theorem C28_leader_logs_each (e : Env) (hen : e.enabled = true) (h1 : e.leadGuard = true)
    (h2 : e.leadApply = true) (hn : e.normal = true) (n : Str) (hn' : n ≠ []) (ho : e.owns n = true) :
    (∀ d, serve e (.httpPostMeta n d) =
      .logged ⟨1, 4, n, 0, none, some { d with createTime := e.now, updateTime := e.now }, none⟩) ∧
    (∀ d, serve e (.grpcSaveMetadata n d) = serve e (.httpPostMeta n d)) ∧
    (∀ d, serve e (.httpPutMeta n d) = .logged ⟨4, 4, n, 0, none, some { d with updateTime := e.now }, none⟩) ∧
    serve e (.httpDeleteMeta n) = .logged ⟨2, 4, n, 0, none, none, none⟩ ∧
    (∀ d, serve e (.httpPostVersion n d) =
      .logged ⟨1, 1, n, 0, some { d with sequence := 0, uniqueId := e.uid, ts := e.now }, none, none⟩) ∧
    (∀ (v : Nat) d, v < 2 ^ 63 → serve e (.httpPutVersion n v d) =
      .logged ⟨4, 1, n, v, some { d with sequence := v, ts := e.now }, none, none⟩) ∧
    (∀ (v : Nat) d, 0 < v → serve e (.grpcUpdateVersion n v d) = serve e (.httpPutVersion n v d)) ∧
    (∀ v : Nat, serve e (.httpDeleteVersion n v) = .logged ⟨2, 1, n, v, none, none, none⟩) ∧
    (∀ v : Int, v < 0 → serve e (.httpDeleteVersion n v) = .logged ⟨2, 2, n, 2 ^ 64 - 1, none, none, none⟩) ∧
    (∀ v : Nat, 0 < v → serve e (.grpcRemoveVersion n v) = serve e (.httpDeleteVersion n v)) ∧
    (∀ v : Int, v ≤ 0 → serve e (.grpcRemoveVersion n v) = .refused) ∧
    (∀ v : Int, ∀ d, v ≤ 0 → serve e (.grpcUpdateVersion n v d) = .refused) ∧
    (∀ d, serve e (.httpPutBucket n d) =
      .logged ⟨4, 8, n, 0, none, none, some { d with name := n, updateTime := e.now }⟩) ∧
    serve e (.httpDeleteBucket n) = .logged ⟨2, 8, n, 0, none, none, none⟩ ∧
    (∀ d, serve e (.grpcSaveBucket n d) =
      .logged ⟨1, 8, n, 0, none, none, some { d with name := n, createTime := e.now, updateTime := e.now }⟩) ∧
    (∀ d, serve e (.httpPostBucket { d with name := n }) = serve e (.grpcSaveBucket n d)) ∧
    (∀ d, serve e (.grpcReceiveVersion n d) = .logged ⟨8, 1, n, 0, some d, none, none⟩) ∧
    (∀ d, serve e (.grpcReceiveMetadata n d) = serve e (.httpPostMeta n d)) := by
  have hu : ∀ v : Nat, v < 2 ^ 63 → toU64 (v : Int) = v := by intro v hv; unfold toU64; omega
  have hr : ∀ v : Int, v < 0 → removeVersionOp n v = .removeAllVersion n := by
    intro v hv; simp [removeVersionOp, hv]
  have hr' : ∀ v : Nat, removeVersionOp n v = .removeVer n v := by
    intro v
    have : ¬ (v : Int) < 0 := by omega
    simp [removeVersionOp, this]
  refine ⟨?_, ?_, ?_, ?_, ?_, ?_, ?_, ?_, ?_, ?_, ?_, ?_, ?_, ?_, ?_, ?_, ?_, ?_⟩
  case refine_6 =>
    intro v d hv
    simp [serve, httpWrite, submit, opCmd, hen, h1, h2, hn, ho, hu v hv]
  case refine_7 =>
    intro v d hv
    have : ¬ v = 0 := by omega
    simp [serve, grpcKey, httpWrite, hen, h1, hn, ho, hn', this]
  case refine_9 =>
    intro v hv
    simp [serve, httpWrite, submit, opCmd, hen, h1, h2, hn, ho, hr v hv]
  case refine_10 =>
    intro v hv
    have : ¬ v = 0 := by omega
    simp [serve, grpcKey, grpcWrite, httpWrite, hen, h1, hn, ho, hn', this]
  case refine_11 => intro v hv; simp [serve, grpcKey, grpcWrite, hen, h1, hn, hv]
  case refine_12 => intro v d hv; simp [serve, grpcKey, hv]
  all_goals
    simp [serve, grpcKey, grpcWrite, httpWrite, submit, opCmd, hen, h1, h2, hn, hn', ho, hr']

/-- **C28 fails** as stated: a follower carries out gRPC `UpdateVersion` on its own store. -/
theorem C28_statement_fails : ¬ OnlyThroughLog := by
  intro h
  have := h sampleFollower
    (.grpcUpdateVersion "b/a".toList 1 (sampleVer "h2".toList "u".toList 1))
    (run .empty [.addMeta "b/a".toList (sampleMeta 1),
      .addVer "b/a".toList (sampleVer "h".toList "u".toList 1)]).2
    ⟨_, rfl⟩ rfl
  revert this
  decide

/-- The other ways: relocating shards on the leader, a search by hash on a follower whose index
has an entry of a removed version, a write whose leadership is lost in between. -/
theorem C28_relocation_bypasses_log :
    let s := (run .empty [.addMeta "b/a".toList (sampleMeta 1),
      .addVer "b/a".toList (sampleVer "h".toList "u".toList 1)]).2
    (serve sampleLeader (.httpPatchLocate "h".toList 0 "new".toList)).local s ≠ s := by decide

theorem C28_search_bypasses_log :
    let s := (run .empty [.addMeta "b/a".toList (sampleMeta 1),
      .addVer "b/a".toList (sampleVer "h".toList "u".toList 1), .removeMeta "b/a".toList]).2
    (serve sampleFollower (.httpListByHash "h".toList)).local s ≠ s := by decide

theorem C28_lost_leadership_bypasses_log :
    (serve sampleLosing (.httpPostMeta "b/a".toList (sampleMeta 1))).local .empty ≠ .empty := by decide

/-- The hypotheses of the partial theorems are met by an ordinary leader and follower. -/
example : serve sampleLeader (.httpDeleteMeta "b/a".toList) =
      .logged ⟨2, 4, "b/a".toList, 0, none, none, none⟩ ∧
    serve sampleFollower (.httpDeleteMeta "b/a".toList) = .refused := by decide

/-! ## C61 -/

/-- **C61** A request that names a key which this server does not own is refused: it is neither
logged nor carried out.  (For every server state: role, migration state, owned slots.) -/
theorem C61_foreign_key_refused (e : Env) (r : Req) (n : Str) (hk : r.key = some n) (hn : n ≠ [])
    (ho : e.owns n = false) : serve e r = .refused := by
  have hw : ∀ (o : Outcome), httpWrite e n o = .refused := by
    intro o; simp [httpWrite, ho, hn]
  have hg : ∀ (o : Outcome), grpcKey e n o = .refused := by
    intro o; simp [grpcKey, ho, hn]
  cases r <;> simp only [Req.key, Option.some.injEq, reduceCtorEq] at hk <;>
    first
    | (subst hk; simp only [serve, hw, hg])
    | skip
  simp [httpWrite, ho, hn]

/-- **C61, partial** (missing: gRPC `UpdateVersion`) During a migration the server accepts no guarded write except migrated items. -/
theorem C61_migration_refuses_partial (e : Env) (hn : e.normal = false) (r : Req) (n : Str)
    (hk : r.key = some n) (hu : r.unguarded = false) : serve e r = .refused := by
  have hw : ∀ (n : Str) (o : Outcome), httpWrite e n o = .refused := by
    intro n o; simp [httpWrite, hn]
  have hg : ∀ (o : Outcome), grpcWrite e false o = .refused := by
    intro o; simp [grpcWrite, hn]
  have hkk : ∀ (n : Str), grpcKey e n .refused = .refused := by intro n; simp [grpcKey]
  cases r <;> simp_all [Req.key, Req.unguarded, serve]

/-- gRPC `UpdateVersion` also gets through during a migration. -/
theorem C61_migration_statement_fails :
    serve { sampleLeader with normal := false }
      (.grpcUpdateVersion "b/a".toList 1 (sampleVer "h".toList "u".toList 1)) ≠ .refused := by decide

/-- A server that owns only keys starting with 'x'. -/
example :
    let e : Env := { sampleLeader with owns := fun k => k.head? == some 'x' }
    serve e (.httpDeleteMeta "b/a".toList) = .refused ∧
    serve e (.httpDeleteMeta "xa".toList) ≠ .refused := by decide

end Verif.Meta
