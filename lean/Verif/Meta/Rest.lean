import Verif.Meta.Guard
import Verif.Meta.Listing
import Verif.Api.Errors
import Verif.Api.Bind
import Verif.Util.Range

/-!
# The REST interface of a metadata server (C103)

From the request to the status, the body and the store: the routes and handlers of
src/metaserver/internal/controller/http/metadata_rest.go, version_rest.go and bucket_rest.go behind the middlewares of
http/middleware.go.

Simplified: JSON is read by the library; a body is what has been filled in and whether an error is reported.  A query is a
function from names to the first value.  The lists of objects are sorted by an unstable sort, here any function `ord`.
A logged operation is applied at once.
-/

namespace Verif.Meta.Rest
open Verif Verif.Meta Verif.Api.Errors

/-! ## Requests and answers -/

/-- A JSON body after `ShouldBindJSON`: the fields, and whether it is malformed or has fields of wrong types. -/
structure Body (α : Type) where
  val : α
  bad : Bool

/-- The query of a request. -/
abbrev Query := Str → Option Str

/-- The routes; metadata_rest.go:22-28, version_rest.go:20-28, bucket_rest.go:20-28. -/
inductive Req
  | postMeta (n : Str) (b : Body Metadata)
  | putMeta (n : Str) (b : Body Metadata)
  | deleteMeta (n : Str)
  | getMeta (n : Str) (q : Query)              -- also /metadata/list
  | postVersion (n : Str) (b : Body Version)
  | putVersion (n : Str) (q : Query) (b : Body Version)
  | deleteVersion (n : Str) (q : Query)
  | getVersion (n : Str) (q : Query)
  | listVersions (n : Str) (q : Query)
  | byHash (q : Query)
  | postBucket (b : Body Bucket)
  | putBucket (n : Str) (b : Body Bucket)
  | deleteBucket (n : Str)
  | getBucket (n : Str) (q : Query)            -- also /bucket/list

/-- What is sent besides the status. -/
inductive Out
  | empty
  | failure                                                             -- `FailureResp`
  | number (q : Nat)                                                    -- the header `Version`
  | object (m : Metadata) (extra : Option Extra) (v : Option Version)
  | version (v : Version)
  | versions (l : List Version) (total : Option Nat)
  | objects (l : List Metadata) (total : Nat)
  | bucket (b : Bucket)
  | buckets (l : List Bucket) (total : Nat)
deriving DecidableEq

structure Ans where
  status : Nat
  out : Out
deriving DecidableEq

/-! ## Handlers -/

def sList : Str := "list".toList
def qVersion : Str := "version".toList
def qExtra : Str := "with_extra".toList
def qPrefix : Str := "prefix".toList
def qSize : Str := "page_size".toList
def qPage : Str := "page".toList
def qHash : Str := "hash".toList

/-- `response.FailErr`. -/
def fail (e : GoErr) : Ans := ⟨failErr e, .failure⟩

/-- `ShouldBindQuery` for a field of type `int`: zero if it is absent or empty; none is the error of `strconv`. -/
def queryInt (v : Option Str) : Option Int :=
  match v with
  | none => some 0
  | some s => if s = [] then some 0 else Api.Bind.parseInt 64 s

/-- `ShouldBindQuery` for a field of type `bool`. -/
def queryBool (v : Option Str) : Option Bool :=
  match v with
  | none => some false
  | some s => if s = [] then some false else Api.Bind.parseBool s

/-- The tags of `msg.Metadata`, common/proto/msg/metadata.go:16-22. -/
def metaRules (m : Metadata) : Bool := m.name ≠ [] && m.bucket ≠ []

/-- The tags of `msg.Version`, common/proto/msg/metadata.go:28-40. -/
def versionRules (v : Version) : Bool :=
  v.storeStrategy ≠ 0 && v.dataShards ≠ 0 && v.shardSize ≠ 0 && v.size ≠ 0 && v.hash ≠ [] && v.locate ≠ []

/-- `ShouldBindJSON`: the error, if any. -/
def bindErr {α : Type} (rules : α → Bool) (b : Body α) : Option GoErr :=
  if b.bad then some (.plain []) else if rules b.val then none else some (.validation [])

/-- `CheckInNormal`, `CheckLeaderInRaftMode`, `CheckKeySlot` for a method that writes; http/middleware.go:18-55, in the order
of http.go:24-27. -/
def gate (e : Env) (n : Str) : Option Nat :=
  if !e.normal then some 409
  else if e.enabled && !(e.leadGuard && e.enabled) then some 503
  else if n ≠ [] ∧ e.owns n = false then some 400
  else none

/-- The services: `ApplyRaft`, and the repository if it has not taken the operation (raftimpl/raft_apply.go:19-41,
service/metadata_service.go, bucket_service.go).  An operation of the log is one of `Verif.Meta.Fsm`; `panic` stands for the
end of the process, which does not come about here. -/
def exec (e : Env) (s : Store) (op : Op) : Res × Store :=
  match submit e op with
  | .logged c => match dispatch true c s with
    | some (.resp none (some q), s') => (.seq q, s')
    | some (.resp none none, s') => (.ok, s')
    | some (.resp (some er) _, s') => (.err er, s')
    | some (_, s') => (.err .unknownLog, s')
    | none => (.panic, s)
  | .direct op => step s op
  | _ => (.panic, s)

/-- The end of a handler that writes: an error, or success with its status.  A panic is answered with 500 by gin. -/
def answer (ok : Nat) (r : Res × Store) : Ans × Store :=
  match r with
  | (.ok, s) => (⟨ok, .empty⟩, s)
  | (.seq q, s) => (⟨ok, .number q⟩, s)
  | (.versions l, s) => (⟨ok, .versions l none⟩, s)
  | (.err e, s) => (fail (ofMeta e), s)
  | (.panic, s) => (⟨500, .empty⟩, s)

/-- A request that writes passes the middlewares first. -/
def guarded (e : Env) (s : Store) (n : Str) (k : Ans × Store) : Ans × Store :=
  match gate e n with
  | some c => (⟨c, .failure⟩, s)
  | none => k

/-- An answer that only reads. -/
def read {α : Type} (s : Store) (f : α → Out) : Except Err α → Ans × Store
  | .ok a => (⟨200, f a⟩, s)
  | .error e => (fail (ofMeta e), s)

/-- `MetadataController.Get`; metadata_rest.go:53-76, with `GetMetadata`, service/metadata_service.go:138-160. -/
def getObject (s : Store) (n : Str) (q : Query) : Ans :=
  match queryInt (q qVersion), queryBool (q qExtra) with
  | some ver, some wx =>
    match getMeta s n with
    | .error e => fail (ofMeta e)
    | .ok m =>
      match (if wx then (getExtra s n).map some else .ok none) with
      | .error e => fail (ofMeta e)
      | .ok x =>
        if ver = -1 then ⟨200, .object m x none⟩
        else match Meta.getVersion s n ver with
          | .ok v => ⟨200, .object m x (some v)⟩
          | .error .notFound => ⟨200, .object m x none⟩
          | .error e => fail (ofMeta e)
  | _, _ => fail (.plain [])

/-- The field `PageSize` of both lists: `binding:"required,lte=10000"`.  Negative sizes pass. -/
def pageSize (q : Query) : Except GoErr Int :=
  match queryInt (q qSize) with
  | none => .error (.plain [])
  | some n => if n ≠ 0 ∧ n ≤ 10000 then .ok n else .error (.validation [])

/-- `MetadataController.List`; metadata_rest.go:87-124.  Simplified: the order asked for is in `ord`; an ill-formed `desc` is
left out.  A negative size passes the tags and yields no entries, but the total. -/
def listObjects (ord : List Metadata → List Metadata) (s : Store) (q : Query) : Ans :=
  match pageSize q with
  | .error e => fail e
  | .ok n => ⟨200, .objects (ord (listPrefix s.metas ((q qPrefix).getD []) n.toNat).1) (listPrefix s.metas ((q qPrefix).getD []) n.toNat).2⟩

/-- `BucketController.List`; bucket_rest.go:88-105. -/
def listAllBuckets (s : Store) (q : Query) : Ans :=
  match pageSize q with
  | .error e => fail e
  | .ok n => ⟨200, .buckets (Meta.listBuckets s ((q qPrefix).getD []) n.toNat).1 (Meta.listBuckets s ((q qPrefix).getD []) n.toNat).2⟩

/-- `VersionController.List`; version_rest.go:92-109.  Any error of the query is answered with 400. -/
def listVers (s : Store) (n : Str) (q : Query) : Ans :=
  match queryInt (q qPage), queryInt (q qSize) with
  | some p, some k =>
    if p ≠ 0 ∧ k ≠ 0 then (read s (fun r : List Version × Nat => .versions r.1 (some r.2)) (Meta.listVersions s n p k)).1
    else ⟨400, .failure⟩
  | _, _ => ⟨400, .failure⟩

/-- A request: what is answered, and the store afterwards. -/
def serve (ord : List Metadata → List Metadata) (e : Env) (s : Store) : Req → Ans × Store
  -- metadata_rest.go:30-41
  | .postMeta n b => guarded e s n <| match bindErr metaRules b with
    | some er => (fail er, s)
    | none => answer 201 (exec e s (.addMeta n { b.val with createTime := e.now, updateTime := e.now }))
  -- metadata_rest.go:43-51: the error of the body is dropped
  | .putMeta n b => guarded e s n <| answer 200 (exec e s (.updateMeta n { b.val with updateTime := e.now }))
  -- metadata_rest.go:78-85
  | .deleteMeta n => guarded e s n <| answer 204 (exec e s (.removeMeta n))
  -- the static route has priority over the parameter
  | .getMeta n q => if n = sList then (listObjects ord s q, s) else (getObject s n q, s)
  -- version_rest.go:30-43
  | .postVersion n b => guarded e s n <| match bindErr versionRules b with
    | some er => (fail er, s)
    | none => answer 201 (exec e s (.addVer n { b.val with sequence := 0, uniqueId := e.uid, ts := e.now }))
  -- version_rest.go:45-61
  | .putVersion n q b => guarded e s n <| match bindErr versionRules b with
    | some er => (fail er, s)
    | none => match q qVersion with
      | none => (⟨400, .failure⟩, s)
      | some t => answer 200 (exec e s (.updateVer n { b.val with ts := e.now, sequence := toU64 (Range.toInt64 t) }))
  -- version_rest.go:111-121
  | .deleteVersion n q => guarded e s n <| match q qVersion with
    | none => (⟨400, .failure⟩, s)
    | some t => answer 204 (exec e s (removeVersionOp n (Range.toInt64 t)))
  -- version_rest.go:63-74
  | .getVersion n q => match q qVersion with
    | none => (⟨400, .failure⟩, s)
    | some t => read s .version (Meta.getVersion s n (Range.toInt64 t))
  | .listVersions n q => (listVers s n q, s)
  -- version_rest.go:76-90
  | .byHash q => match q qHash with
    | none | some [] => (⟨400, .failure⟩, s)
    | some h => answer 200 (step s (.findByHash h))
  -- bucket_rest.go:40-62
  | .postBucket b => guarded e s [] <|
    if b.bad then (fail (.plain []), s)
    else if b.val.name = [] then (⟨400, .failure⟩, s)
    else if e.owns b.val.name = false then (⟨400, .failure⟩, s)
    else answer 201 (exec e s (.bucketCreate { b.val with createTime := e.now, updateTime := e.now }))
  -- bucket_rest.go:64-76
  | .putBucket n b => guarded e s n <|
    if b.bad then (fail (.plain []), s)
    else answer 200 (exec e s (.bucketUpdate { b.val with name := n, updateTime := e.now }))
  -- bucket_rest.go:78-86
  | .deleteBucket n => guarded e s n <| answer 204 (exec e s (.bucketDelete n))
  -- bucket_rest.go:30-38
  | .getBucket n q => if n = sList then (listAllBuckets s q, s) else read s .bucket (bucketGet s n)

/-! ## Specification -/

/-- A number that can be read. -/
def IsInt (t : Str) : Prop := (atoi t).isSome

/-- A version with everything that is required: a strategy, shards and their size, content and where it is. -/
def Complete (v : Version) : Prop :=
  v.storeStrategy ≠ 0 ∧ v.dataShards ≠ 0 ∧ v.shardSize ≠ 0 ∧ v.size ≠ 0 ∧ v.hash ≠ [] ∧ v.locate ≠ []

/-- Requests that are what they should be: the body can be read and has what is required, numbers are numbers. -/
def WellFormed : Req → Prop
  | .postMeta _ b | .putMeta _ b => b.bad = false ∧ b.val.name ≠ [] ∧ b.val.bucket ≠ []
  | .postVersion _ b => b.bad = false ∧ Complete b.val
  | .putVersion _ q b => b.bad = false ∧ Complete b.val ∧ ∃ t, q qVersion = some t ∧ IsInt t
  | .deleteVersion _ q | .getVersion _ q => ∃ t, q qVersion = some t ∧ IsInt t
  | .postBucket b => b.bad = false ∧ b.val.name ≠ []
  | .putBucket _ b => b.bad = false
  | .deleteMeta _ | .deleteBucket _ | .getMeta _ _ | .listVersions _ _ | .byHash _ | .getBucket _ _ => True

/-- **C103** in full, first part: a request that is not well formed is refused and changes nothing. -/
def C103_statement : Prop :=
  ∀ (ord : List Metadata → List Metadata) (e : Env) (s : Store) (r : Req), Reachable s → ¬ WellFormed r →
    400 ≤ (serve ord e s r).1.status ∧ (serve ord e s r).2 = s

/-- The operation a request that writes stands for, the key it is about, and the status of its success. -/
def meant (e : Env) : Req → Option (Op × Str × Nat)
  | .postMeta n b => some (.addMeta n ⟨b.val.name, b.val.bucket, e.now, e.now⟩, n, 201)
  | .putMeta n b => some (.updateMeta n ⟨b.val.name, b.val.bucket, b.val.createTime, e.now⟩, n, 200)
  | .deleteMeta n => some (.removeMeta n, n, 204)
  | .postVersion n b => some (.addVer n { b.val with sequence := 0, uniqueId := e.uid, ts := e.now }, n, 201)
  | .putVersion n q b => (q qVersion).map fun t =>
      (.updateVer n { b.val with sequence := toU64 (Range.toInt64 t), ts := e.now }, n, 200)
  | .deleteVersion n q => (q qVersion).map fun t =>
      (if Range.toInt64 t < 0 then .removeAllVersion n else .removeVer n (Range.toInt64 t).toNat, n, 204)
  | .postBucket b => some (.bucketCreate { b.val with createTime := e.now, updateTime := e.now }, b.val.name, 201)
  | .putBucket n b => some (.bucketUpdate { b.val with name := n, updateTime := e.now }, n, 200)
  | .deleteBucket n => some (.bucketDelete n, n, 204)
  | _ => none

/-! ## Proofs -/

theorem exec_single {e : Env} (h : e.enabled = false) (s : Store) (op : Op) : exec e s op = step s op := by
  unfold exec submit
  simp [h]

/-- In both modes an error changes nothing. -/
theorem exec_err {e : Env} {s s' : Store} {op : Op} {r : Res} (hid : op.hasIds) (h : exec e s op = (r, s'))
    (hr : (∃ er, r = .err er) ∨ r = .panic) : s' = s := by
  unfold exec submit at h
  by_cases hm : (e.leadApply && e.enabled) = true
  · rw [if_pos hm] at h
    cases hc : opCmd op with
    | none =>
      rw [hc] at h
      exact C24_error_changes_nothing h hr
    | some c =>
      rw [hc] at h
      obtain ⟨data, hd, _⟩ := C27_log_refines_store s op c hc hid
      simp only [hd] at h
      cases hs : step s op with
      | mk r0 s0 =>
        rw [hs] at h
        cases hce : r0.clusterErr with
        | none =>
          simp only [hce] at h
          cases data <;> simp only [Prod.mk.injEq] at h <;> obtain ⟨h1, -⟩ := h <;> subst h1 <;>
            rcases hr with ⟨er, hr⟩ | hr <;> cases hr
        | some er =>
          simp only [hce, Prod.mk.injEq] at h
          obtain ⟨-, rfl⟩ := h
          refine C24_error_changes_nothing hs (Or.inl ?_)
          cases r0 <;> simp only [Res.clusterErr] at hce <;> first | exact ⟨_, rfl⟩ | cases hce
  · rw [if_neg hm] at h
    exact C24_error_changes_nothing h hr

theorem answer_status {ok : Nat} {r : Res × Store} (h : 300 ≤ (answer ok r).1.status) (hok : ok < 300) :
    (∃ er, r.1 = .err er) ∨ r.1 = .panic := by
  obtain ⟨r, s⟩ := r
  cases r <;> simp only [answer] at h ⊢ <;> first | omega | simp

theorem rules_iff (v : Version) : versionRules v = true ↔ Complete v := by
  simp [versionRules, Complete, and_assoc]

theorem answer_store (ok : Nat) (r : Res × Store) : (answer ok r).2 = r.2 := by
  obtain ⟨r, s⟩ := r
  cases r <;> rfl

theorem answer_exec {e : Env} {s : Store} {op : Op} {ok : Nat} (hid : op.hasIds) (hok : ok < 300)
    (h : 300 ≤ (answer ok (exec e s op)).1.status) : (answer ok (exec e s op)).2 = s := by
  rw [answer_store]
  exact exec_err hid rfl (answer_status h hok)

theorem guarded_store {e : Env} {s : Store} {n : Str} {k : Ans × Store}
    (hk : 300 ≤ k.1.status → k.2 = s) (h : 300 ≤ (guarded e s n k).1.status) : (guarded e s n k).2 = s := by
  unfold guarded at *
  split at h
  · rfl
  · exact hk h

theorem read_store {α : Type} (s : Store) (f : α → Out) (x : Except Err α) : (read s f x).2 = s := by
  cases x <;> rfl

/-- **C103** Whatever is not answered with success has changed nothing, on a single server and on the leader of a group. -/
theorem C103_refused_unchanged (ord : List Metadata → List Metadata) (e : Env) (hu : e.uid ≠ []) (s : Store) (r : Req)
    (h : 300 ≤ (serve ord e s r).1.status) : (serve ord e s r).2 = s := by
  cases r with
  | postMeta n b =>
    refine guarded_store ?_ h
    cases bindErr metaRules b with
    | some er => exact fun _ => rfl
    | none => exact answer_exec trivial (by omega)
  | putMeta n b => exact guarded_store (answer_exec trivial (by omega)) h
  | deleteMeta n => exact guarded_store (answer_exec trivial (by omega)) h
  | getMeta n q => simp only [serve]; split <;> rfl
  | postVersion n b =>
    refine guarded_store ?_ h
    cases hb : bindErr versionRules b with
    | some er => exact fun _ => rfl
    | none =>
      refine answer_exec ?_ (by omega)
      have : versionRules b.val = true := by
        unfold bindErr at hb
        split at hb
        · cases hb
        · split at hb
          · assumption
          · cases hb
      simp only [versionRules, Bool.and_eq_true, decide_eq_true_eq] at this
      exact ⟨this.1.2, hu⟩
  | putVersion n q b =>
    refine guarded_store ?_ h
    cases bindErr versionRules b with
    | some er => exact fun _ => rfl
    | none =>
      cases q qVersion with
      | none => exact fun _ => rfl
      | some t => exact answer_exec trivial (by omega)
  | deleteVersion n q =>
    refine guarded_store ?_ h
    cases q qVersion with
    | none => exact fun _ => rfl
    | some t =>
      refine answer_exec ?_ (by omega)
      unfold removeVersionOp; split <;> trivial
  | getVersion n q =>
    simp only [serve]
    cases q qVersion with
    | none => rfl
    | some t => exact read_store _ _ _
  | listVersions n q => rfl
  | byHash q =>
    simp only [serve] at h ⊢
    split at h
    · rfl
    · rfl
    · rename_i hh _ _
      rw [answer_store]
      exact C24_error_changes_nothing (op := .findByHash hh) (r := (step s (.findByHash hh)).1) rfl (answer_status h (by omega))
  | postBucket b =>
    refine guarded_store ?_ h
    split
    · exact fun _ => rfl
    · split
      · exact fun _ => rfl
      · split
        · exact fun _ => rfl
        · exact answer_exec trivial (by omega)
  | putBucket n b =>
    refine guarded_store ?_ h
    split
    · exact fun _ => rfl
    · exact answer_exec trivial (by omega)
  | deleteBucket n => exact guarded_store (answer_exec trivial (by omega)) h
  | getBucket n q =>
    simp only [serve]
    split
    · rfl
    · exact read_store _ _ _

/-- **C103** A well formed request that writes and passes the middlewares does what it stands for: the operation is carried
out, with its status of success or the error it reports. -/
theorem C103_carried_out (ord : List Metadata → List Metadata) (e : Env) (s : Store) (r : Req) (op : Op) (n : Str) (ok : Nat)
    (hw : WellFormed r) (hm : meant e r = some (op, n, ok)) (hg : gate e n = none) :
    serve ord e s r = answer ok (exec e s op) := by
  have hgo : ∀ m, gate e m = none → ∀ k, guarded e s m k = k := fun m h k => by unfold guarded; rw [h]
  cases r with
  | postMeta m b =>
    simp only [meant, Option.some.injEq, Prod.mk.injEq] at hm
    obtain ⟨rfl, rfl, rfl⟩ := hm
    obtain ⟨h1, h2, h3⟩ := hw
    have h4 : metaRules b.val = true := by simp [metaRules, h2, h3]
    simp [serve, hgo _ hg, bindErr, h1, h4]
  | putMeta m b =>
    simp only [meant, Option.some.injEq, Prod.mk.injEq] at hm
    obtain ⟨rfl, rfl, rfl⟩ := hm
    simp [serve, hgo _ hg]
  | deleteMeta m =>
    simp only [meant, Option.some.injEq, Prod.mk.injEq] at hm
    obtain ⟨rfl, rfl, rfl⟩ := hm
    simp [serve, hgo _ hg]
  | postVersion m b =>
    simp only [meant, Option.some.injEq, Prod.mk.injEq] at hm
    obtain ⟨rfl, rfl, rfl⟩ := hm
    simp [serve, hgo _ hg, bindErr, hw.1, (rules_iff _).2 hw.2]
  | putVersion m q b =>
    obtain ⟨h1, h2, t, h3, -⟩ := hw
    simp only [meant, h3, Option.map_some, Option.some.injEq, Prod.mk.injEq] at hm
    obtain ⟨rfl, rfl, rfl⟩ := hm
    simp [serve, hgo _ hg, bindErr, h1, (rules_iff _).2 h2, h3]
  | deleteVersion m q =>
    obtain ⟨t, h3, -⟩ := hw
    simp only [meant, h3, Option.map_some, Option.some.injEq, Prod.mk.injEq] at hm
    obtain ⟨rfl, rfl, rfl⟩ := hm
    simp [serve, hgo _ hg, h3, removeVersionOp]
  | postBucket b =>
    simp only [meant, Option.some.injEq, Prod.mk.injEq] at hm
    obtain ⟨rfl, rfl, rfl⟩ := hm
    have hg' : gate e [] = none := by
      unfold gate at *
      grind
    have ho : e.owns b.val.name = true := by
      unfold gate at hg
      have : b.val.name ≠ [] := hw.2
      cases h : e.owns b.val.name with
      | true => rfl
      | false =>
        rw [if_pos (show b.val.name ≠ [] ∧ e.owns b.val.name = false from ⟨this, h⟩)] at hg
        split at hg
        · cases hg
        · split at hg <;> cases hg
    simp [serve, hgo _ hg', hw.1, hw.2, ho]
  | putBucket m b =>
    simp only [meant, Option.some.injEq, Prod.mk.injEq] at hm
    obtain ⟨rfl, rfl, rfl⟩ := hm
    have : b.bad = false := hw
    simp [serve, hgo _ hg, this]
  | deleteBucket m =>
    simp only [meant, Option.some.injEq, Prod.mk.injEq] at hm
    obtain ⟨rfl, rfl, rfl⟩ := hm
    simp [serve, hgo _ hg]
  | _ => simp [meant] at hm

/-- **C103** On a single server it is carried out at once. -/
theorem C103_done (ord : List Metadata → List Metadata) (e : Env) (s : Store) (r : Req) (op : Op) (n : Str) (ok : Nat)
    (hw : WellFormed r) (hm : meant e r = some (op, n, ok)) (hg : gate e n = none) (he : e.enabled = false) :
    serve ord e s r = answer ok (step s op) := by
  rw [C103_carried_out ord e s r op n ok hw hm hg, exec_single he]

/-- **C103** On the leader of a group the store is changed in the same way and the same errors are reported, except one: what
exists already is reported as created. -/
theorem C103_leader (ord : List Metadata → List Metadata) (e : Env) (s : Store) (r : Req) (op : Op) (n : Str) (ok : Nat)
    (hw : WellFormed r) (hm : meant e r = some (op, n, ok)) (hg : gate e n = none) (he : e.enabled = true)
    (hl : e.leadApply = true) (hu : e.uid ≠ []) :
    (serve ord e s r).2 = (step s op).2 ∧
      (∀ er, (step s op).1 = .err er → er ≠ .exists → (serve ord e s r).1 = ⟨failErr (ofMeta er), .failure⟩) ∧
      ((step s op).1 = .err .exists → (serve ord e s r).1.status = ok) ∧
      (∀ q, (step s op).1 = .seq q → (serve ord e s r).1 = ⟨ok, .number q⟩) ∧
      ((step s op).1 = .ok → (serve ord e s r).1.status = ok) := by
  have hid : op.hasIds := by
    cases r with
    | postVersion m b =>
      simp only [meant, Option.some.injEq, Prod.mk.injEq] at hm
      obtain ⟨rfl, -⟩ := hm
      exact ⟨hw.2.2.2.2.2.1, hu⟩
    | deleteVersion m q =>
      obtain ⟨t, h3, -⟩ := hw
      simp only [meant, h3, Option.map_some, Option.some.injEq, Prod.mk.injEq] at hm
      obtain ⟨rfl, -⟩ := hm
      split <;> trivial
    | putVersion m q b =>
      obtain ⟨-, -, t, h3, -⟩ := hw
      simp only [meant, h3, Option.map_some, Option.some.injEq, Prod.mk.injEq] at hm
      obtain ⟨rfl, -⟩ := hm
      trivial
    | postMeta m b | putMeta m b | deleteMeta m | putBucket m b | deleteBucket m | postBucket b =>
      simp only [meant, Option.some.injEq, Prod.mk.injEq] at hm
      obtain ⟨rfl, -⟩ := hm
      trivial
    | _ => simp [meant] at hm
  have hc : ∃ c, opCmd op = some c := by
    cases r with
    | deleteVersion m q =>
      obtain ⟨t, h3, -⟩ := hw
      simp only [meant, h3, Option.map_some, Option.some.injEq, Prod.mk.injEq] at hm
      obtain ⟨rfl, -⟩ := hm
      split <;> exact ⟨_, rfl⟩
    | putVersion m q b =>
      obtain ⟨-, -, t, h3, -⟩ := hw
      simp only [meant, h3, Option.map_some, Option.some.injEq, Prod.mk.injEq] at hm
      obtain ⟨rfl, -⟩ := hm
      exact ⟨_, rfl⟩
    | postMeta m b | putMeta m b | deleteMeta m | putBucket m b | deleteBucket m | postBucket b | postVersion m b =>
      simp only [meant, Option.some.injEq, Prod.mk.injEq] at hm
      obtain ⟨rfl, -⟩ := hm
      exact ⟨_, rfl⟩
    | _ => simp [meant] at hm
  obtain ⟨c, hc⟩ := hc
  obtain ⟨data, hd, hq⟩ := C27_log_refines_store s op c hc hid
  rw [C103_carried_out ord e s r op n ok hw hm hg]
  have hx : exec e s op = match dispatch true c s with
    | some (.resp none (some q), s') => (.seq q, s')
    | some (.resp none none, s') => (.ok, s')
    | some (.resp (some er) _, s') => (.err er, s')
    | some (_, s') => (.err .unknownLog, s')
    | none => (.panic, s) := by
    unfold exec submit
    rw [he, hl, hc]
    rfl
  rw [hx, hd]
  cases hs : step s op with
  | mk r0 s0 =>
    rw [hs] at hq
    cases r0 with
    | err er => cases er <;> cases data <;> simp [Res.clusterErr, answer, fail]
    | seq q =>
      rw [hq q rfl]
      simp [Res.clusterErr, answer]
    | ok => cases data <;> simp [Res.clusterErr, answer]
    | versions l => cases data <;> simp [Res.clusterErr, answer]
    | panic => cases data <;> simp [Res.clusterErr, answer]

/-- **C103** A request that writes is stopped by the middlewares: 409 during a migration, 503 at a server that is not the
leader, 400 for a key of another server; in this order, and nothing changes. -/
theorem C103_gate (ord : List Metadata → List Metadata) (e : Env) (s : Store) (r : Req) (op : Op) (n : Str) (ok c : Nat)
    (hm : meant e r = some (op, n, ok)) (hb : ∀ b, r ≠ .postBucket b) (hg : gate e n = some c) :
    serve ord e s r = (⟨c, .failure⟩, s) ∧
      (c = 409 ↔ e.normal = false) ∧ (c = 503 ↔ e.normal = true ∧ e.enabled = true ∧ e.leadGuard = false) ∧
      (c = 400 ↔ e.normal = true ∧ ¬ (e.enabled = true ∧ e.leadGuard = false)) := by
  have hgo : ∀ k, guarded e s n k = (⟨c, .failure⟩, s) := fun k => by unfold guarded; rw [hg]
  have hc : (c = 409 ↔ e.normal = false) ∧ (c = 503 ↔ e.normal = true ∧ e.enabled = true ∧ e.leadGuard = false) ∧
      (c = 400 ↔ e.normal = true ∧ ¬ (e.enabled = true ∧ e.leadGuard = false)) := by
    unfold gate at hg
    cases h1 : e.normal <;> cases h2 : e.enabled <;> cases h3 : e.leadGuard <;> simp [h1, h2, h3] at hg ⊢ <;> omega
  refine ⟨?_, hc⟩
  cases r with
  | postBucket b => exact absurd rfl (hb b)
  | putVersion m q b =>
    cases hq : q qVersion with
    | none => simp [meant, hq] at hm
    | some t =>
      simp only [meant, hq, Option.map_some, Option.some.injEq, Prod.mk.injEq] at hm
      obtain ⟨-, rfl, -⟩ := hm
      simp only [serve, hgo]
  | deleteVersion m q =>
    cases hq : q qVersion with
    | none => simp [meant, hq] at hm
    | some t =>
      simp only [meant, hq, Option.map_some, Option.some.injEq, Prod.mk.injEq] at hm
      obtain ⟨-, rfl, -⟩ := hm
      simp only [serve, hgo]
  | postMeta m b | putMeta m b | deleteMeta m | postVersion m b | putBucket m b | deleteBucket m =>
    simp only [meant, Option.some.injEq, Prod.mk.injEq] at hm
    obtain ⟨-, rfl, -⟩ := hm
    simp only [serve, hgo]
  | _ => simp [meant] at hm

/-- **C103** The decision of the middlewares is the one of `Verif.Meta.Guard`. -/
theorem C103_gate_guard (e : Env) (n : Str) (o : Outcome) (ho : o ≠ .refused) :
    httpWrite e n o = .refused ↔ (gate e n).isSome = true := by
  unfold httpWrite gate
  split
  · simp
  · split
    · simp
    · split <;> simp [ho]

/-! ### What has been written can be read -/

/-- A server on its own, outside of a migration, with the keys of all slots. -/
def Alone (e : Env) : Prop := e.enabled = false ∧ e.normal = true ∧ ∀ k, e.owns k = true

theorem gate_alone {e : Env} (h : Alone e) (n : Str) : gate e n = none := by
  obtain ⟨h1, h2, h3⟩ := h
  simp [gate, h1, h2, h3]

theorem answer_ok {ok : Nat} {r : Res × Store} {a : Ans} {s' : Store} (h : answer ok r = (a, s')) (ha : a.status < 300)
    (he : ∀ e, 300 ≤ failErr (ofMeta e)) : (∃ q, r.1 = .seq q ∧ a = ⟨ok, .number q⟩) ∨ (r.1 = .ok ∧ a = ⟨ok, .empty⟩) ∨
      ∃ l, r.1 = .versions l ∧ a = ⟨ok, .versions l none⟩ := by
  obtain ⟨r, s⟩ := r
  cases r <;> simp only [answer, Prod.mk.injEq] at h <;> obtain ⟨rfl, rfl⟩ := h
  · simp
  · simp
  · simp
  · rename_i e; have := he e; simp only [fail] at ha; omega
  · simp at ha

theorem err_status (e : Err) : 300 ≤ failErr (ofMeta e) := by cases e <;> decide

/-- No query. -/
def noQuery : Query := fun _ => none

/-- A query for one version. -/
def versionQuery (q : Nat) : Query := fun k => if k = qVersion then some (fmtNat q) else none

/-- **C103** An object that was created (201) is read with what was given and the time of its creation; to create it again is
refused with 400. -/
theorem C103_create_object (ord : List Metadata → List Metadata) (e e' : Env) (s s' : Store) (n : Str) (b : Body Metadata) (a : Ans)
    (hr : Reachable s) (he : Alone e) (he' : Alone e') (hn : n ≠ sList)
    (h : serve ord e s (.postMeta n b) = (a, s')) (ha : a.status < 300) :
    a.status = 201 ∧
    serve ord e' s' (.getMeta n noQuery) = (⟨200, .object ⟨b.val.name, b.val.bucket, e.now, e.now⟩ none none⟩, s') ∧
    (WellFormed (.postMeta n b) → serve ord e' s' (.postMeta n b) = (⟨400, .failure⟩, s')) := by
  simp only [serve, guarded, gate_alone he] at h
  cases hb : bindErr metaRules b with
  | some er =>
    rw [hb] at h
    simp only [Prod.mk.injEq] at h
    obtain ⟨rfl, -⟩ := h
    exfalso
    unfold bindErr at hb
    split at hb
    · cases hb; simp [fail, failErr] at ha
    · split at hb
      · cases hb
      · cases hb; simp [fail, failErr] at ha
  | none =>
    rw [hb, exec_single he.1] at h
    simp only [] at h
    have hst : s' = (step s (.addMeta n ⟨b.val.name, b.val.bucket, e.now, e.now⟩)).2 := by
      have := congrArg Prod.snd h
      rw [answer_store] at this
      exact this.symm
    have hok := answer_ok h ha err_status
    have hres : (step s (.addMeta n ⟨b.val.name, b.val.bucket, e.now, e.now⟩)).1 = .ok ∧ a = ⟨201, .empty⟩ := by
      have hu : ∀ r : Except Err Unit, (∀ q, Res.ofUnit r ≠ .seq q) ∧ (∀ l, Res.ofUnit r ≠ .versions l) := by
        intro r; cases r <;> simp [Res.ofUnit]
      rcases hok with ⟨q, h1, -⟩ | h1 | ⟨l, h1, -⟩
      · exact absurd h1 ((hu _).1 q)
      · exact h1
      · exact absurd h1 ((hu _).2 l)
    cases hm : getMeta s n with
    | ok m0 =>
      exfalso
      have := C15_create_refused hm ⟨b.val.name, b.val.bucket, e.now, e.now⟩
      rw [this] at hres
      simp at hres
    | error er =>
      have hnf : getMeta s n = .error .notFound := by
        unfold getMeta at hm ⊢
        split at hm
        · cases hm
        · rename_i hg; simp [hg]
      have hname : n ≠ [] ∧ n.length ≤ 32768 := by
        constructor
        · intro h0
          obtain ⟨er, h1⟩ := C15_create_bad_name (s := s) (Or.inl h0) ⟨b.val.name, b.val.bucket, e.now, e.now⟩
          rw [h1] at hres; simp at hres
        · rcases Nat.lt_or_ge 32768 n.length with h0 | h0
          · obtain ⟨er, h1⟩ := C15_create_bad_name (s := s) (Or.inr h0) ⟨b.val.name, b.val.bucket, e.now, e.now⟩
            rw [h1] at hres; simp at hres
          · exact h0
      obtain ⟨t, h1, h2, -, h4, -⟩ := C15_create_fresh hr hnf hname.1 hname.2 ⟨b.val.name, b.val.bucket, e.now, e.now⟩
      rw [h1] at hst
      simp only [] at hst
      subst hst
      have hv : Meta.getVersion s n 0 = .error .notFound := by
        have hi := inv_reachable hr
        rw [getMeta_notFound_iff] at hnf
        have : s.vers.get n = none := by
          have := hi.dom n
          rw [hnf] at this
          simpa using this.symm
        simp [Meta.getVersion, getVer, this]
      refine ⟨by rw [hres.2], ?_, ?_⟩
      · simp only [serve, hn, if_false, getObject, noQuery, queryInt, queryBool, h2]
        simp [h4, hv]
      · intro hw
        simp only [serve, guarded, gate_alone he', hb]
        rw [exec_single he'.1, C15_create_refused h2]
        rfl

/-- **C103** A version that was added (201) is read under the number in the header of the answer, as it was given. -/
theorem C103_add_version (ord : List Metadata → List Metadata) (e e' : Env) (s s' : Store) (n : Str) (b : Body Version) (a : Ans)
    (he : Alone e) (h : serve ord e s (.postVersion n b) = (a, s')) (ha : a.status < 300) :
    ∃ q, a = ⟨201, .number q⟩ ∧ (q < 2 ^ 63 → 0 < q →
      serve ord e' s' (.getVersion n (versionQuery q)) =
        (⟨200, .version { b.val with sequence := q, uniqueId := e.uid, ts := e.now }⟩, s')) := by
  simp only [serve, guarded, gate_alone he] at h
  cases hb : bindErr versionRules b with
  | some er =>
    rw [hb] at h
    simp only [Prod.mk.injEq] at h
    obtain ⟨rfl, -⟩ := h
    exfalso
    unfold bindErr at hb
    split at hb
    · cases hb; simp [fail, failErr] at ha
    · split at hb
      · cases hb
      · cases hb; simp [fail, failErr] at ha
  | none =>
    rw [hb, exec_single he.1] at h
    simp only [] at h
    have hst : s' = (step s (.addVer n { b.val with sequence := 0, uniqueId := e.uid, ts := e.now })).2 := by
      have := congrArg Prod.snd h
      rw [answer_store] at this
      exact this.symm
    have hok := answer_ok h ha err_status
    have hseq : ∃ q, (step s (.addVer n { b.val with sequence := 0, uniqueId := e.uid, ts := e.now })).1 = .seq q ∧ a = ⟨201, .number q⟩ := by
      rcases hok with h1 | ⟨h1, -⟩ | ⟨l, h1, -⟩
      · exact h1
      · exfalso; simp only [step] at h1; split at h1 <;> cases h1
      · exfalso; simp only [step] at h1; split at h1 <;> cases h1
    obtain ⟨q, h1, h2⟩ := hseq
    refine ⟨q, h2, fun hq hpos => ?_⟩
    have hs : step s (.addVer n { b.val with sequence := 0, uniqueId := e.uid, ts := e.now }) = (.seq q, s') := by
      rw [hst, ← h1]
    have hg := (C16_added_readable hs).1
    simp only [serve, versionQuery, if_true]
    rw [Range.toInt64_fmtNat q hq]
    have hv : Meta.getVersion s' n (q : Int) = getVer s' n q := by
      unfold Meta.getVersion
      rw [if_neg (by omega)]
      simp
    rw [hv, hg]
    rfl

/-- **C103** An object that was deleted (always 204) is not found any more, nor is any version of it. -/
theorem C103_delete_object (ord : List Metadata → List Metadata) (e e' : Env) (s : Store) (n : Str) (hr : Reachable s) (he : Alone e)
    (hn : n ≠ sList) :
    ∃ s', serve ord e s (.deleteMeta n) = (⟨204, .empty⟩, s') ∧
      serve ord e' s' (.getMeta n noQuery) = (⟨404, .failure⟩, s') ∧
      ∀ q t, q qVersion = some t → serve ord e' s' (.getVersion n q) = (⟨404, .failure⟩, s') := by
  obtain ⟨s', h1, h2, h3, -⟩ := C20_delete hr n
  refine ⟨s', ?_, ?_, ?_⟩
  · simp only [serve, guarded, gate_alone he]
    rw [exec_single he.1, h1]
    rfl
  · simp only [serve, hn, if_false, getObject, noQuery, queryInt, queryBool, h2]
    rfl
  · intro q t hq
    simp only [serve, hq, h3]
    rfl

/-- **C103** Every version number that is not above zero, and every text that is no number, stands for the latest version. -/
theorem C103_latest (ord : List Metadata → List Metadata) (e : Env) (s : Store) (n : Str) (q : Query) (t : Str)
    (hq : q qVersion = some t) (ht : atoi t = none ∧ (∀ r, t ≠ '-' :: r) ∧ (∀ r, t ≠ '+' :: r) ∧ parseDigits t = none) :
    serve ord e s (.getVersion n q) = read s .version (Meta.getVersion s n 0) := by
  have h0 : Range.toInt64 t = 0 := by
    unfold Range.toInt64
    split
    · exact absurd rfl (ht.2.1 _)
    · exact absurd rfl (ht.2.2.1 _)
    · simp [ht.2.2.2]
      rfl
  simp only [serve, hq, h0]

/-- **C103** An object is found although the version asked for does not exist: the answer then has no version. -/
theorem C103_missing_version (ord : List Metadata → List Metadata) (e : Env) (s : Store) (n : Str) (m : Metadata) (q : Nat)
    (hn : n ≠ sList) (hm : getMeta s n = .ok m) (hq : 0 < q ∧ q < 2 ^ 63) (hv : getVer s n q = .error .notFound) :
    serve ord e s (.getMeta n (versionQuery q)) = (⟨200, .object m none none⟩, s) := by
  have h1 : queryInt (versionQuery q qVersion) = some (q : Int) := by
    simp only [versionQuery, if_true, queryInt]
    rw [if_neg (by
      intro h
      have := Range.toInt64_fmtNat q hq.2
      rw [h, Range.toInt64_nil] at this
      omega)]
    unfold Api.Bind.parseInt
    rw [atoi_fmtNat hq.2]
    have hp : ((2 : Int) ^ (64 - 1)) = 9223372036854775808 := rfl
    simp only [hp]
    rw [if_pos]
    constructor <;> omega
  have h2 : queryBool (versionQuery q qExtra) = some false := by
    have hne : qExtra ≠ qVersion := by decide
    rw [versionQuery, if_neg hne]
    rfl
  have h3 : Meta.getVersion s n (q : Int) = .error .notFound := by
    unfold Meta.getVersion
    rw [if_neg (by omega)]
    simpa using hv
  simp only [serve, hn, if_false, getObject, h1, h2, hm, h3]
  simp [show ¬ (q : Int) = -1 by omega]

/-- **C103** An object that is read with the number of one of its versions comes with that version, and with the first, the
last and the number of its versions if they are asked for. -/
theorem C103_get_version (ord : List Metadata → List Metadata) (e : Env) (s : Store) (n : Str) (m : Metadata) (v : Version) (k : Int)
    (q : Query) (wx : Bool) (x : Extra) (hn : n ≠ sList) (hm : getMeta s n = .ok m) (hk : queryInt (q qVersion) = some k)
    (hw : queryBool (q qExtra) = some wx) (hv : Meta.getVersion s n k = .ok v) (hx : getExtra s n = .ok x) :
    serve ord e s (.getMeta n q) =
      (⟨200, .object m (if wx then some x else none) (if k = -1 then none else some v)⟩, s) := by
  simp only [serve, hn, if_false, getObject, hk, hw, hm, hx, hv]
  cases wx <;> simp only [Bool.false_eq_true, if_true, if_false, Except.map] <;> split <;> rfl

/-- **C103** A page of objects: 400 without a size or with one above 10000, 500 if the size is no number; otherwise at most so
many objects with the prefix, in any order, and the number of all objects there are. -/
theorem C103_list (ord : List Metadata → List Metadata) (e : Env) (s : Store) (q : Query) :
    (queryInt (q qSize) = none → serve ord e s (.getMeta sList q) = (⟨500, .failure⟩, s)) ∧
    (∀ k, queryInt (q qSize) = some k → k = 0 ∨ 10000 < k → serve ord e s (.getMeta sList q) = (⟨400, .failure⟩, s)) ∧
    (∀ k, queryInt (q qSize) = some k → k ≠ 0 → k ≤ 10000 → serve ord e s (.getMeta sList q) =
      (⟨200, .objects (ord (listPrefix s.metas ((q qPrefix).getD []) k.toNat).1)
        (listPrefix s.metas ((q qPrefix).getD []) k.toNat).2⟩, s)) := by
  refine ⟨fun h => ?_, fun k h hk => ?_, fun k h h0 h1 => ?_⟩
  · simp only [serve, if_true, listObjects, pageSize, h]
    rfl
  · simp only [serve, if_true, listObjects, pageSize, h]
    rw [if_neg (by omega)]
    rfl
  · simp only [serve, if_true, listObjects, pageSize, h]
    rw [if_pos ⟨h0, h1⟩]

/-- **C103** The same for a page of buckets. -/
theorem C103_list_buckets (ord : List Metadata → List Metadata) (e : Env) (s : Store) (q : Query) :
    (queryInt (q qSize) = none → serve ord e s (.getBucket sList q) = (⟨500, .failure⟩, s)) ∧
    (∀ k, queryInt (q qSize) = some k → k = 0 ∨ 10000 < k → serve ord e s (.getBucket sList q) = (⟨400, .failure⟩, s)) ∧
    (∀ k, queryInt (q qSize) = some k → k ≠ 0 → k ≤ 10000 → serve ord e s (.getBucket sList q) =
      (⟨200, .buckets (Meta.listBuckets s ((q qPrefix).getD []) k.toNat).1
        (Meta.listBuckets s ((q qPrefix).getD []) k.toNat).2⟩, s)) := by
  refine ⟨fun h => ?_, fun k h hk => ?_, fun k h h0 h1 => ?_⟩
  · simp only [serve, if_true, listAllBuckets, pageSize, h]
    rfl
  · simp only [serve, if_true, listAllBuckets, pageSize, h]
    rw [if_neg (by omega)]
    rfl
  · simp only [serve, if_true, listAllBuckets, pageSize, h]
    rw [if_pos ⟨h0, h1⟩]

/-- **C103** A page of versions needs a page and a size; the versions of an object that does not exist are 404. -/
theorem C103_list_versions (ord : List Metadata → List Metadata) (e : Env) (s : Store) (n : Str) (q : Query) :
    ((∀ p k, queryInt (q qPage) = some p → queryInt (q qSize) = some k → p = 0 ∨ k = 0) →
      serve ord e s (.listVersions n q) = (⟨400, .failure⟩, s)) ∧
    (∀ p k, queryInt (q qPage) = some p → queryInt (q qSize) = some k → p ≠ 0 → k ≠ 0 →
      (∀ l t, Meta.listVersions s n p k = .ok (l, t) → serve ord e s (.listVersions n q) = (⟨200, .versions l (some t)⟩, s)) ∧
      (Meta.listVersions s n p k = .error .notFound → serve ord e s (.listVersions n q) = (⟨404, .failure⟩, s))) := by
  refine ⟨fun h => ?_, fun p k h1 h2 h3 h4 => ⟨fun l t h => ?_, fun h => ?_⟩⟩
  · simp only [serve, listVers]
    cases h1 : queryInt (q qPage) with
    | none => rfl
    | some p =>
      cases h2 : queryInt (q qSize) with
      | none => rfl
      | some k =>
        have := h p k h1 h2
        dsimp only
        rw [if_neg (by omega)]
  · simp only [serve, listVers, h1, h2, h]
    rw [if_pos ⟨h3, h4⟩]
    rfl
  · simp only [serve, listVers, h1, h2, h]
    rw [if_pos ⟨h3, h4⟩]
    rfl

/-- **C103** The versions with a hash; without one the request is refused. -/
theorem C103_by_hash (ord : List Metadata → List Metadata) (e : Env) (s : Store) (q : Query) :
    (q qHash = none ∨ q qHash = some [] → serve ord e s (.byHash q) = (⟨400, .failure⟩, s)) ∧
    (∀ h l s', q qHash = some h → h ≠ [] → step s (.findByHash h) = (.versions l, s') →
      serve ord e s (.byHash q) = (⟨200, .versions l none⟩, s')) := by
  refine ⟨?_, ?_⟩
  · rintro (h | h) <;> simp only [serve, h]
  · intro h l s' hq h0 hs
    simp only [serve, hq]
    cases h with
    | nil => exact absurd rfl h0
    | cons c t => simp only [hs, answer]

/-- **C103** A bucket that was created (201) is read with what was given — unless it is called "list". -/
theorem C103_create_bucket (ord : List Metadata → List Metadata) (e e' : Env) (s s' : Store) (b : Body Bucket) (a : Ans)
    (he : Alone e) (h : serve ord e s (.postBucket b) = (a, s')) (ha : a.status < 300) :
    a = ⟨201, .empty⟩ ∧ (b.val.name ≠ sList → ∀ q, serve ord e' s' (.getBucket b.val.name q) =
      (⟨200, .bucket { b.val with createTime := e.now, updateTime := e.now }⟩, s')) := by
  simp only [serve, guarded, gate_alone he] at h
  split at h
  · simp only [Prod.mk.injEq] at h; obtain ⟨rfl, -⟩ := h; simp [fail, failErr] at ha
  · split at h
    · simp only [Prod.mk.injEq] at h; obtain ⟨rfl, -⟩ := h; simp at ha
    · split at h
      · simp only [Prod.mk.injEq] at h; obtain ⟨rfl, -⟩ := h; simp at ha
      · rw [exec_single he.1] at h
        have hst : s' = (step s (.bucketCreate { b.val with createTime := e.now, updateTime := e.now })).2 := by
          have := congrArg Prod.snd h
          rw [answer_store] at this
          exact this.symm
        have hok := answer_ok h ha err_status
        simp only [step] at hok hst
        rcases update_cases (bucketCreate { b.val with createTime := e.now, updateTime := e.now }) s with ⟨er, hu, -⟩ | ⟨u, t, h1, hu⟩
        · rw [hu] at hok; simp [Res.ofUnit] at hok
        · rw [hu] at hok hst
          simp only [Res.ofUnit] at hok hst
          subst hst
          refine ⟨?_, ?_⟩
          · rcases hok with ⟨q, h2, -⟩ | ⟨-, h2⟩ | ⟨l, h2, -⟩
            · cases h2
            · exact h2
            · cases h2
          · intro hl q
            simp only [serve, hl, if_false]
            have : bucketGet s' b.val.name = .ok { b.val with createTime := e.now, updateTime := e.now } := by
              unfold bucketCreate at h1
              simp only [] at h1
              split at h1
              · cases h1
              · split at h1
                · cases h1
                · split at h1
                  · cases h1
                  · cases h1
                    simp [bucketGet]
            rw [this]
            rfl

/-- **C103** The bucket called "list" cannot be read: the list of the buckets is answered, or 400. -/
theorem C103_list_bucket (ord : List Metadata → List Metadata) (e : Env) (s : Store) (q : Query) (b : Bucket) :
    (serve ord e s (.getBucket sList q)).1 ≠ ⟨200, .bucket b⟩ ∧ (serve ord e s (.getBucket sList noQuery)).1 = ⟨400, .failure⟩ := by
  refine ⟨?_, rfl⟩
  simp only [serve, if_true, listAllBuckets]
  cases pageSize q with
  | error er => simp [fail]
  | ok n => simp

/-! ### Requests that are not well formed -/

theorem bindErr_some {α : Type} {rules : α → Bool} {b : Body α} (h : ¬ (b.bad = false ∧ rules b.val = true)) :
    ∃ er, bindErr rules b = some er ∧ 400 ≤ failErr er := by
  unfold bindErr
  split
  · exact ⟨_, rfl, by decide⟩
  · split
    · rename_i h1 h2; exact absurd ⟨by simpa using h1, h2⟩ h
    · exact ⟨_, rfl, by decide⟩

theorem guarded_bad {e : Env} {s : Store} {n : Str} {k : Ans × Store} (h : 400 ≤ k.1.status ∧ k.2 = s) :
    400 ≤ (guarded e s n k).1.status ∧ (guarded e s n k).2 = s := by
  unfold guarded
  split
  · rename_i c hc
    refine ⟨?_, rfl⟩
    unfold gate at hc
    grind
  · exact h

/-- **C103** holds for every request but the update of an object and those whose version number cannot be read. -/
theorem C103_partial (ord : List Metadata → List Metadata) (e : Env) (s : Store) (r : Req) (hw : ¬ WellFormed r)
    (h1 : ∀ n b, r ≠ .putMeta n b)
    (h2 : ∀ n q, r = .getVersion n q ∨ r = .deleteVersion n q ∨ (∃ b, r = .putVersion n q b) → ∀ t, q qVersion = some t → IsInt t) :
    400 ≤ (serve ord e s r).1.status ∧ (serve ord e s r).2 = s := by
  cases r with
  | postMeta n b =>
    obtain ⟨er, hb, hc⟩ := bindErr_some (rules := metaRules) (b := b) (by
      intro ⟨ha, hb⟩
      simp only [metaRules, Bool.and_eq_true, decide_eq_true_eq] at hb
      exact hw ⟨ha, hb.1, hb.2⟩)
    refine guarded_bad ?_
    rw [hb]
    exact ⟨hc, rfl⟩
  | putMeta n b => exact absurd rfl (h1 n b)
  | postVersion n b =>
    obtain ⟨er, hb, hc⟩ := bindErr_some (rules := versionRules) (b := b) (by rw [rules_iff]; exact hw)
    refine guarded_bad ?_
    rw [hb]
    exact ⟨hc, rfl⟩
  | putVersion n q b =>
    refine guarded_bad ?_
    by_cases hv : b.bad = false ∧ versionRules b.val = true
    · cases hb : bindErr versionRules b with
      | some er =>
        exfalso
        simp [bindErr, hv.1, hv.2] at hb
      | none =>
        cases hq : q qVersion with
        | none => exact ⟨Nat.le_refl 400, rfl⟩
        | some t => exact absurd ⟨hv.1, (rules_iff _).1 hv.2, t, hq, h2 n q (Or.inr (Or.inr ⟨b, rfl⟩)) t hq⟩ hw
    · obtain ⟨er, hb, hc⟩ := bindErr_some (rules := versionRules) (b := b) hv
      rw [hb]
      exact ⟨hc, rfl⟩
  | deleteVersion n q =>
    refine guarded_bad ?_
    cases hq : q qVersion with
    | none => exact ⟨Nat.le_refl 400, rfl⟩
    | some t => exact absurd ⟨t, hq, h2 n q (Or.inr (Or.inl rfl)) t hq⟩ hw
  | getVersion n q =>
    simp only [serve]
    cases hq : q qVersion with
    | none => exact ⟨Nat.le_refl 400, rfl⟩
    | some t => exact absurd ⟨t, hq, h2 n q (Or.inl rfl) t hq⟩ hw
  | postBucket b =>
    refine guarded_bad ?_
    split
    · exact ⟨show (400 : Nat) ≤ 500 by decide, rfl⟩
    · split
      · exact ⟨Nat.le_refl 400, rfl⟩
      · rename_i ha hb
        exact absurd ⟨by simpa using ha, hb⟩ hw
  | putBucket n b =>
    refine guarded_bad ?_
    split
    · exact ⟨show (400 : Nat) ≤ 500 by decide, rfl⟩
    · rename_i ha
      exact absurd (show b.bad = false by simpa using ha) hw
  | _ => exact absurd trivial hw

/-! ### Findings -/

def alone : Env := ⟨false, false, false, true, fun _ => true, 100, "u9".toList⟩
def nothing : Body Metadata := ⟨⟨[], [], 0, 0⟩, true⟩

theorem alone_alone : Alone alone := ⟨rfl, rfl, fun _ => rfl⟩

/-- **C103** An update of an object with a body that is no JSON is carried out (200): the object loses its name. -/
theorem C103_bad_update : (serve id alone sampleStore (.putMeta "b/a".toList nothing)).1 = ⟨200, .empty⟩ ∧
    (serve id alone (serve id alone sampleStore (.putMeta "b/a".toList nothing)).2 (.getMeta "b/a".toList fun k => if k = qVersion then some "-1".toList else none)).1 =
      ⟨200, .object ⟨[], (sampleMeta 1).bucket, (sampleMeta 1).createTime, 100⟩ none none⟩ := ⟨rfl, rfl⟩

/-- **C103** in full is false. -/
theorem C103_statement_fails : ¬ C103_statement := by
  intro h
  have := (h id alone sampleStore (.putMeta "b/a".toList nothing) sampleStore_reachable (by simp [WellFormed, nothing])).1
  rw [C103_bad_update.1] at this
  exact absurd this (by decide)

/-- The leader of a group. -/
def leading : Env := { alone with enabled := true, leadGuard := true, leadApply := true }

/-- **C103** What a single server refuses the leader of a group reports as created: the object that was there stays as it is. -/
theorem C103_created_twice :
    (serve id alone sampleStore (.postMeta "b/a".toList ⟨⟨"a".toList, "b".toList, 0, 0⟩, false⟩)).1 = ⟨400, .failure⟩ ∧
    (serve id leading sampleStore (.postMeta "b/a".toList ⟨⟨"a".toList, "b".toList, 0, 0⟩, false⟩)).1 = ⟨201, .empty⟩ ∧
    getMeta (serve id leading sampleStore (.postMeta "b/a".toList ⟨⟨"a".toList, "b".toList, 0, 0⟩, false⟩)).2 "b/a".toList =
      getMeta sampleStore "b/a".toList := ⟨rfl, rfl, rfl⟩

/-- **C103** A version number that is no number is answered with the latest version. -/
theorem C103_bad_version : ∃ v, (serve id alone sampleStore (.getVersion "b/a".toList fun _ => some "abc".toList)).1 = ⟨200, .version v⟩ := ⟨_, rfl⟩

/-- A life of an object by REST, with the statuses. -/
example : (serve id alone .empty (.postMeta "b/x".toList ⟨⟨"x".toList, "b".toList, 0, 0⟩, false⟩)).1.status = 201 ∧
    (serve id alone .empty (.postMeta "b/x".toList ⟨⟨[], "b".toList, 0, 0⟩, false⟩)).1.status = 400 ∧
    (serve id alone .empty (.postMeta "b/x".toList nothing)).1.status = 500 ∧
    (serve id { alone with normal := false } .empty (.deleteMeta "b/x".toList)).1.status = 409 ∧
    (serve id { alone with enabled := true } .empty (.deleteMeta "b/x".toList)).1.status = 503 ∧
    (serve id { alone with owns := fun _ => false } .empty (.deleteMeta "b/x".toList)).1.status = 400 ∧
    (serve id alone .empty (.getMeta "b/x".toList noQuery)).1.status = 404 ∧
    (serve id alone sampleStore (.getVersion "b/a".toList (versionQuery 2))).1.status = 200 ∧
    (serve id alone sampleStore (.getVersion "b/a".toList (versionQuery 3))).1.status = 404 ∧
    (serve id leading sampleStore (.deleteMeta "b/a".toList)).1 = ⟨204, .empty⟩ := ⟨rfl, rfl, rfl, rfl, rfl, rfl, rfl, rfl, rfl, rfl⟩

end Verif.Meta.Rest
