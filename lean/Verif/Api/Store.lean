import Verif.Api.Locate
import Verif.Api.Dedup

/-!
# Storing an object: C60, C39 (deduplicated uploads), C63

`ObjectService.StoreObject` (src/apiserver/internal/usecase/service/object_service.go:112-194),
`Bucket.MakeVersion`, `Bucket.MakeConf` (src/apiserver/internal/entity/metadata.go:76-118) and the resumable
uploads of `BigObjectsController` (src/apiserver/internal/controller/http/big_api.go:41-260).
The upload of the bytes itself is `Verif.Object.Upload` / `Verif.Object.Resume`.
-/

namespace Verif.Api

open Verif

/-- `entity.Bucket`, metadata.go:62-74 (the fields that matter here). -/
structure Bucket where
  versioning : Bool := false
  readonly : Bool := false
  compress : Bool := false
  strategy : Int := 0
  ds : Int := 0
  ps : Int := 0
  remains : Int := 0
  deriving DecidableEq

/-- `config.ObjectConfig`, src/apiserver/config/config.go:52-95 (the fields that matter here). -/
structure Cfg where
  rsDs : Int
  rsPs : Int
  copies : Int
  distinct : Int
  deriving DecidableEq

/-- `entity.Version`, metadata.go:49-60 (without sequence and time). -/
structure Ver where
  compress : Bool
  hash : Str
  strategy : Int
  size : Int
  ds : Int := 0
  ps : Int := 0
  shardSize : Int := 0
  locate : List Str := []
  deriving DecidableEq

/-- `RsConfig.ShardSize`, config.go:97-100; `none`: division by zero. -/
def shardSize (ds size : Int) : Option Int := if ds = 0 then none else some ((size + ds - 1).tdiv ds)

/-- `Bucket.MakeVersion`, metadata.go:76-101; `none`: panic (zero data shards). -/
def Bucket.makeVersion (b : Bucket) (cfg : Cfg) (v : Ver) : Option Ver :=
  let compress := if b.compress then true else v.compress
  let (strategy, rsDs, rsPs, copies) :=
    if b.strategy > 0 then (b.strategy, b.ds, b.ps, b.ds) else (v.strategy, cfg.rsDs, cfg.rsPs, cfg.copies)
  if strategy = multiReplication then
    some { v with compress := compress, strategy := strategy, ds := copies, shardSize := v.size }
  else
    (shardSize rsDs v.size).map fun s =>
      { v with compress := compress, strategy := strategy, ds := rsDs, ps := rsPs, shardSize := s }

/-- `entity.Extra`, metadata.go:28-32. -/
structure Extra where
  total : Int
  first : Int
  deriving DecidableEq

inductive GetMeta
  | found (e : Extra)
  | notFound
  | failed
  deriving DecidableEq

inductive SaveRes
  | ok (vn : Int)
  | exists_
  | failed
  deriving DecidableEq

/-- The answers of the other services to one upload. -/
structure StoreEnv where
  getMeta : GetMeta
  bucket : Option Bucket
  /-- whether `WaitUntilError` notices the error of the bucket request (it may miss it, see C54) -/
  waitSees : Bool
  /-- what the locating of a hash receives -/
  evs : Str → Nat → List Ev
  /-- `streamToDataServer`, object_service.go:192-231: the locations, or an error -/
  upload : Ver → Option (List Str)
  save : SaveRes
  again : Option Extra
  add : Option Int

/-- Requests that change something. -/
inductive Eff
  /-- bytes are sent to data servers for this version -/
  | upload (v : Ver)
  /-- `SaveMetadata`: the object with its first version is recorded -/
  | save (v : Ver)
  /-- `AddVersion` -/
  | add (v : Ver)
  /-- `RemoveVersion` of this number, in the background -/
  | remove (n : Int)
  deriving DecidableEq

inductive Res
  | ok (vn : Int)
  | err
  | panic
  deriving DecidableEq

/-- object_service.go:180 (and big_api.go:233). -/
def dropsFirst (b : Bucket) (e : Extra) : Bool := (e.total > 0 && !b.versioning) || e.total ≥ b.remains

/-- object_service.go:176-188. -/
def addVersion (env : StoreEnv) (b : Bucket) (v : Ver) (e : Extra) : Res × List Eff :=
  match env.add with
  | none => (.err, [.add v])
  | some vn => (.ok vn, [.add v] ++ if dropsFirst b e then [.remove e.first] else [])

/-- object_service.go:165-189.  An error of the metadata request is lost, lines 122-125: the condition looks
at the outer `err`, so `metadata` is nil then. -/
def record (env : StoreEnv) (b : Bucket) (v : Ver) : Res × List Eff :=
  match env.getMeta with
  | .found e => addVersion env b v e
  | _ =>
    match env.save with
    | .ok vn => (.ok vn, [.save v])
    | .failed => (.err, [.save v])
    | .exists_ =>
      match env.again with
      | none => (.err, [.save v])
      | some e => ((addVersion env b v e).1, .save v :: (addVersion env b v e).2)

/-- object_service.go:147-150. -/
def dedup (cfg : Cfg) (env : StoreEnv) (v : Ver) : Located :=
  if v.size ≥ cfg.distinct then
    if v.ds + v.ps < 0 then .panic else locateObject (v.ds + v.ps).toNat (env.evs v.hash (v.ds + v.ps).toNat)
  else .notFound

/-- `StoreObject`, object_service.go:112-194. -/
def storeObject (cfg : Cfg) (sha : Str → Str) (env : StoreEnv) (req : Ver) : Res × List Eff :=
  match env.bucket with
  | none => if env.waitSees then (.err, []) else (.panic, [])
  | some b =>
    if b.readonly then (.err, [])
    else
      match b.makeVersion cfg req with
      | none => (.panic, [])
      | some v1 =>
        let v := { v1 with hash := uniqueHash sha v1.hash v1.strategy v1.ds v1.ps v1.compress }
        match dedup cfg env v with
        | .panic => (.panic, [])
        | .found l => record env b { v with locate := l }
        | .notFound =>
          match env.upload v with
          | none => (.err, [.upload v])
          | some l => ((record env b { v with locate := l }).1, .upload v :: (record env b { v with locate := l }).2)

/-- `ValidatePut` and `Put`, src/apiserver/internal/controller/http/objects_api.go:28-56, 93-117: the version
given to `StoreObject`, for a content length and the strategy asked for; `none`: refused. -/
def putVersion (contentLength strategy : Int) (compress : Bool) (digest : Str) : Option Ver :=
  if contentLength ≤ 0 then none
  else
    let s := if strategy = 0 then (if contentLength > 65536 then ecReedSolomon else multiReplication) else strategy
    some { compress := compress, hash := digest, strategy := s, size := contentLength }

/-! ## Resumable uploads -/

/-- `Bucket.MakeConf`, metadata.go:103-118: numbers of data and parity shards. -/
def Bucket.makeConf (b : Bucket) (cfg : Cfg) : Int × Int :=
  if b.strategy = ecReedSolomon then (b.ds, b.ps) else (cfg.rsDs, cfg.rsPs)

/-- `BigObjectsController.finishUpload`, big_api.go:207-260, without the comparison of digests. -/
def finishUpload (env : StoreEnv) (v : Ver) : Res × List Eff :=
  match env.bucket, env.waitSees with
  | none, true => (.err, [])
  | ob, _ =>
    match env.getMeta with
    | .found e =>
      match ob with
      | some b => addVersion env b v e
      | none => ((match env.add with | none => .err | some _ => .panic), [.add v])
    | _ =>
      match env.save with
      | .ok vn => (.ok vn, [.save v])
      | _ => (.err, [.save v])

/-- The version a resumable upload records at its end, big_api.go:183-191 (`compress` is not set there). -/
def bigVersion (hash : Str) (size ds ps shard : Int) (locate : List Str) : Ver :=
  { compress := false, hash := hash, strategy := ecReedSolomon, size := size, ds := ds, ps := ps,
    shardSize := shard, locate := locate }

inductive BigRes
  /-- the upload was finished at once, or failed doing so -/
  | done (r : Res)
  /-- a token was given out: hash, shards -/
  | token (hash : Str) (ds ps : Int)
  | refused
  | panic
  deriving DecidableEq

/-- `Post`, big_api.go:41-114; creating the temporary files is not modelled. -/
def bigPost (cfg : Cfg) (sha : Str → Str) (env : StoreEnv) (digest : Str) (size : Int) (compress : Bool) :
    BigRes × List Eff :=
  match env.bucket with
  | none => (.refused, [])
  | some b =>
    if b.readonly then (.refused, [])
    else
      let compress := if b.compress then true else compress
      let (ds, ps) := b.makeConf cfg
      let hash := uniqueHash sha digest ecReedSolomon ds ps compress
      if ds + ps < 0 then (.panic, [])
      else
        match locateObject (ds + ps).toNat (env.evs hash (ds + ps).toNat) with
        | .panic => (.panic, [])
        | .notFound => (.token hash ds ps, [])
        | .found l =>
          match shardSize ds size with
          | none => (.panic, [])
          | some s =>
            let r := finishUpload env { bigVersion hash size ds ps s l with compress := compress }
            (.done r.1, r.2)

/-! ## C60 -/

/-- The version a request is about. -/
def Eff.ver? : Eff → Option Ver
  | .upload v => some v
  | .save v => some v
  | .add v => some v
  | .remove _ => none

theorem C60_readonly (cfg : Cfg) (sha : Str → Str) (env : StoreEnv) (req : Ver) (b : Bucket)
    (hb : env.bucket = some b) (hr : b.readonly = true) : storeObject cfg sha env req = (.err, []) := by
  unfold storeObject
  simp [hb, hr]

theorem C60_readonly_big (cfg : Cfg) (sha : Str → Str) (env : StoreEnv) (digest : Str) (size : Int)
    (compress : Bool) (b : Bucket) (hb : env.bucket = some b) (hr : b.readonly = true) :
    bigPost cfg sha env digest size compress = (.refused, []) := by
  unfold bigPost
  simp [hb, hr]

/-- All services answer as hoped; the bucket is `b`. -/
def goodEnv (b : Bucket) : StoreEnv :=
  { getMeta := .notFound, bucket := some b, waitSees := true, evs := fun _ _ => [],
    upload := fun v => some (List.replicate (v.ds + v.ps).toNat ['s']), save := .ok 1, again := none, add := some 2 }

def exCfg : Cfg := { rsDs := 4, rsPs := 2, copies := 3, distinct := 1000 }
def exReq : Ver := { compress := false, hash := ['h'], strategy := 2, size := 10 }

/-- The same upload is stored when the bucket is writable. -/
example : storeObject exCfg id (goodEnv { readonly := true }) exReq = (.err, []) ∧
    (storeObject exCfg id (goodEnv {}) exReq).1 = .ok 1 ∧
    (storeObject exCfg id (goodEnv {}) exReq).2.length = 2 := by decide

theorem addVersion_ver (env : StoreEnv) (b : Bucket) (v : Ver) (e : Extra) {f : Eff} {w : Ver}
    (hf : f ∈ (addVersion env b v e).2) (hw : f.ver? = some w) : w = v := by
  unfold addVersion at hf
  cases ha : env.add with
  | none =>
    rw [ha] at hf
    simp only [List.mem_singleton] at hf
    subst hf
    exact (Option.some.inj hw).symm
  | some vn =>
    rw [ha] at hf
    simp only [List.mem_append, List.mem_singleton] at hf
    rcases hf with hf | hf
    · subst hf; exact (Option.some.inj hw).symm
    · cases hd : dropsFirst b e with
      | false => simp [hd] at hf
      | true =>
        simp only [hd, if_true, List.mem_singleton] at hf
        subst hf
        simp [Eff.ver?] at hw

theorem record_ver (env : StoreEnv) (b : Bucket) (v : Ver) {f : Eff} {w : Ver}
    (hf : f ∈ (record env b v).2) (hw : f.ver? = some w) : w = v := by
  have one : ∀ {f : Eff}, f ∈ ([.save v] : List Eff) → f.ver? = some w → w = v := by
    intro f hf hw
    rw [List.mem_singleton.1 hf] at hw
    exact (Option.some.inj hw).symm
  have nf : ∀ (x : Res × List Eff), x = (match env.save with
      | .ok vn => (.ok vn, [.save v])
      | .failed => (.err, [.save v])
      | .exists_ =>
        match env.again with
        | none => (.err, [.save v])
        | some e => ((addVersion env b v e).1, .save v :: (addVersion env b v e).2)) → f ∈ x.2 → w = v := by
    intro x hx hf
    cases hs : env.save with
    | ok vn => rw [hx, hs] at hf; exact one hf hw
    | failed => rw [hx, hs] at hf; exact one hf hw
    | exists_ =>
      rw [hx, hs] at hf
      cases ha : env.again with
      | none => rw [ha] at hf; exact one hf hw
      | some e =>
        rw [ha] at hf
        rcases List.mem_cons.1 hf with hf | hf
        · subst hf; exact (Option.some.inj hw).symm
        · exact addVersion_ver env b v e hf hw
  unfold record at hf
  cases hm : env.getMeta with
  | found e => rw [hm] at hf; exact addVersion_ver env b v e hf hw
  | notFound => rw [hm] at hf; exact nf _ rfl hf
  | failed => rw [hm] at hf; exact nf _ rfl hf

/-- Everything `StoreObject` sends out is about the version that `MakeVersion` made of the request (with the
name under which it is stored, and its locations). -/
theorem storeObject_ver (cfg : Cfg) (sha : Str → Str) (env : StoreEnv) (req : Ver) {f : Eff} {w : Ver}
    (hf : f ∈ (storeObject cfg sha env req).2) (hw : f.ver? = some w) :
    ∃ b v1, env.bucket = some b ∧ b.readonly = false ∧ b.makeVersion cfg req = some v1 ∧
      w.strategy = v1.strategy ∧ w.ds = v1.ds ∧ w.ps = v1.ps ∧ w.compress = v1.compress ∧ w.size = v1.size ∧
      w.shardSize = v1.shardSize ∧ w.hash = uniqueHash sha v1.hash v1.strategy v1.ds v1.ps v1.compress := by
  unfold storeObject at hf
  cases hb : env.bucket with
  | none => rw [hb] at hf; simp only at hf; split at hf <;> cases hf
  | some b =>
    rw [hb] at hf
    simp only at hf
    split at hf
    · cases hf
    · rename_i hro
      cases hm : b.makeVersion cfg req with
      | none => rw [hm] at hf; cases hf
      | some v1 =>
        rw [hm] at hf
        simp only at hf
        refine ⟨b, v1, rfl, by simpa using hro, hm, ?_⟩
        split at hf
        · cases hf
        · rw [record_ver env b _ hf hw]; simp
        · split at hf
          · rw [List.mem_singleton.1 hf] at hw
            rw [← Option.some.inj hw]; simp
          · rcases List.mem_cons.1 hf with hf | hf
            · rw [hf] at hw
              rw [← Option.some.inj hw]; simp
            · rw [record_ver env b _ hf hw]; simp

/-- What a bucket's and the server's configuration prescribe for an upload. -/
structure Prescribed (cfg : Cfg) (b : Bucket) (asked : Ver) (v : Ver) : Prop where
  /-- a bucket that prescribes a layout overrides what the client asked for -/
  forced : 0 < b.strategy → v.strategy = b.strategy ∧ v.ds = b.ds ∧
    (v.strategy ≠ multiReplication → v.ps = b.ps)
  /-- else the client chooses the strategy and the server's configuration the numbers -/
  free : b.strategy ≤ 0 → v.strategy = asked.strategy ∧
    (v.strategy = multiReplication → v.ds = cfg.copies) ∧
    (v.strategy ≠ multiReplication → v.ds = cfg.rsDs ∧ v.ps = cfg.rsPs)
  compress : v.compress = (b.compress || asked.compress)
  size : v.size = asked.size

theorem makeVersion_prescribed (b : Bucket) (cfg : Cfg) (v v1 : Ver) (h : b.makeVersion cfg v = some v1) :
    Prescribed cfg b v v1 := by
  unfold Bucket.makeVersion at h
  simp only at h
  by_cases hs : b.strategy > 0
  · simp only [if_pos hs] at h
    by_cases hm : b.strategy = multiReplication
    · rw [if_pos hm] at h
      cases h
      exact ⟨fun _ => ⟨rfl, rfl, fun hn => absurd hm hn⟩, fun hn => absurd hs (by omega),
        by cases b.compress <;> simp, rfl⟩
    · rw [if_neg hm] at h
      cases hq : shardSize b.ds v.size with
      | none => rw [hq] at h; cases h
      | some s =>
        rw [hq] at h
        cases h
        exact ⟨fun _ => ⟨rfl, rfl, fun _ => rfl⟩, fun hn => absurd hs (by omega),
          by cases b.compress <;> simp, rfl⟩
  · simp only [if_neg hs] at h
    by_cases hm : v.strategy = multiReplication
    · rw [if_pos hm] at h
      cases h
      exact ⟨fun hn => absurd hn (by omega), fun _ => ⟨rfl, fun _ => rfl, fun hn => absurd hm hn⟩,
        by cases b.compress <;> simp, rfl⟩
    · rw [if_neg hm] at h
      cases hq : shardSize cfg.rsDs v.size with
      | none => rw [hq] at h; cases h
      | some s =>
        rw [hq] at h
        cases h
        exact ⟨fun hn => absurd hn (by omega), fun _ => ⟨rfl, fun hn => absurd hn hm, fun _ => ⟨rfl, rfl⟩⟩,
          by cases b.compress <;> simp, rfl⟩

theorem makeVersion_locate (b : Bucket) (cfg : Cfg) (v v1 : Ver) (h : b.makeVersion cfg v = some v1) :
    v1.locate = v.locate := by
  unfold Bucket.makeVersion at h
  simp only at h
  by_cases hs : b.strategy > 0
  · simp only [if_pos hs] at h
    by_cases hm : b.strategy = multiReplication
    · rw [if_pos hm] at h; cases h; rfl
    · rw [if_neg hm] at h
      cases hq : shardSize b.ds v.size with
      | none => rw [hq] at h; cases h
      | some s => rw [hq] at h; cases h; rfl
  · simp only [if_neg hs] at h
    by_cases hm : v.strategy = multiReplication
    · rw [if_pos hm] at h; cases h; rfl
    · rw [if_neg hm] at h
      cases hq : shardSize cfg.rsDs v.size with
      | none => rw [hq] at h; cases h
      | some s => rw [hq] at h; cases h; rfl

/-- **C60** (simple uploads): whatever is uploaded or recorded has the layout the bucket prescribes, if it
prescribes one, and the bucket is not read-only. -/
theorem C60_layout (cfg : Cfg) (sha : Str → Str) (env : StoreEnv) (req : Ver) (f : Eff) (w : Ver)
    (hf : f ∈ (storeObject cfg sha env req).2) (hw : f.ver? = some w) :
    ∃ b, env.bucket = some b ∧ b.readonly = false ∧ Prescribed cfg b req w := by
  obtain ⟨b, v1, hb, hro, hm, h1, h2, h3, h4, h5, _, _⟩ := storeObject_ver cfg sha env req hf hw
  have p := makeVersion_prescribed b cfg req v1 hm
  exact ⟨b, hb, hro, ⟨fun hn => by rw [h1, h2, h3]; exact p.forced hn,
    fun hn => by rw [h1, h2, h3]; exact p.free hn, h4.trans p.compress, h5.trans p.size⟩⟩

/-- **C60**: in a bucket that prescribes a layout the strategy asked for by the client changes nothing. -/
theorem C60_client_cannot_choose (cfg : Cfg) (sha : Str → Str) (env : StoreEnv) (req : Ver) (b : Bucket)
    (hb : env.bucket = some b) (hs : 0 < b.strategy) (s : Int) :
    storeObject cfg sha env { req with strategy := s } = storeObject cfg sha env req := by
  have : b.makeVersion cfg { req with strategy := s } = b.makeVersion cfg req := by
    unfold Bucket.makeVersion
    simp [hs]
  unfold storeObject
  rw [hb]
  simp only [this]

/-- A bucket for erasure coding with 5 + 3 shards, and a client that asks for copies. -/
example : (storeObject exCfg id (goodEnv { strategy := 1, ds := 5, ps := 3, compress := true }) exReq).2.map
      (fun f => f.ver?.map fun v => (v.strategy, v.ds, v.ps, v.compress, v.shardSize)) =
    [some (1, 5, 3, true, 2), some (1, 5, 3, true, 2)] := by decide

/-- The full statement of C60 for resumable uploads: a token is for the layout the bucket prescribes. -/
def BigLayout : Prop :=
  ∀ (cfg : Cfg) (sha : Str → Str) (env : StoreEnv) (digest : Str) (size : Int) (compress : Bool) (b : Bucket)
    (hash : Str) (ds ps shard : Int) (l : List Str), env.bucket = some b → 0 < b.strategy →
    (bigPost cfg sha env digest size compress).1 = .token hash ds ps →
    (bigVersion hash size ds ps shard l).strategy = b.strategy ∧ ds = b.ds

/-- **C60 fails for resumable uploads**: a bucket that prescribes copies gets an erasure coded version with
the default numbers of shards (`MakeConf` only looks at the strategy to choose numbers). -/
theorem C60_big_ignores_replication : ¬ BigLayout := by
  intro h
  have := h exCfg id (goodEnv { strategy := 2, ds := 5 }) ['h'] 100 false { strategy := 2, ds := 5 }
    (uniqueHash id ['h'] 1 4 2 false) 4 2 25 [] rfl (by decide) (by rfl)
  exact absurd this.1 (by decide)

/-- For a bucket that prescribes erasure coding the token is for the prescribed layout. -/
theorem C60_big_layout_partial (cfg : Cfg) (sha : Str → Str) (env : StoreEnv) (digest : Str) (size : Int)
    (compress : Bool) (b : Bucket) (hash : Str) (ds ps shard : Int) (l : List Str) (hb : env.bucket = some b)
    (hs : b.strategy = ecReedSolomon) (ht : (bigPost cfg sha env digest size compress).1 = .token hash ds ps) :
    (bigVersion hash size ds ps shard l).strategy = b.strategy ∧ ds = b.ds ∧ ps = b.ps ∧ b.readonly = false := by
  unfold bigPost at ht
  rw [hb] at ht
  simp only at ht
  have hc : b.makeConf cfg = (b.ds, b.ps) := by unfold Bucket.makeConf; rw [if_pos hs]
  rw [hc] at ht
  simp only at ht
  split at ht
  · cases ht
  · rename_i hro
    split at ht
    · cases ht
    · split at ht
      · cases ht
      · cases ht
        exact ⟨hs.symm, rfl, rfl, by simpa using hro⟩
      · split at ht <;> cases ht

example : (bigPost exCfg id (goodEnv { strategy := 1, ds := 5, ps := 3 }) ['h'] 100 false).1 =
    .token (uniqueHash id ['h'] 1 5 3 false) 5 3 := by rfl

/-- The full statement: nothing is recorded in a read-only bucket. -/
def ReadonlyRecordsNothing : Prop :=
  ∀ (env : StoreEnv) (b : Bucket) (v : Ver), env.bucket = some b → b.readonly = true →
    (finishUpload env v).2 = []

/-- **C60 fails for resumable uploads**: whether the bucket is read-only is only checked when the token is
given out; the end of the upload, possibly much later, records a version in a read-only bucket. -/
theorem C60_big_readonly_later : ¬ ReadonlyRecordsNothing := by
  intro h
  have := h (goodEnv { readonly := true }) { readonly := true } (bigVersion ['h'] 100 4 2 25 []) rfl rfl
  exact absurd this (by decide)

/-! ## C39: what is recorded was uploaded, or found -/

/-- The version is recorded by this request. -/
def Eff.records (f : Eff) (v : Ver) : Prop := f = .save v ∨ f = .add v

theorem C39_recorded_partial (cfg : Cfg) (sha : Str → Str) (env : StoreEnv) (req : Ver) (f : Eff) (w : Ver)
    (hf : f ∈ (storeObject cfg sha env req).2) (hw : f.records w) :
    env.upload { w with locate := req.locate } = some w.locate ∨
      (cfg.distinct ≤ w.size ∧
        locateObject (w.ds + w.ps).toNat (env.evs w.hash (w.ds + w.ps).toNat) = .found w.locate) := by
  have hv : f.ver? = some w := by rcases hw with rfl | rfl <;> rfl
  unfold storeObject at hf
  cases hb : env.bucket with
  | none => rw [hb] at hf; simp only at hf; split at hf <;> cases hf
  | some b =>
    rw [hb] at hf
    simp only at hf
    split at hf
    · cases hf
    · cases hm : b.makeVersion cfg req with
      | none => rw [hm] at hf; cases hf
      | some v1 =>
        rw [hm] at hf
        simp only at hf
        have hl := makeVersion_locate b cfg req v1 hm
        split at hf
        · cases hf
        · rename_i l hd
          right
          rw [record_ver env b _ hf hv]
          unfold dedup at hd
          split at hd
          · rename_i h1
            split at hd
            · cases hd
            · exact ⟨h1, hd⟩
          · cases hd
        · split at hf
          · rw [List.mem_singleton.1 hf] at hw
            rcases hw with hw | hw <;> cases hw
          · rename_i l hu
            left
            rcases List.mem_cons.1 hf with hf | hf
            · rw [hf] at hw
              rcases hw with hw | hw <;> cases hw
            · rw [record_ver env b _ hf hv]
              simp only
              rw [← hl]
              exact hu

/-- What is recorded for `exReq` in a bucket without prescriptions. -/
def exStored (ip : Str) : Ver := ⟨false, uniqueHash id ['h'] 2 3 0 false, 2, 10, 3, 0, 10, [ip, ip, ip]⟩

example : Eff.save (exStored ['s']) ∈ (storeObject exCfg id (goodEnv {}) exReq).2 := by decide

/-- The full statement of C39 for `StoreObject`: when the upload is rejected (its digest does not match, or
committing failed), no version is recorded. -/
def RejectedRecordsNothing : Prop :=
  ∀ (cfg : Cfg) (sha : Str → Str) (env : StoreEnv) (req : Ver), (∀ v, env.upload v = none) →
    ∀ f ∈ (storeObject cfg sha env req).2, ∀ w, ¬ f.records w

/-- Below the size from which on objects are deduplicated, a rejected upload records nothing. -/
theorem C39_rejected_partial (cfg : Cfg) (sha : Str → Str) (env : StoreEnv) (req : Ver)
    (hsmall : req.size < cfg.distinct) (hu : ∀ v, env.upload v = none) :
    ∀ f ∈ (storeObject cfg sha env req).2, ∀ w, ¬ f.records w := by
  intro f hf w hw
  have hv : f.ver? = some w := by rcases hw with rfl | rfl <;> rfl
  obtain ⟨b, _, _, p⟩ := C60_layout cfg sha env req f w hf hv
  rcases C39_recorded_partial cfg sha env req f w hf hw with h | ⟨h, _⟩
  · rw [hu] at h; cases h
  · rw [p.size] at h
    omega

example : exReq.size < exCfg.distinct ∧
    (storeObject exCfg id { goodEnv {} with upload := fun _ => none } exReq).2.length = 1 := by decide

/-- **C39 fails**: when all shards of the announced digest are found, the body is neither read nor compared
with the digest; the version is recorded although every upload would be rejected. -/
theorem C39_dedup_unverified : ¬ RejectedRecordsNothing := by
  intro h
  refine h { exCfg with distinct := 0 } id
    { goodEnv {} with upload := fun _ => none, evs := fun _ _ =>
        [.answers [['a', '#', '0'], ['a', '#', '1'], ['a', '#', '2']]] } exReq (fun _ => rfl)
    (.save (exStored ['a'])) ?_ _ (Or.inl rfl)
  decide

/-! ## C63: retention -/

/-- The versions of one object at the metadata server: their numbers, ascending, and the last number used. -/
structure Kept where
  seqs : List Nat
  last : Nat
  deriving DecidableEq

/-- `Extra` of the object, as computed by the metadata server (C16–C18). -/
def Kept.extra (k : Kept) : Extra := { total := k.seqs.length, first := k.seqs.headD 0 }

/-- The metadata server adds a version. -/
def Kept.add (k : Kept) : Kept := { seqs := k.seqs ++ [k.last + 1], last := k.last + 1 }

/-- … removes one. -/
def Kept.remove (k : Kept) (n : Int) : Kept := { k with seqs := k.seqs.filter fun s => (s : Int) ≠ n }

/-- A later upload of an object: lines 176-188 with the `Extra` read at its beginning. -/
def Kept.store (b : Bucket) (k : Kept) (seen : Extra) : Kept :=
  if dropsFirst b seen then k.add.remove seen.first else k.add

/-- Uploads one after the other. -/
def Kept.uploads (b : Bucket) : Nat → Kept → Kept
  | 0, k => k
  | n + 1, k => Kept.uploads b n (k.store b k.extra)

/-- The number of versions a bucket wants to keep. -/
def limit (b : Bucket) : Int := if b.versioning then max 1 b.remains else 1

structure Kept.Ok (k : Kept) : Prop where
  sorted : k.seqs.Pairwise (· < ·)
  le : ∀ s ∈ k.seqs, 0 < s ∧ s ≤ k.last

theorem Kept.add_ok {k : Kept} (h : k.Ok) : k.add.Ok := by
  refine ⟨?_, ?_⟩
  · unfold Kept.add
    rw [List.pairwise_append]
    refine ⟨h.sorted, by simp, ?_⟩
    intro a ha x hx
    rw [List.mem_singleton.1 hx]
    have := (h.le a ha).2
    omega
  · intro s hs
    unfold Kept.add at hs ⊢
    simp only [List.mem_append, List.mem_singleton] at hs
    simp only
    rcases hs with hs | hs
    · have := h.le s hs; omega
    · omega

theorem Kept.remove_ok {k : Kept} (h : k.Ok) (n : Int) : (k.remove n).Ok :=
  ⟨h.sorted.filter _, fun s hs => h.le s (List.mem_filter.1 hs).1⟩

/-- Removing the first of the versions removes exactly one. -/
theorem filter_head {x : Nat} {l : List Nat} (h : (x :: l).Pairwise (· < ·)) :
    (x :: l).filter (fun s : Nat => decide ((s : Int) ≠ (x : Int))) = l := by
  have hx := (List.pairwise_cons.1 h).1
  rw [List.filter_cons_of_neg (by simp)]
  exact List.filter_eq_self.2 fun a ha => by have := hx a ha; simp; omega

theorem store_count {b : Bucket} {k : Kept} (h : k.Ok) :
    ((k.store b k.extra).seqs.length : Int) =
      if k.seqs ≠ [] ∧ dropsFirst b k.extra = true then (k.seqs.length : Int) else k.seqs.length + 1 := by
  cases hd : dropsFirst b k.extra with
  | false => simp [Kept.store, hd, Kept.add]
  | true =>
    cases hk : k.seqs with
    | nil =>
      have e : (k.store b k.extra).seqs = [k.last + 1] := by
        unfold Kept.store
        rw [if_pos hd]
        have : ((k.last : Int) + 1) ≠ 0 := by omega
        simp [Kept.add, Kept.remove, Kept.extra, hk, this]
      rw [e]; simp
    | cons x l =>
      have e : (k.store b k.extra).seqs = l ++ [k.last + 1] := by
        have hp := (Kept.add_ok h).sorted
        have e1 : k.add.seqs = x :: (l ++ [k.last + 1]) := by simp [Kept.add, hk]
        rw [e1] at hp
        simp only [Kept.store, hd, if_true, Kept.remove, e1]
        have e2 : k.extra.first = (x : Int) := by simp [Kept.extra, hk]
        rw [e2]
        exact filter_head hp
      rw [e]
      simp

theorem store_ok {b : Bucket} {k : Kept} (h : k.Ok) : (k.store b k.extra).Ok := by
  unfold Kept.store
  split
  · exact Kept.remove_ok (Kept.add_ok h) _
  · exact Kept.add_ok h

theorem store_limit {b : Bucket} {k : Kept} (h : k.Ok) (hl : (k.seqs.length : Int) ≤ limit b) :
    ((k.store b k.extra).seqs.length : Int) ≤ limit b := by
  rw [store_count h]
  split
  · exact hl
  · rename_i hn
    by_cases hk : k.seqs = []
    · rw [hk]
      unfold limit
      split <;> simp <;> omega
    · have hd : dropsFirst b k.extra = false := by
        cases hd : dropsFirst b k.extra with
        | false => rfl
        | true => exact absurd ⟨hk, hd⟩ hn
      have hpos : 0 < k.seqs.length := List.length_pos_iff.2 hk
      have hv : b.versioning = true := by
        cases hv : b.versioning with
        | true => rfl
        | false =>
          have : dropsFirst b k.extra = true := by simp [dropsFirst, Kept.extra, hv, hpos]
          rw [this] at hd; cases hd
      have hr : (k.seqs.length : Int) < b.remains := by
        refine Int.lt_of_not_ge fun hc => ?_
        have : dropsFirst b k.extra = true := by simp [dropsFirst, Kept.extra, hc]
        rw [this] at hd; cases hd
      unfold limit
      rw [if_pos hv]
      omega

/-- The newest version is never removed by its own upload. -/
theorem store_keeps_new {b : Bucket} {k : Kept} (h : k.Ok) : k.last + 1 ∈ (k.store b k.extra).seqs := by
  unfold Kept.store
  split
  · refine List.mem_filter.2 ⟨by simp [Kept.add], ?_⟩
    have : (k.extra.first : Int) ≠ ((k.last + 1 : Nat) : Int) := by
      cases hk : k.seqs with
      | nil => simp [Kept.extra, hk]; omega
      | cons x l =>
        have := h.le x (by rw [hk]; simp)
        simp [Kept.extra, hk]; omega
    simp only [decide_eq_true_eq]
    exact fun he => this he.symm
  · simp [Kept.add]

/-- **C63**: when uploads of an object follow each other, and each removal is done before the next upload
begins, a bucket never keeps more versions than it is configured to (one if it is not versioned), and the
newest version is kept.  Missing for the full property: overlapping uploads (`C63_overlapping`) and buckets
whose limit was lowered (`C63_lowered_limit`). -/
theorem C63_retention_partial (b : Bucket) (k : Kept) (hk : k.Ok) (hl : (k.seqs.length : Int) ≤ limit b)
    (n : Nat) :
    ((k.uploads b n).seqs.length : Int) ≤ limit b ∧ (k.uploads b n).Ok ∧ (k.uploads b n).last = k.last + n ∧
      (0 < n → k.last + n ∈ (k.uploads b n).seqs) := by
  induction n generalizing k with
  | zero => exact ⟨hl, hk, rfl, fun h => absurd h (by decide)⟩
  | succ n ih =>
    have hlast : (k.store b k.extra).last = k.last + 1 := by
      unfold Kept.store; split <;> rfl
    obtain ⟨h1, h2, h3, h4⟩ := ih (k.store b k.extra) (store_ok hk) (store_limit hk hl)
    refine ⟨h1, h2, ?_, fun _ => ?_⟩
    · show (Kept.uploads b n (k.store b k.extra)).last = _
      rw [h3, hlast]; omega
    · show k.last + (n + 1) ∈ (Kept.uploads b n (k.store b k.extra)).seqs
      rcases Nat.eq_zero_or_pos n with hn | hn
      · subst hn
        exact store_keeps_new hk
      · have := h4 hn
        rw [hlast] at this
        rwa [show k.last + (n + 1) = k.last + 1 + n by omega]

example : (Kept.uploads { versioning := true, remains := 3 } 5 ⟨[1], 1⟩).seqs = [4, 5, 6] ∧
    (Kept.uploads { versioning := false, remains := 3 } 5 ⟨[1], 1⟩).seqs = [6] := by decide

/-- **C63 fails for overlapping uploads**: two uploads that read the same `Extra` both remove the same
version, so a bucket without versioning keeps two versions from then on. -/
theorem C63_overlapping : ∃ (b : Bucket) (k : Kept), k.Ok ∧ (k.seqs.length : Int) ≤ limit b ∧
    (let k2 := (k.store b k.extra).store b k.extra; ∀ n : Nat, ¬ ((k2.uploads b n).seqs.length : Int) ≤ limit b) := by
  refine ⟨{}, ⟨[1], 1⟩, ⟨by simp, by simp⟩, by decide, ?_⟩
  have key : ∀ (n : Nat) (k : Kept), k.Ok → k.seqs.length = 2 → ((k.uploads {} n).seqs.length : Int) = 2 := by
    intro n
    induction n with
    | zero => intro k _ h; simp [Kept.uploads, h]
    | succ n ih =>
      intro k hk h
      refine ih _ (store_ok hk) ?_
      have := store_count (b := {}) hk
      have hne : k.seqs ≠ [] := by intro h0; rw [h0] at h; cases h
      have hd : dropsFirst {} k.extra = true := by simp [dropsFirst, Kept.extra, h]
      rw [if_pos ⟨hne, hd⟩] at this
      omega
  intro k2 n hc
  have := key n k2 ⟨by decide, by decide⟩ (by decide)
  rw [this] at hc
  exact absurd hc (by decide)

/-- **C63 fails after the limit was lowered**: every upload removes at most one version, so the number never
falls. -/
theorem C63_lowered_limit (b : Bucket) (k : Kept) (hk : k.Ok) (n : Nat) :
    k.seqs.length ≤ (k.uploads b n).seqs.length := by
  induction n generalizing k with
  | zero => exact Nat.le_refl _
  | succ n ih =>
    refine Nat.le_trans ?_ (ih _ (store_ok hk))
    have := store_count (b := b) hk
    split at this <;> omega

example : (Kept.uploads { versioning := true, remains := 2 } 4 ⟨[1, 2, 3, 4, 5], 5⟩).seqs = [5, 6, 7, 8, 9] := by
  decide

end Verif.Api
