import Verif.Api.Errors
import Verif.Msgp.Props
import Verif.Meta.Versions

/-!
# Versions, objects and buckets over gRPC (model)

The functions of apiserver/internal/usecase/grpcapi/meta_server.go and their handlers in
metaserver/internal/controller/grpc/metadata_server.go, on top of the store of `Verif.Meta` and the
codecs of `Verif.Msgp`.  Protobuf transports ids, numbers and byte strings unchanged (trusted).
Not modelled here: interceptors (`Verif.Meta.Guard`), raft, caches, unreachable servers.
-/

namespace Verif.Api.MetaRpc

open Verif Verif.Msgp Verif.Api.Errors

/-- A string of the store model as bytes and back: every character stands for one byte. -/
def bytesOf (s : Str) : Bytes := s.map Char.toNat
def strOf (b : Bytes) : Str := b.map Char.ofNat

/-- Go's conversion `int32(x)`. -/
def toInt32 (i : Int) : Int := signed 32 (twos 32 i)

/-! ## Entities of the API server -/

/-- apiserver/internal/entity/metadata.go:49-60 `entity.Version` -/
structure EVersion where
  compress : Bool := false
  hash : Str := []
  storeStrategy : Int := 0
  sequence : Int := 0
  size : Int := 0
  ts : Int := 0
  dataShards : Int := 0
  parityShards : Int := 0
  shardSize : Int := 0
  locate : List Str := []
  deriving DecidableEq, Repr

/-- apiserver/internal/entity/metadata.go:62-74 `entity.Bucket` -/
structure EBucket where
  versioning : Bool := false
  readonly : Bool := false
  compress : Bool := false
  storeStrategy : Int := 0
  dataShards : Int := 0
  parityShards : Int := 0
  versionRemains : Int := 0
  createTime : Int := 0
  updateTime : Int := 0
  name : Str := []
  policies : List Str := []
  deriving DecidableEq, Repr

/-- apiserver/internal/entity/metadata.go:33-40 `entity.Metadata`, without `Versions`, which these
functions leave empty. -/
structure EMetadata where
  total : Int := 0
  firstVersion : Int := 0
  lastVersion : Int := 0
  name : Str := []
  bucket : Str := []
  createTime : Int := 0
  updateTime : Int := 0
  deriving DecidableEq, Repr

/-! ## Conversions -/

/-- grpcapi/meta_server.go:150-159 `SaveVersion`: the message. -/
def msgOf (v : EVersion) : Msgp.Version where
  compress := v.compress
  storeStrategy := v.storeStrategy
  dataShards := toInt32 v.dataShards
  parityShards := toInt32 v.parityShards
  shardSize := v.shardSize
  size := v.size
  hash := bytesOf v.hash
  locate := v.locate.map bytesOf

/-- grpcapi/meta_server.go:60-71 `GetVersion`: the entity. -/
def entOf (m : Msgp.Version) : EVersion where
  compress := m.compress
  hash := strOf m.hash
  storeStrategy := m.storeStrategy
  sequence := toInt32 m.sequence
  size := m.size
  ts := m.ts
  dataShards := m.dataShards
  parityShards := m.parityShards
  shardSize := m.shardSize
  locate := m.locate.map strOf

/-- The record `msg.Version` in the store model. -/
def metaOf (m : Msgp.Version) : Meta.Version where
  compress := m.compress
  storeStrategy := m.storeStrategy
  dataShards := m.dataShards
  parityShards := m.parityShards
  shardSize := m.shardSize
  size := m.size
  ts := m.ts
  sequence := m.sequence
  hash := strOf m.hash
  uniqueId := strOf m.uniqueId
  locate := m.locate.map strOf

/-- The record of the store model as `msg.Version`. -/
def ofMetaV (v : Meta.Version) : Msgp.Version where
  compress := v.compress
  storeStrategy := v.storeStrategy
  dataShards := v.dataShards
  parityShards := v.parityShards
  shardSize := v.shardSize
  size := v.size
  ts := v.ts
  sequence := v.sequence
  hash := bytesOf v.hash
  uniqueId := bytesOf v.uniqueId
  locate := v.locate.map bytesOf

/-- grpcapi/meta_server.go:194-204 `SaveBucket`: the message. -/
def msgOfB (b : EBucket) : Msgp.Bucket where
  versioning := b.versioning
  readonly := b.readonly
  compress := b.compress
  storeStrategy := b.storeStrategy
  dataShards := toInt32 b.dataShards
  parityShards := toInt32 b.parityShards
  versionRemains := toInt32 b.versionRemains
  name := bytesOf b.name
  policies := b.policies.map bytesOf

/-- grpcapi/meta_server.go:90-102 `GetBucket`: the entity. -/
def entOfB (m : Msgp.Bucket) : EBucket where
  versioning := m.versioning
  readonly := m.readonly
  compress := m.compress
  storeStrategy := m.storeStrategy
  dataShards := m.dataShards
  parityShards := m.parityShards
  versionRemains := m.versionRemains
  createTime := m.createTime
  updateTime := m.updateTime
  name := strOf m.name
  policies := m.policies.map strOf

/-- The record `msg.Bucket` in the store model and back. -/
def metaOfB (m : Msgp.Bucket) : Meta.Bucket where
  versioning := m.versioning
  readonly := m.readonly
  compress := m.compress
  storeStrategy := m.storeStrategy
  dataShards := m.dataShards
  parityShards := m.parityShards
  versionRemains := m.versionRemains
  createTime := m.createTime
  updateTime := m.updateTime
  name := strOf m.name
  policies := m.policies.map strOf

def ofMetaB (m : Meta.Bucket) : Msgp.Bucket where
  versioning := m.versioning
  readonly := m.readonly
  compress := m.compress
  storeStrategy := m.storeStrategy
  dataShards := m.dataShards
  parityShards := m.parityShards
  versionRemains := m.versionRemains
  createTime := m.createTime
  updateTime := m.updateTime
  name := bytesOf m.name
  policies := m.policies.map bytesOf

/-- The record `msg.Metadata` from the store model. -/
def ofMetaM (m : Meta.Metadata) (x : Option Msgp.Extra) : Msgp.Metadata where
  extra := x
  name := bytesOf m.name
  bucket := bytesOf m.bucket
  createTime := m.createTime
  updateTime := m.updateTime

/-! ## Server -/

/-- The validation tags of `msg.Version`, common/proto/msg/metadata.go:28-40. -/
def validVersion (m : Msgp.Version) : Bool :=
  m.storeStrategy ≠ 0 && m.dataShards ≠ 0 && m.shardSize ≠ 0 && m.size ≠ 0 && m.hash ≠ [] &&
    1 ≤ m.locate.length

/-- The validation tags of `msg.Metadata`, common/proto/msg/metadata.go:16-22. -/
def validMetadata (m : Msgp.Metadata) : Bool := m.name ≠ [] && m.bucket ≠ []

def textInvalid : Str := "invalid request value".toList
def textId : Str := "metadata id required".toList
def textBucketId : Str := "id (bucket name) required".toList
def textIdVersion : Str := "metadata id and version required".toList

/-- metadata_server.go:180-188 `ShouldBindMsgpack`, with the `GRPCError` of its callers.  (The text
of validation errors is not modelled.) -/
def bind {α : Type} (read : α → Bytes → R α) (fresh : α) (valid : α → Bool) (b : Bytes) : Except GoErr α :=
  match decodeMsgp read fresh b with
  | none => .error (badBody textInvalid)
  | some v => if valid v then .ok v else .error (invalidBody [])

/-- metadata_server.go:130-143 `SaveVersion` and service/metadata_service.go:41-60 `AddVersion`
without raft; `now` and `uid` are the time and the generated id. -/
def srvSaveVersion (now : Int) (uid : Str) (s : Meta.Store) (id : Str) (b : Bytes) :
    Except GoErr Int × Meta.Store :=
  if id = [] then (.error (.status .invalidArgument textId), s)
  else match bind readVersion {} validVersion b with
    | .error e => (.error e, s)
    | .ok m => match Meta.step s (.addVer id { metaOf m with uniqueId := uid, ts := now }) with
      | (.seq q, s') => (.ok (toInt32 q), s')
      | (.err e, s') => (.error (handlerErr .saveVersion (ofMeta e)), s')
      | (_, s') => (.error (.plain []), s')   -- `addVer` has no other answers

/-- metadata_server.go:86-99 `GetVersion` -/
def srvGetVersion (s : Meta.Store) (id : Str) (ver : Int) : Except GoErr Bytes :=
  if id = [] then .error (.status .invalidArgument textId)
  else match Meta.getVersion s id ver with
    | .error e => .error (handlerErr .getVersion (ofMeta e))
    | .ok v => .ok (encodeMsgp appendVersion (ofMetaV v))

/-- metadata_server.go:145-157 `UpdateVersion`, service/metadata_service.go:92-106. -/
def srvUpdateVersion (now : Int) (s : Meta.Store) (id : Str) (ver : Int) (b : Bytes) :
    Except GoErr Unit × Meta.Store :=
  if id = [] ∨ ver ≤ 0 then (.error (.status .invalidArgument textIdVersion), s)
  else match bind readVersion {} validVersion b with
    | .error e => (.error e, s)
    | .ok m => match Meta.step s (.updateVer id { metaOf m with ts := now, sequence := ver.toNat }) with
      | (.ok, s') => (.ok (), s')
      | (.err e, s') => (.error (handlerErr .updateVersion (ofMeta e)), s')
      | (_, s') => (.error (.plain []), s')

/-- metadata_server.go:115-128 `SaveBucket`, service/bucket_service.go:20-35. -/
def srvSaveBucket (now : Int) (s : Meta.Store) (id : Str) (b : Bytes) : Except GoErr Unit × Meta.Store :=
  if id = [] then (.error (.status .invalidArgument textId), s)
  else match bind readBucket {} (fun _ => true) b with
    | .error e => (.error e, s)
    | .ok m =>
      match Meta.step s (.bucketCreate { metaOfB m with name := id, createTime := now, updateTime := now }) with
      | (.ok, s') => (.ok (), s')
      | (.err e, s') => (.error (handlerErr .saveBucket (ofMeta e)), s')
      | (_, s') => (.error (.plain []), s')

/-- metadata_server.go:62-71 `GetBucket`: the stored bytes. -/
def srvGetBucket (s : Meta.Store) (id : Str) : Except GoErr Bytes :=
  if id = [] then .error (.status .invalidArgument textBucketId)
  else match Meta.bucketGet s id with
    | .error e => .error (handlerErr .getBucket (ofMeta e))
    | .ok b => .ok (encodeMsgp appendBucket (ofMetaB b))

/-- metadata_server.go:101-113 `SaveMetadata`, service/metadata_service.go:26-39. -/
def srvSaveMetadata (now : Int) (s : Meta.Store) (id : Str) (b : Bytes) : Except GoErr Unit × Meta.Store :=
  if id = [] then (.error (.status .invalidArgument textId), s)
  else match bind readMetadata {} validMetadata b with
    | .error e => (.error e, s)
    | .ok m => match Meta.step s (.addMeta id ⟨strOf m.name, strOf m.bucket, now, now⟩) with
      | (.ok, s') => (.ok (), s')
      | (.err e, s') => (.error (handlerErr .saveMetadata (ofMeta e)), s')
      | (_, s') => (.error (.plain []), s')

/-- metadata_server.go:72-85 `GetMetadata`, service/metadata_service.go:138-160 with version -1. -/
def srvGetMetadata (s : Meta.Store) (id : Str) (withExtra : Bool) : Except GoErr Bytes :=
  if id = [] then .error (.status .invalidArgument textId)
  else match Meta.getMeta s id with
    | .error e => .error (handlerErr .getMetadata (ofMeta e))
    | .ok m =>
      if withExtra then match Meta.getExtra s id with
        | .error e => .error (handlerErr .getMetadata (ofMeta e))
        | .ok x => .ok (encodeMsgp appendMetadata (ofMetaM m (some ⟨x.total, x.firstVersion, x.lastVersion⟩)))
      else .ok (encodeMsgp appendMetadata (ofMetaM m none))

/-! ## Client -/

/-- The answer of a call with the error as the client function passes it on.  `dflt` is what the
function returns besides a nil error from `ResolveErr`; it does not occur. -/
def call {α : Type} (r : Rpc) (dflt : α) : Except GoErr α → Except GoErr α
  | .ok a => .ok a
  | .error e => match clientErr r (wire e) with
    | some e' => .error e'
    | none => .ok dflt

/-- The response data decoded by the client. -/
def decoded {α β : Type} (read : α → Bytes → R α) (fresh : α) (f : α → β) : Except GoErr Bytes → Except GoErr β
  | .error e => .error e
  | .ok b => match decodeMsgp read fresh b with
    | none => .error (.plain [])
    | some v => .ok (f v)

/-- grpcapi/meta_server.go:144-169 `SaveVersion` -/
def saveVersion (now : Int) (uid : Str) (s : Meta.Store) (id : Str) (body : EVersion) :
    Except GoErr Int × Meta.Store :=
  let r := srvSaveVersion now uid s id (encodeMsgp appendVersion (msgOf body))
  (call .saveVersion 0 r.1, r.2)

/-- grpcapi/meta_server.go:44-72 `GetVersion` -/
def getVersion (s : Meta.Store) (id : Str) (ver : Int) : Except GoErr EVersion :=
  decoded readVersion {} entOf (call .getVersion [] (srvGetVersion s id ver))

/-- grpcapi/meta_server.go:120-142 `UpdateVersion`: `pb.Metadata.Version` is not set. -/
def updateVersion (now : Int) (s : Meta.Store) (id : Str) (body : EVersion) : Except GoErr Unit × Meta.Store :=
  let m := { msgOf body with sequence := twos 64 body.sequence }
  let r := srvUpdateVersion now s id 0 (encodeMsgp appendVersion m)
  (call .updateVersion () r.1, r.2)

/-- grpcapi/meta_server.go:188-210 `SaveBucket` -/
def saveBucket (now : Int) (s : Meta.Store) (body : EBucket) : Except GoErr Unit × Meta.Store :=
  let r := srvSaveBucket now s body.name (encodeMsgp appendBucket (msgOfB body))
  (call .saveBucket () r.1, r.2)

/-- grpcapi/meta_server.go:74-103 `GetBucket` -/
def getBucket (s : Meta.Store) (name : Str) : Except GoErr EBucket :=
  decoded readBucket {} entOfB (call .getBucket [] (srvGetBucket s name))

/-- grpcapi/meta_server.go:171-186 `SaveMetadata` -/
def saveMetadata (now : Int) (s : Meta.Store) (id : Str) (body : EMetadata) : Except GoErr Unit × Meta.Store :=
  let r := srvSaveMetadata now s id
    (encodeMsgp appendMetadata { name := bytesOf body.name, bucket := bytesOf body.bucket })
  (call .saveMetadata () r.1, r.2)

/-- grpcapi/meta_server.go:28-41: the entity. -/
def entOfM (withExtra : Bool) (m : Msgp.Metadata) : EMetadata :=
  let x : Msgp.Extra := if withExtra then m.extra.getD {} else {}
  { total := x.total, firstVersion := x.firstVersion, lastVersion := x.lastVersion
    name := strOf m.name, bucket := strOf m.bucket
    createTime := m.createTime, updateTime := m.updateTime }

/-- grpcapi/meta_server.go:12-42 `GetMetadata` -/
def getMetadata (s : Meta.Store) (id : Str) (withExtra : Bool) : Except GoErr EMetadata :=
  decoded readMetadata {} (entOfM withExtra) (call .getMetadata [] (srvGetMetadata s id withExtra))

end Verif.Api.MetaRpc
