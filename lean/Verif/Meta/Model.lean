import Verif.Common.KMap

/-!
# The metadata store

Model of the transactions of the metadata server:
src/metaserver/internal/usecase/logic/metadata_logic.go, hash_index_logic.go,
unique_id_index_logic.go, bucket_logic.go and the repositories that call them.

Simplifications, valid for the whole file:

* A bbolt database is one record with a field per root bucket.  A root bucket that does not exist
  yet is identified with an empty one.
* msgp encoding and decoding are the identity: a stored value is the record itself.  The store with
  the bytes that the generated codec writes is in Meta/Encoded; C131 proves that it does the same.
* Sizes: a key must have 1..32768 bytes (bbolt `MaxKeySize`); the limit of 2^31-2 bytes for values
  and I/O errors are not modelled.  Version numbers are unbounded naturals (in the code: uint64, read
  back through int64, so the model is exact below 2^63).
-/

namespace Verif.Meta

open Verif

/-- `msg.Metadata`, src/common/proto/msg/metadata.go:16-22.  `Extra` is computed on reading and
never stored (`AddMeta`, `UpdateMeta` set it to nil), so it is left out. -/
structure Metadata where
  name : Str
  bucket : Str
  createTime : Int
  updateTime : Int
  deriving DecidableEq, Repr

/-- `msg.Version`, metadata.go:28-40. -/
structure Version where
  compress : Bool
  storeStrategy : Int
  dataShards : Int
  parityShards : Int
  shardSize : Int
  size : Int
  ts : Int
  sequence : Nat
  hash : Str
  uniqueId : Str
  locate : List Str
  deriving DecidableEq, Repr

/-- `msg.Bucket`, metadata.go:46-58. -/
structure Bucket where
  versioning : Bool
  readonly : Bool
  compress : Bool
  storeStrategy : Int
  dataShards : Int
  parityShards : Int
  versionRemains : Int
  createTime : Int
  updateTime : Int
  name : Str
  policies : List Str
  deriving DecidableEq, Repr

/-- A version bucket: its bbolt sequence and its entries. -/
structure VBucket where
  seq : Nat
  items : KMap Version
  deriving DecidableEq

/-- The database file. -/
structure Store where
  metas : KMap Metadata          -- bucket "go.dfs.metadata.root"
  vers : KMap VBucket            -- bucket "go.dfs.version.root", one sub-bucket per object
  hashIdx : KMap (KMap Unit)     -- bucket "go.dfs.index.hashIndex", one sub-bucket per hash
  uidIdx : KMap (KMap Unit)      -- bucket "go.dfs.index.uniqueIdIndex", one sub-bucket per id
  buckets : KMap Bucket          -- bucket "go.dfs.bucket.root"
  applied : Nat                  -- sequence of bucket "…lastAppliedIndexKey"
  deriving DecidableEq

/-- A new database file. -/
def Store.empty : Store := ⟨.empty, .empty, .empty, .empty, .empty, 0⟩

/-- Errors; src/metaserver/internal/usecase/errors.go and bbolt's errors. -/
inductive Err
  | exists          -- ErrExists
  | notFound        -- ErrNotFound
  | oldData         -- ErrOldData
  | nilData         -- ErrNilData
  | readOnly        -- ErrReadOnly
  | unknownLog      -- ErrUnknownRaftLog
  | keyRequired     -- bbolt ErrKeyRequired
  | keyTooLarge     -- bbolt ErrKeyTooLarge
  | nameRequired    -- bbolt ErrBucketNameRequired
  | bucketExists    -- bbolt ErrBucketExists
  | bucketNotFound  -- bbolt ErrBucketNotFound
  | emptyName       -- "empty primary key 'Name'"
  | noHash          -- "version doesn't contains Hash value"
  | noUniqueId      -- "version doesn't contains UniqueId value"
  deriving DecidableEq, Repr

/-- A transaction function: the result and the state of the open transaction, also when it fails
in the middle. -/
abbrev Tx (α : Type) := Store → Except Err α × Store

/-- The key checks of bbolt's `Bucket.Put`. -/
def keyErr (k : Str) : Option Err :=
  if k = [] then some .keyRequired else if 32768 < k.length then some .keyTooLarge else none

/-- The key of a version: `fmt.Sprint(name, Sep, seq)`, metadata_logic.go:150, 178, 201, 225, 323. -/
def verKey (name : Str) (seq : Nat) : Str := name ++ '.' :: fmtNat seq

/-! ## Secondary indexes -/

/-- `AddIndex(k, key)`, hash_index_logic.go:20-29 and unique_id_index_logic.go:20-29, on the index
bucket `idx`. -/
def addIndex (idx : KMap (KMap Unit)) (k key : Str) : Except Err (KMap (KMap Unit)) :=
  if k = [] then .error .nameRequired
  else
    let b := (idx.get k).getD .empty
    match keyErr key with
    | some e => .error e
    | none => .ok (idx.put k (b.put key ()))

/-- `RemoveIndex(k, key)`, hash_index_logic.go:31-39 and unique_id_index_logic.go:31-39. -/
def removeIndex (idx : KMap (KMap Unit)) (k key : Str) : KMap (KMap Unit) :=
  match idx.get k with
  | some b => idx.put k (b.del key)
  | none => idx

/-- `GetIndex(k, &res)`, hash_index_logic.go:41-58 and unique_id_index_logic.go:41-58: the keys in
cursor order. -/
def getIndex (idx : KMap (KMap Unit)) (k : Str) : List Str :=
  match idx.get k with
  | some b => b.keys
  | none => []

/-! ## Metadata -/

/-- `CreateVersionBucket(tx, name)`, metadata_logic.go:279-288. -/
def createVersionBucket (name : Str) : Tx Unit := fun s =>
  if name = [] then (.error .nameRequired, s)
  else
    match s.vers.get name with
    | some _ => (.error .bucketExists, s)
    | none => (.ok (), { s with vers := s.vers.put name ⟨0, .empty⟩ })

/-- `RemoveVersionBucket(tx, name)`, metadata_logic.go:290-292. -/
def removeVersionBucket (name : Str) : Tx Unit := fun s =>
  match s.vers.get name with
  | some _ => (.ok (), { s with vers := s.vers.del name })
  | none => (.error .bucketNotFound, s)

/-- `AddMeta(id, data)`, metadata_logic.go:34-56. -/
def addMeta (id : Str) (data : Metadata) : Tx Unit := fun s =>
  match s.metas.get id with
  | some _ => (.error .exists, s)
  | none =>
    match createVersionBucket id s with
    | (.error e, s1) => (.error e, s1)
    | (.ok _, s1) =>
      match keyErr id with
      | some e => (.error e, s1)
      | none => (.ok (), { s1 with metas := s1.metas.put id data })

/-- `RemoveMeta(name)`, metadata_logic.go:58-75. -/
def removeMeta (name : Str) : Tx Unit := fun s =>
  match s.metas.get name with
  | none => (.ok (), s)
  | some _ =>
    let s1 := { s with metas := s.metas.del name }
    match removeVersionBucket name s1 with
    | (.error .bucketNotFound, s2) => (.ok (), s2)
    | r => r

/-- `getMeta`, `GetMeta(name)`, metadata_logic.go:99-103, 330-339. -/
def getMeta (s : Store) (name : Str) : Except Err Metadata :=
  match s.metas.get name with
  | some m => .ok m
  | none => .error .notFound

/-- `UpdateMeta(id, data)`, metadata_logic.go:77-97. -/
def updateMeta (id : Str) (data : Metadata) : Tx Unit := fun s =>
  match s.metas.get id with
  | none => (.error .notFound, s)
  | some origin =>
    if data.updateTime ≤ origin.updateTime then (.error .oldData, s)
    else
      let d := { data with bucket := origin.bucket, createTime := origin.createTime }
      match keyErr id with
      | some e => (.error e, s)
      | none => (.ok (), { s with metas := s.metas.put id d })

/-! ## Versions -/

/-- `GetVer(id, ver)`, `getVer`, metadata_logic.go:250-257, 319-328. -/
def getVer (s : Store) (name : Str) (ver : Nat) : Except Err Version :=
  match s.vers.get name with
  | none => .error .notFound
  | some b =>
    match b.items.get (verKey name ver) with
    | some v => .ok v
    | none => .error .notFound

/-- `ExistsByUniqueId(tx, uniqueId)`, metadata_logic.go:127-136. -/
def existsByUniqueId (s : Store) (uid : Str) : Bool := !(getIndex s.uidIdx uid).isEmpty

/-- The two index insertions at the end of `AddVer`, metadata_logic.go:190-193: first the hash
index under `h`, then the unique id index under `u`. -/
def addBoth (h u key : Str) : Tx Unit := fun s =>
  match addIndex s.hashIdx h key with
  | .error e => (.error e, s)
  | .ok hi =>
    let s1 := { s with hashIdx := hi }
    match addIndex s1.uidIdx u key with
    | .error e => (.error e, s1)
    | .ok ui => (.ok (), { s1 with uidIdx := ui })

/-- `AddVer(name, data)`, metadata_logic.go:171-197; returns the assigned sequence number. -/
def addVer (name : Str) (data : Version) : Tx Nat := fun s =>
  match s.vers.get name with
  | none => (.error .notFound, s)
  | some b =>
    if existsByUniqueId s data.uniqueId then (.error .exists, s)
    else
      let seq := b.seq + 1
      let b1 : VBucket := { b with seq := seq }
      let s1 := { s with vers := s.vers.put name b1 }
      let key := verKey name seq
      match b1.items.get key with
      | some _ => (.error .exists, s1)
      | none =>
        match keyErr key with
        | some e => (.error e, s1)
        | none =>
          let s2 := { s1 with
            vers := s1.vers.put name { b1 with items := b1.items.put key { data with sequence := seq } } }
          match addBoth data.hash data.uniqueId key s2 with
          | (.error e, s3) => (.error e, s3)
          | (.ok _, s3) => (.ok seq, s3)

/-- The two index insertions at the end of `AddVerWithSequence`, metadata_logic.go:161-165: first
the unique id index, *under the hash* (line 162), then the hash index. -/
def addBothMigrated (h key : Str) : Tx Unit := fun s =>
  match addIndex s.uidIdx h key with
  | .error e => (.error e, s)
  | .ok ui =>
    let s1 := { s with uidIdx := ui }
    match addIndex s1.hashIdx h key with
    | .error e => (.error e, s1)
    | .ok hi => (.ok (), { s1 with hashIdx := hi })

/-- `AddVerWithSequence(name, data)`, metadata_logic.go:138-169. -/
def addVerWithSequence (name : Str) (data : Version) : Tx Unit := fun s =>
  match s.vers.get name with
  | none => (.error .notFound, s)
  | some b =>
    if existsByUniqueId s data.uniqueId then (.error .exists, s)
    else
      let b1 : VBucket := if data.sequence > b.seq then { b with seq := data.sequence } else b
      let s1 := { s with vers := s.vers.put name b1 }
      let key := verKey name data.sequence
      match b1.items.get key with
      | some _ => (.error .exists, s1)
      | none =>
        match keyErr key with
        | some e => (.error e, s1)
        | none =>
          let s2 := { s1 with
            vers := s1.vers.put name { b1 with items := b1.items.put key data } }
          addBothMigrated data.hash key s2

/-- `RemoveVer(name, ver)`, metadata_logic.go:199-220.  Line 215 removes the entry of the unique id
index under the *hash* of the version. -/
def removeVer (name : Str) (ver : Nat) : Tx Unit := fun s =>
  match s.vers.get name with
  | none => (.ok (), s)
  | some b =>
    let key := verKey name ver
    match b.items.get key with
    | none => (.error .notFound, s)
    | some data =>
      (.ok (), { s with
        hashIdx := removeIndex s.hashIdx data.hash key
        uidIdx := removeIndex s.uidIdx data.hash key
        vers := s.vers.put name { b with items := b.items.del key } })

/-- `RemoveAllVersion(name)`, repo/metadata_repo.go:161-181, repo/batch_meta_repo.go:67-76. -/
def removeAllVersion (name : Str) : Tx Unit := fun s =>
  match removeVersionBucket name s with
  | (.error e, s1) => (.error e, s1)
  | (.ok _, s1) => createVersionBucket name s1

/-- `UpdateVer(id, data)`, metadata_logic.go:222-248. -/
def updateVer (name : Str) (data : Version) : Tx Unit := fun s =>
  match s.vers.get name with
  | none => (.error .notFound, s)
  | some b =>
    let key := verKey name data.sequence
    match b.items.get key with
    | none => (.error .notFound, s)
    | some origin =>
      if data.ts ≤ origin.ts then (.error .oldData, s)
      else
        let d := { data with
          uniqueId := origin.uniqueId, sequence := origin.sequence, hash := origin.hash }
        match keyErr key with
        | some e => (.error e, s)
        | none => (.ok (), { s with vers := s.vers.put name { b with items := b.items.put key d } })

/-! ## Reading version numbers -/

/-- `util.ToUint64(string)` and `util.ToInt(string)`, src/common/util/util.go:136-161, on the text
after the last separator of a key: the number, 0 when the text is no number.  Simplified: version
numbers of 2^63 and more, where the Go functions saturate, are not modelled. -/
def toUint64 (s : Str) : Nat := (parseDigits s).getD 0

/-- The version number in a key: the text after the last `.`; `none` when there is no `.`. -/
def keySeq (k : Str) : Option Nat := (cutLast '.' k).map fun p => toUint64 p.2

/-- `GetLastVersionNumber(name)`, repo/metadata_repo.go:204-223: 1 without a version bucket, 0 for
an empty one, otherwise the number in the *last key of the cursor*. -/
def lastVersionNumber (s : Store) (name : Str) : Nat :=
  match s.vers.get name with
  | none => 1
  | some b =>
    match b.items.keys.getLast? with
    | none => 0
    | some k => (keySeq k).getD 0

/-- `GetFirstVersionNumber(name)`, repo/metadata_repo.go:183-202. -/
def firstVersionNumber (s : Store) (name : Str) : Nat :=
  match s.vers.get name with
  | none => 1
  | some b =>
    match b.items.keys.head? with
    | none => 0
    | some k => (keySeq k).getD 0

/-- `msg.Extra`, metadata.go:10-14. -/
structure Extra where
  total : Nat
  firstVersion : Nat
  lastVersion : Nat
  deriving DecidableEq, Repr

/-- The number read by `GetExtra` from a key, metadata_logic.go:115-117, 120-122: the separator must
not be the first byte, and the field keeps its zero value otherwise. -/
def extraSeq (k : Option Str) : Nat :=
  match k.bind (cutLast '.') with
  | some (pre, post) => if pre = [] then 0 else toUint64 post
  | none => 0

/-- `GetExtra(id)`, metadata_logic.go:105-125. -/
def getExtra (s : Store) (name : Str) : Except Err Extra :=
  match s.vers.get name with
  | none => .error .notFound
  | some b =>
    .ok {
      total := b.items.size
      firstVersion := extraSeq b.items.keys.head?
      lastVersion := extraSeq b.items.keys.getLast? }

/-- `MetadataService.GetVersion(name, ver)`, service/metadata_service.go:162-167 (reading from the
database; the cache is modelled in `Verif.Meta.Cache`). -/
def getVersion (s : Store) (name : Str) (ver : Int) : Except Err Version :=
  if ver ≤ 0 then getVer s name (lastVersionNumber s name) else getVer s name ver.toNat

/-- `MetadataRepo.ListVersions(name, start, end)` without cache hits, repo/metadata_repo.go:240-269:
the cursor starts at the *text* key of `start` and collects `end - start + 1` entries. -/
def repoListVersions (s : Store) (name : Str) (start stop : Int) : Except Err (List Version × Nat) :=
  match s.vers.get name with
  | none => .error .notFound
  | some b =>
    .ok (((b.items.seek (name ++ '.' :: fmtInt start)).map (·.2)).take (stop - start + 1).toNat,
      b.items.size)

/-- `MetadataService.ListVersions(name, page, size)`, service/metadata_service.go:169-176. -/
def listVersions (s : Store) (name : Str) (page size : Int) : Except Err (List Version × Nat) :=
  let page := if page = 0 then 1 else page
  let start := (page - 1) * size + 1
  repoListVersions s name start (start + size)

/-- The cursor loop shared by `ListMetadata` (repo/metadata_repo.go:271-302) and `BucketCrud.List`
(logic/bucket_logic.go:117-149): entries from `Seek(prefix)`, stopping at the first key without the
prefix or after `size` entries; the total is the number of keys without a prefix, and the number
of returned entries with one. -/
def listPrefix {α : Type} (m : KMap α) (pre : Str) (size : Nat) : List α × Nat :=
  if pre ≠ [] then
    let l := (((m.seek pre).takeWhile fun e => hasPrefix e.1 pre).take size).map (·.2)
    (l, l.length)
  else ((m.entries.take size).map (·.2), m.size)

/-- `MetadataService.ListMetadata(prefix, size)`, service/metadata_service.go:178-183. -/
def listMetadata (s : Store) (pre : Str) (size : Nat) : List Metadata × Nat :=
  if size = 0 then ([], 0) else listPrefix s.metas pre size

/-- `BucketRepo.List(prefix, size)`, repo/bucket_repo.go:78-93. -/
def listBuckets (s : Store) (pre : Str) (size : Nat) : List Bucket × Nat :=
  listPrefix s.buckets pre size

/-! ## Search by hash -/

/-- `FindByHash(hash)`, service/metadata_service.go:205-229, as one uninterrupted run: the versions
found and the store after the entries that led to nothing were removed.  An index key without a
`.` cannot occur (it would make the Go code panic). -/
def findByHash (s : Store) (hash : Str) : List Version × Store :=
  let keys := getIndex s.hashIdx hash
  let look := fun k =>
    match cutLast '.' k with
    | none => Except.error Err.notFound
    | some (name, seq) => getVersion s name (toUint64 seq)
  let dead := keys.filter fun k => (look k).toOption.isNone
  (keys.filterMap fun k => (look k).toOption,
   { s with hashIdx := dead.foldl (fun idx k => removeIndex idx hash k) s.hashIdx })

/-- Replace element `i`; `none` is the index out of range panic. -/
def setNth (l : List Str) (i : Nat) (v : Str) : Option (List Str) :=
  if i < l.length then some (l.set i v) else none

/-- The loop of `UpdateLocateByHash`, repo/metadata_repo.go:390-411.  The outer `Option` is `none`
when the Go code panics. -/
def updateLocateLoop (now : Int) (index : Nat) (value : Str) :
    List Str → Store → Option (Except Err Unit × Store)
  | [], s => some (.ok (), s)
  | key :: keys, s =>
    match cutLast '.' key with
    | none => none
    | some (name, seq) =>
      match getVer s name (toUint64 seq) with
      | .error e => some (.error e, s)
      | .ok v =>
        match setNth v.locate index value with
        | none => none
        | some l =>
          match updateVer name { v with ts := now, locate := l } s with
          | (.error e, s1) => some (.error e, s1)
          | (.ok _, s1) => updateLocateLoop now index value keys s1

/-- `UpdateLocateByHash(hash, index, value)`, repo/metadata_repo.go:390-411. -/
def updateLocateByHash (now : Int) (hash : Str) (index : Nat) (value : Str) (s : Store) :
    Option (Except Err Unit × Store) :=
  updateLocateLoop now index value (getIndex s.hashIdx hash) s

/-! ## Buckets -/

/-- `BucketCrud.Get(name)`, logic/bucket_logic.go:35-47. -/
def bucketGet (s : Store) (name : Str) : Except Err Bucket :=
  match s.buckets.get name with
  | some b => .ok b
  | none => .error .notFound

/-- `BucketCrud.Create(data)`, logic/bucket_logic.go:63-82. -/
def bucketCreate (data : Bucket) : Tx Unit := fun s =>
  if data.name = [] then (.error .emptyName, s)
  else
    match s.buckets.get data.name with
    | some _ => (.error .exists, s)
    | none =>
      match keyErr data.name with
      | some e => (.error e, s)
      | none => (.ok (), { s with buckets := s.buckets.put data.name data })

/-- `BucketCrud.Delete(name)`, logic/bucket_logic.go:84-92. -/
def bucketDelete (name : Str) : Tx Unit := fun s =>
  (.ok (), { s with buckets := s.buckets.del name })

/-- `BucketCrud.Update(data)`, logic/bucket_logic.go:94-115. -/
def bucketUpdate (data : Bucket) : Tx Unit := fun s =>
  if data.name = [] then (.error .emptyName, s)
  else
    match s.buckets.get data.name with
    | none => (.error .notFound, s)
    | some origin =>
      if data.updateTime ≤ origin.updateTime then (.error .oldData, s)
      else
        match keyErr data.name with
        | some e => (.error e, s)
        | none =>
          (.ok (), { s with
            buckets := s.buckets.put data.name { data with createTime := origin.createTime } })

/-- `ApplyIndex(i)`, repo/metadata_repo.go:377-388. -/
def applyIndex (i : Nat) : Tx Unit := fun s =>
  if i > s.applied then (.ok (), { s with applied := i }) else (.ok (), s)

/-! ## Storage -/

/-- `Storage.Update(fn)` / `Storage.Batch(fn)`, db/storage.go:49-73, outside of a replacement:
bbolt commits the transaction when the function succeeds and drops it otherwise. -/
def update {α : Type} (fn : Tx α) (s : Store) : Except Err α × Store :=
  match fn s with
  | (.ok a, s') => (.ok a, s')
  | (.error e, _) => (.error e, s)

/-- The write operations of the metadata server, as the repositories offer them
(repo/metadata_repo.go, repo/bucket_repo.go, repo/hash_index_repo.go). -/
inductive Op
  | addMeta (id : Str) (data : Metadata)
  | updateMeta (id : Str) (data : Metadata)
  | removeMeta (id : Str)
  | addVer (name : Str) (data : Version)
  | migrateVer (name : Str) (data : Version)       -- AddVersionFromRaft
  | updateVer (name : Str) (data : Version)
  | removeVer (name : Str) (ver : Nat)
  | removeAllVersion (name : Str)
  | updateLocate (now : Int) (hash : Str) (index : Nat) (value : Str)
  | findByHash (hash : Str)
  | bucketCreate (data : Bucket)
  | bucketUpdate (data : Bucket)
  | bucketDelete (name : Str)
  | applyIndex (i : Nat)
  deriving DecidableEq

/-- What an operation answers. -/
inductive Res
  | ok
  | seq (n : Nat)                -- the number given to an added version
  | versions (l : List Version)  -- the result of a search
  | err (e : Err)
  | panic
  deriving DecidableEq

def Res.ofUnit : Except Err Unit → Res
  | .ok _ => .ok
  | .error e => .err e

/-- `MetadataRepo.AddVersion`, repo/metadata_repo.go:92-111. -/
def repoAddVersion (name : Str) (data : Version) (s : Store) : Except Err Nat × Store :=
  if data.hash = [] then (.error .noHash, s)
  else if data.uniqueId = [] then (.error .noUniqueId, s)
  else update (addVer name data) s

/-- `MetadataRepo.AddVersionFromRaft`, repo/metadata_repo.go:113-132. -/
def repoMigrateVersion (name : Str) (data : Version) (s : Store) : Except Err Unit × Store :=
  if data.hash = [] then (.error .noHash, s)
  else if data.uniqueId = [] then (.error .noUniqueId, s)
  else update (addVerWithSequence name data) s

/-- One operation on the store. -/
def step (s : Store) : Op → Res × Store
  | .addMeta id d => let r := update (addMeta id d) s; (.ofUnit r.1, r.2)
  | .updateMeta id d => let r := update (updateMeta id d) s; (.ofUnit r.1, r.2)
  | .removeMeta id => let r := update (removeMeta id) s; (.ofUnit r.1, r.2)
  | .addVer n d =>
    match repoAddVersion n d s with
    | (.ok q, s') => (.seq q, s')
    | (.error e, s') => (.err e, s')
  | .migrateVer n d => let r := repoMigrateVersion n d s; (.ofUnit r.1, r.2)
  | .updateVer n d => let r := update (updateVer n d) s; (.ofUnit r.1, r.2)
  | .removeVer n v => let r := update (removeVer n v) s; (.ofUnit r.1, r.2)
  | .removeAllVersion n => let r := update (removeAllVersion n) s; (.ofUnit r.1, r.2)
  | .updateLocate now h i v =>
    match updateLocateByHash now h i v s with
    | none => (.panic, s)
    | some (.ok _, s') => (.ok, s')
    | some (.error e, _) => (.err e, s)
  | .findByHash h => let r := findByHash s h; (.versions r.1, r.2)
  | .bucketCreate d => let r := update (bucketCreate d) s; (.ofUnit r.1, r.2)
  | .bucketUpdate d => let r := update (bucketUpdate d) s; (.ofUnit r.1, r.2)
  | .bucketDelete n => let r := update (bucketDelete n) s; (.ofUnit r.1, r.2)
  | .applyIndex i => let r := update (applyIndex i) s; (.ofUnit r.1, r.2)

/-- A history: the answers and the final store. -/
def run : Store → List Op → List Res × Store
  | s, [] => ([], s)
  | s, op :: ops =>
    let r := step s op
    let rest := run r.2 ops
    (r.1 :: rest.1, rest.2)

/-- Stores the server can be in: reached from a new database by some history. -/
def Reachable (s : Store) : Prop := ∃ ops, (run .empty ops).2 = s

end Verif.Meta
