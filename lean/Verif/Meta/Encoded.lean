import Verif.Meta.Lemmas
import Verif.Msgp.Props

/-!
# The metadata store on bytes (C131)

`Verif.Meta.Model` takes a stored value to be the record itself.  In bbolt a value is a string of bytes that `util.EncodeMsgp` made and
`util.DecodeMsgp` reads.  Here the transactions of src/metaserver/internal/usecase/logic/metadata_logic.go and bucket_logic.go are written
once more, on bytes, with the generated codecs of `Verif.Msgp` (C73) and with the error that decoding can return, and are shown to do
what the transactions on records do.

Simplified as in `Verif.Meta.Model`, but for the encoding.  A character of a string is a byte.
-/

namespace Verif

namespace KMap

variable {α β : Type}

/-- The same keys with other values. -/
def map (f : α → β) (m : KMap α) : KMap β :=
  ⟨m.entries.map fun e => (e.1, f e.2), List.pairwise_map.2 m.sorted⟩

theorem entries_map (f : α → β) (m : KMap α) : (m.map f).entries = m.entries.map fun e => (e.1, f e.2) := rfl

theorem get_map (f : α → β) (m : KMap α) (k : Str) : (m.map f).get k = (m.get k).map f := by
  show rawGet (m.entries.map _) k = (rawGet m.entries k).map f
  induction m.entries with
  | nil => rfl
  | cons e l ih =>
    obtain ⟨k', v⟩ := e
    simp only [List.map_cons, rawGet]
    split
    · rfl
    · exact ih

theorem map_put (f : α → β) (m : KMap α) (k : Str) (v : α) : (m.put k v).map f = (m.map f).put k (f v) := by
  apply ext_get
  intro k'
  rw [get_map, get_put, get_put, get_map]
  split <;> rfl

theorem map_del (f : α → β) (m : KMap α) (k : Str) : (m.del k).map f = (m.map f).del k := by
  apply ext_get
  intro k'
  rw [get_map, get_del, get_del, get_map]
  split <;> rfl

theorem map_empty (f : α → β) : (empty : KMap α).map f = empty := rfl

theorem keys_map (f : α → β) (m : KMap α) : (m.map f).keys = m.keys := by
  unfold keys
  rw [entries_map, List.map_map]
  rfl

theorem size_map (f : α → β) (m : KMap α) : (m.map f).size = m.size := by
  unfold size
  rw [entries_map, List.length_map]

theorem seek_map (f : α → β) (m : KMap α) (k : Str) : (m.map f).seek k = (m.seek k).map fun e => (e.1, f e.2) := by
  unfold seek
  rw [entries_map]
  induction m.entries with
  | nil => rfl
  | cons e l ih =>
    simp only [List.map_cons, List.dropWhile_cons]
    split
    · exact ih
    · rfl

end KMap

end Verif

namespace Verif.Meta.Encoded

open Verif Verif.Meta

abbrev Bytes := Msgp.Bytes

/-! ## Records and bytes -/

/-- The bytes of a Go string. -/
def text (s : Str) : Bytes := s.map Char.toNat

def untext (b : Bytes) : Str := b.map Char.ofNat

/-- `msg.Metadata` without `Extra`, which is nil in the database. -/
def ofMeta (m : Metadata) : Msgp.Metadata := ⟨none, text m.name, text m.bucket, m.createTime, m.updateTime⟩

def toMeta (m : Msgp.Metadata) : Metadata := ⟨untext m.name, untext m.bucket, m.createTime, m.updateTime⟩

def ofVer (v : Version) : Msgp.Version :=
  ⟨v.compress, v.storeStrategy, v.dataShards, v.parityShards, v.shardSize, v.size, v.ts, v.sequence, text v.hash, text v.uniqueId,
    v.locate.map text⟩

def toVer (v : Msgp.Version) : Version :=
  ⟨v.compress, v.storeStrategy, v.dataShards, v.parityShards, v.shardSize, v.size, v.ts, v.sequence, untext v.hash, untext v.uniqueId,
    v.locate.map untext⟩

def ofBucket (b : Bucket) : Msgp.Bucket :=
  ⟨b.versioning, b.readonly, b.compress, b.storeStrategy, b.dataShards, b.parityShards, b.versionRemains, b.createTime, b.updateTime,
    text b.name, b.policies.map text⟩

def toBucket (b : Msgp.Bucket) : Bucket :=
  ⟨b.versioning, b.readonly, b.compress, b.storeStrategy, b.dataShards, b.parityShards, b.versionRemains, b.createTime, b.updateTime,
    untext b.name, b.policies.map untext⟩

/-- `util.EncodeMsgp` of the three records, common/util/util.go:202-209; `MarshalMsg` of these records returns no error. -/
def encMeta (m : Metadata) : Bytes := Msgp.encodeMsgp Msgp.appendMetadata (ofMeta m)

def encVer (v : Version) : Bytes := Msgp.encodeMsgp Msgp.appendVersion (ofVer v)

def encBucket (b : Bucket) : Bytes := Msgp.encodeMsgp Msgp.appendBucket (ofBucket b)

/-- `util.DecodeMsgp` into a new record, common/util/util.go:194-200. -/
def decMeta (b : Bytes) : Option Metadata := (Msgp.decodeMsgp Msgp.readMetadata {} b).map toMeta

/-- `util.DecodeMsgp` into a version that has been used before. -/
def decVerInto (z : Version) (b : Bytes) : Option Version := (Msgp.decodeMsgp Msgp.readVersion (ofVer z) b).map toVer

def zeroVer : Version := ⟨false, 0, 0, 0, 0, 0, 0, 0, [], [], []⟩

def decVer (b : Bytes) : Option Version := decVerInto zeroVer b

def decBucket (b : Bytes) : Option Bucket := (Msgp.decodeMsgp Msgp.readBucket {} b).map toBucket

/-! ## The transactions on bytes -/

/-- A version bucket: its bbolt sequence and its entries. -/
structure BVBucket where
  seq : Nat
  items : KMap Bytes

/-- The database file. -/
structure BStore where
  metas : KMap Bytes
  vers : KMap BVBucket
  hashIdx : KMap (KMap Unit)
  uidIdx : KMap (KMap Unit)
  buckets : KMap Bytes
  applied : Nat

/-- A new database file. -/
def BStore.empty : BStore := ⟨.empty, .empty, .empty, .empty, .empty, 0⟩

/-- The errors: those of the model on records, and the error of `util.DecodeMsgp`. -/
inductive BErr
  | err (e : Err)
  | decode
  deriving DecidableEq

abbrev BTx (α : Type) := BStore → Except BErr α × BStore

/-- `CreateVersionBucket(tx, name)`, metadata_logic.go:279-288. -/
def createVersionBucket (name : Str) : BTx Unit := fun s =>
  if name = [] then (.error (.err .nameRequired), s)
  else
    match s.vers.get name with
    | some _ => (.error (.err .bucketExists), s)
    | none => (.ok (), { s with vers := s.vers.put name ⟨0, .empty⟩ })

/-- `RemoveVersionBucket(tx, name)`, metadata_logic.go:290-292. -/
def removeVersionBucket (name : Str) : BTx Unit := fun s =>
  match s.vers.get name with
  | some _ => (.ok (), { s with vers := s.vers.del name })
  | none => (.error (.err .bucketNotFound), s)

/-- `AddMeta(id, data)`, metadata_logic.go:34-56. -/
def addMeta (id : Str) (data : Metadata) : BTx Unit := fun s =>
  match s.metas.get id with
  | some _ => (.error (.err .exists), s)
  | none =>
    let bt := encMeta data
    match createVersionBucket id s with
    | (.error e, s1) => (.error e, s1)
    | (.ok _, s1) =>
      match keyErr id with
      | some e => (.error (.err e), s1)
      | none => (.ok (), { s1 with metas := s1.metas.put id bt })

/-- `RemoveMeta(name)`, metadata_logic.go:58-75. -/
def removeMeta (name : Str) : BTx Unit := fun s =>
  match s.metas.get name with
  | none => (.ok (), s)
  | some _ =>
    let s1 := { s with metas := s.metas.del name }
    match removeVersionBucket name s1 with
    | (.error (.err .bucketNotFound), s2) => (.ok (), s2)
    | r => r

/-- `getMeta`, metadata_logic.go:330-339. -/
def getMeta (s : BStore) (name : Str) : Except BErr Metadata :=
  match s.metas.get name with
  | none => .error (.err .notFound)
  | some bt =>
    match decMeta bt with
    | some m => .ok m
    | none => .error .decode

/-- `UpdateMeta(id, data)`, metadata_logic.go:77-97. -/
def updateMeta (id : Str) (data : Metadata) : BTx Unit := fun s =>
  match getMeta s id with
  | .error e => (.error e, s)
  | .ok origin =>
    if data.updateTime ≤ origin.updateTime then (.error (.err .oldData), s)
    else
      let bt := encMeta { data with bucket := origin.bucket, createTime := origin.createTime }
      match keyErr id with
      | some e => (.error (.err e), s)
      | none => (.ok (), { s with metas := s.metas.put id bt })

/-- `getVer(bucket, id, ver, dest)`, metadata_logic.go:319-328; `z` is what `dest` held before. -/
def getVerIn (z : Version) (b : BVBucket) (name : Str) (ver : Nat) : Except BErr Version :=
  match b.items.get (verKey name ver) with
  | none => .error (.err .notFound)
  | some bt =>
    match decVerInto z bt with
    | some v => .ok v
    | none => .error .decode

/-- `GetVer(id, ver, dest)`, metadata_logic.go:250-257. -/
def getVerInto (z : Version) (s : BStore) (name : Str) (ver : Nat) : Except BErr Version :=
  match s.vers.get name with
  | none => .error (.err .notFound)
  | some b => getVerIn z b name ver

/-- `ExistsByUniqueId(tx, uniqueId)`, metadata_logic.go:127-136. -/
def existsByUniqueId (s : BStore) (uid : Str) : Bool := !(getIndex s.uidIdx uid).isEmpty

/-- The two index insertions at the end of `AddVer`, metadata_logic.go:190-193. -/
def addBoth (h u key : Str) : BTx Unit := fun s =>
  match addIndex s.hashIdx h key with
  | .error e => (.error (.err e), s)
  | .ok hi =>
    let s1 := { s with hashIdx := hi }
    match addIndex s1.uidIdx u key with
    | .error e => (.error (.err e), s1)
    | .ok ui => (.ok (), { s1 with uidIdx := ui })

/-- `AddVer(name, data)`, metadata_logic.go:171-197. -/
def addVer (name : Str) (data : Version) : BTx Nat := fun s =>
  match s.vers.get name with
  | none => (.error (.err .notFound), s)
  | some b =>
    if existsByUniqueId s data.uniqueId then (.error (.err .exists), s)
    else
      let seq := b.seq + 1
      let b1 : BVBucket := { b with seq := seq }
      let s1 := { s with vers := s.vers.put name b1 }
      let key := verKey name seq
      match b1.items.get key with
      | some _ => (.error (.err .exists), s1)
      | none =>
        let bt := encVer { data with sequence := seq }
        match keyErr key with
        | some e => (.error (.err e), s1)
        | none =>
          let s2 := { s1 with vers := s1.vers.put name { b1 with items := b1.items.put key bt } }
          match addBoth data.hash data.uniqueId key s2 with
          | (.error e, s3) => (.error e, s3)
          | (.ok _, s3) => (.ok seq, s3)

/-- The two index insertions at the end of `AddVerWithSequence`, metadata_logic.go:161-165. -/
def addBothMigrated (h key : Str) : BTx Unit := fun s =>
  match addIndex s.uidIdx h key with
  | .error e => (.error (.err e), s)
  | .ok ui =>
    let s1 := { s with uidIdx := ui }
    match addIndex s1.hashIdx h key with
    | .error e => (.error (.err e), s1)
    | .ok hi => (.ok (), { s1 with hashIdx := hi })

/-- `AddVerWithSequence(name, data)`, metadata_logic.go:138-169. -/
def addVerWithSequence (name : Str) (data : Version) : BTx Unit := fun s =>
  match s.vers.get name with
  | none => (.error (.err .notFound), s)
  | some b =>
    if existsByUniqueId s data.uniqueId then (.error (.err .exists), s)
    else
      let b1 : BVBucket := if data.sequence > b.seq then { b with seq := data.sequence } else b
      let s1 := { s with vers := s.vers.put name b1 }
      let key := verKey name data.sequence
      match b1.items.get key with
      | some _ => (.error (.err .exists), s1)
      | none =>
        let bt := encVer data
        match keyErr key with
        | some e => (.error (.err e), s1)
        | none => addBothMigrated data.hash key { s1 with vers := s1.vers.put name { b1 with items := b1.items.put key bt } }

/-- `RemoveVer(name, ver)`, metadata_logic.go:199-220. -/
def removeVer (name : Str) (ver : Nat) : BTx Unit := fun s =>
  match s.vers.get name with
  | none => (.ok (), s)
  | some b =>
    let key := verKey name ver
    match getVerIn zeroVer b name ver with
    | .error e => (.error e, s)
    | .ok data =>
      (.ok (), { s with
        hashIdx := removeIndex s.hashIdx data.hash key
        uidIdx := removeIndex s.uidIdx data.hash key
        vers := s.vers.put name { b with items := b.items.del key } })

/-- `RemoveAllVersion(name)`, repo/metadata_repo.go:161-181. -/
def removeAllVersion (name : Str) : BTx Unit := fun s =>
  match removeVersionBucket name s with
  | (.error e, s1) => (.error e, s1)
  | (.ok _, s1) => createVersionBucket name s1

/-- `UpdateVer(id, data)`, metadata_logic.go:222-248. -/
def updateVer (name : Str) (data : Version) : BTx Unit := fun s =>
  match s.vers.get name with
  | none => (.error (.err .notFound), s)
  | some b =>
    let key := verKey name data.sequence
    match getVerIn zeroVer b name data.sequence with
    | .error e => (.error e, s)
    | .ok origin =>
      if data.ts ≤ origin.ts then (.error (.err .oldData), s)
      else
        let bt := encVer { data with uniqueId := origin.uniqueId, sequence := origin.sequence, hash := origin.hash }
        match keyErr key with
        | some e => (.error (.err e), s)
        | none => (.ok (), { s with vers := s.vers.put name { b with items := b.items.put key bt } })

/-- The loop of `UpdateLocateByHash`, repo/metadata_repo.go:390-411; `z` is the variable `v`, which all iterations decode into. -/
def updateLocateLoop (now : Int) (index : Nat) (value : Str) : Version → List Str → BStore → Option (Except BErr Unit × BStore)
  | _, [], s => some (.ok (), s)
  | z, key :: keys, s =>
    match cutLast '.' key with
    | none => none
    | some (name, seq) =>
      match getVerInto z s name (toUint64 seq) with
      | .error e => some (.error e, s)
      | .ok v =>
        match setNth v.locate index value with
        | none => none
        | some l =>
          let v1 := { v with ts := now, locate := l }
          match updateVer name v1 s with
          | (.error e, s1) => some (.error e, s1)
          | (.ok _, s1) => updateLocateLoop now index value v1 keys s1

/-- `UpdateLocateByHash(hash, index, value)`, repo/metadata_repo.go:390-411. -/
def updateLocateByHash (now : Int) (hash : Str) (index : Nat) (value : Str) (s : BStore) : Option (Except BErr Unit × BStore) :=
  updateLocateLoop now index value zeroVer (getIndex s.hashIdx hash) s

/-- `GetLastVersionNumber(name)`, repo/metadata_repo.go:204-223. -/
def lastVersionNumber (s : BStore) (name : Str) : Nat :=
  match s.vers.get name with
  | none => 1
  | some b =>
    match b.items.keys.getLast? with
    | none => 0
    | some k => (keySeq k).getD 0

/-- `MetadataService.GetVersion(name, ver)`, service/metadata_service.go:162-167, without the cache. -/
def getVersion (s : BStore) (name : Str) (ver : Int) : Except BErr Version :=
  if ver ≤ 0 then getVerInto zeroVer s name (lastVersionNumber s name) else getVerInto zeroVer s name ver.toNat

/-- What `FindByHash` looks up for a key of the index, service/metadata_service.go:213-215; see `Verif.Meta.findByHash` about keys
without `.`. -/
def look (s : BStore) (k : Str) : Except BErr Version :=
  match cutLast '.' k with
  | none => .error (.err .notFound)
  | some (name, seq) => getVersion s name (toUint64 seq)

/-- The loop of `FindByHash`, service/metadata_service.go:212-224: entries that lead to nothing are removed, other errors end it. -/
def findLoop (hash : Str) : List Str → BStore → Except BErr (List Version) × BStore
  | [], s => (.ok [], s)
  | k :: ks, s =>
    match look s k with
    | .error (.err .notFound) => findLoop hash ks { s with hashIdx := removeIndex s.hashIdx hash k }
    | .error e => (.error e, s)
    | .ok v =>
      match findLoop hash ks s with
      | (.ok l, s') => (.ok (v :: l), s')
      | r => r

/-- `FindByHash(hash)`, service/metadata_service.go:205-229. -/
def findByHash (s : BStore) (hash : Str) : Except BErr (List Version) × BStore := findLoop hash (getIndex s.hashIdx hash) s

/-- The decoding of a list: the loops of `ListVersions` (repo/metadata_repo.go:254-260), `ListMetadata` (287-299) and `BucketCrud.List`
(bucket_logic.go:132-146) over entries already selected. -/
def decodeAll {α : Type} (dec : Bytes → Option α) : List (Str × Bytes) → Except BErr (List α)
  | [] => .ok []
  | e :: l =>
    match dec e.2 with
    | none => .error .decode
    | some x =>
      match decodeAll dec l with
      | .ok xs => .ok (x :: xs)
      | .error e => .error e

/-- `MetadataRepo.ListVersions`, repo/metadata_repo.go:240-269, without cache hits. -/
def repoListVersions (s : BStore) (name : Str) (start stop : Int) : Except BErr (List Version × Nat) :=
  match s.vers.get name with
  | none => .error (.err .notFound)
  | some b =>
    match decodeAll decVer ((b.items.seek (name ++ '.' :: fmtInt start)).take (stop - start + 1).toNat) with
    | .ok l => .ok (l, b.items.size)
    | .error e => .error e

/-- The cursor loops of `ListMetadata` and `BucketCrud.List`, see `Verif.Meta.listPrefix`. -/
def listPrefix {α : Type} (dec : Bytes → Option α) (m : KMap Bytes) (pre : Str) (size : Nat) : Except BErr (List α × Nat) :=
  if pre ≠ [] then
    match decodeAll dec (((m.seek pre).takeWhile fun e => hasPrefix e.1 pre).take size) with
    | .ok l => .ok (l, l.length)
    | .error e => .error e
  else
    match decodeAll dec (m.entries.take size) with
    | .ok l => .ok (l, m.size)
    | .error e => .error e

/-- `BucketCrud.Get(name)`, bucket_logic.go:35-47. -/
def bucketGet (s : BStore) (name : Str) : Except BErr Bucket :=
  match s.buckets.get name with
  | none => .error (.err .notFound)
  | some bt =>
    match decBucket bt with
    | some b => .ok b
    | none => .error .decode

/-- `BucketCrud.Create(data)`, bucket_logic.go:63-82. -/
def bucketCreate (data : Bucket) : BTx Unit := fun s =>
  if data.name = [] then (.error (.err .emptyName), s)
  else
    match s.buckets.get data.name with
    | some _ => (.error (.err .exists), s)
    | none =>
      let v := encBucket data
      match keyErr data.name with
      | some e => (.error (.err e), s)
      | none => (.ok (), { s with buckets := s.buckets.put data.name v })

/-- `BucketCrud.Delete(name)`, bucket_logic.go:84-92. -/
def bucketDelete (name : Str) : BTx Unit := fun s => (.ok (), { s with buckets := s.buckets.del name })

/-- `BucketCrud.Update(data)`, bucket_logic.go:94-115. -/
def bucketUpdate (data : Bucket) : BTx Unit := fun s =>
  if data.name = [] then (.error (.err .emptyName), s)
  else
    match bucketGet s data.name with
    | .error e => (.error e, s)
    | .ok origin =>
      if data.updateTime ≤ origin.updateTime then (.error (.err .oldData), s)
      else
        let v := encBucket { data with createTime := origin.createTime }
        match keyErr data.name with
        | some e => (.error (.err e), s)
        | none => (.ok (), { s with buckets := s.buckets.put data.name v })

/-- `ApplyIndex(i)`, repo/metadata_repo.go:377-388. -/
def applyIndex (i : Nat) : BTx Unit := fun s => if i > s.applied then (.ok (), { s with applied := i }) else (.ok (), s)

/-- `Storage.Update(fn)`, db/storage.go:49-60. -/
def update {α : Type} (fn : BTx α) (s : BStore) : Except BErr α × BStore :=
  match fn s with
  | (.ok a, s') => (.ok a, s')
  | (.error e, _) => (.error e, s)

/-- What an operation answers. -/
inductive BRes
  | ok
  | seq (n : Nat)
  | versions (l : List Version)
  | err (e : BErr)
  | panic
  deriving DecidableEq

def BRes.ofUnit : Except BErr Unit → BRes
  | .ok _ => .ok
  | .error e => .err e

/-- One operation on the database file, see `Verif.Meta.step`. -/
def step (s : BStore) : Op → BRes × BStore
  | .addMeta id d => let r := update (addMeta id d) s; (.ofUnit r.1, r.2)
  | .updateMeta id d => let r := update (updateMeta id d) s; (.ofUnit r.1, r.2)
  | .removeMeta id => let r := update (removeMeta id) s; (.ofUnit r.1, r.2)
  | .addVer n d =>
    if d.hash = [] then (.err (.err .noHash), s)
    else if d.uniqueId = [] then (.err (.err .noUniqueId), s)
    else
      match update (addVer n d) s with
      | (.ok q, s') => (.seq q, s')
      | (.error e, s') => (.err e, s')
  | .migrateVer n d =>
    if d.hash = [] then (.err (.err .noHash), s)
    else if d.uniqueId = [] then (.err (.err .noUniqueId), s)
    else let r := update (addVerWithSequence n d) s; (.ofUnit r.1, r.2)
  | .updateVer n d => let r := update (updateVer n d) s; (.ofUnit r.1, r.2)
  | .removeVer n v => let r := update (removeVer n v) s; (.ofUnit r.1, r.2)
  | .removeAllVersion n => let r := update (removeAllVersion n) s; (.ofUnit r.1, r.2)
  | .updateLocate now h i v =>
    match updateLocateByHash now h i v s with
    | none => (.panic, s)
    | some (.ok _, s') => (.ok, s')
    | some (.error e, _) => (.err e, s)
  | .findByHash h =>
    match findByHash s h with
    | (.ok l, s') => (.versions l, s')
    | (.error e, s') => (.err e, s')
  | .bucketCreate d => let r := update (bucketCreate d) s; (.ofUnit r.1, r.2)
  | .bucketUpdate d => let r := update (bucketUpdate d) s; (.ofUnit r.1, r.2)
  | .bucketDelete n => let r := update (bucketDelete n) s; (.ofUnit r.1, r.2)
  | .applyIndex i => let r := update (applyIndex i) s; (.ofUnit r.1, r.2)

/-- A history: the answers and the final database file. -/
def run : BStore → List Op → List BRes × BStore
  | s, [] => ([], s)
  | s, op :: ops =>
    let r := step s op
    let rest := run r.2 ops
    (r.1 :: rest.1, rest.2)

end Verif.Meta.Encoded
