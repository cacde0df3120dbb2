import Verif.Msgp.Prim

/-!
# The generated record codecs

The `MarshalMsg` and `UnmarshalMsg` methods that `msgp` generated for the records goodfs stores or
sends.  Field order, literal bytes and the order of the `case`s are those of the generated files.
A Go string is its bytes; an `int` has 64 bits; a `float64` is its bit pattern; a
`datasize.DataSize` is a `uint64` (common/datasize/msgpack.go:15-24); a nil slice is an empty slice.
-/

namespace Verif.Msgp

/-! ## Field names

The names the generated switches compare with. -/

/-- The field name `total` in the generated switches. -/
def key_total : Bytes := [0x74, 0x6f, 0x74, 0x61, 0x6c]
example : key_total = "total".toList.map Char.toNat := by decide

/-- The field name `first_version` in the generated switches. -/
def key_first_version : Bytes := [0x66, 0x69, 0x72, 0x73, 0x74, 0x5f, 0x76, 0x65, 0x72, 0x73, 0x69, 0x6f, 0x6e]
example : key_first_version = "first_version".toList.map Char.toNat := by decide

/-- The field name `last_version` in the generated switches. -/
def key_last_version : Bytes := [0x6c, 0x61, 0x73, 0x74, 0x5f, 0x76, 0x65, 0x72, 0x73, 0x69, 0x6f, 0x6e]
example : key_last_version = "last_version".toList.map Char.toNat := by decide

/-- The field name `Extra` in the generated switches. -/
def key_Extra : Bytes := [0x45, 0x78, 0x74, 0x72, 0x61]
example : key_Extra = "Extra".toList.map Char.toNat := by decide

/-- The field name `name` in the generated switches. -/
def key_name : Bytes := [0x6e, 0x61, 0x6d, 0x65]
example : key_name = "name".toList.map Char.toNat := by decide

/-- The field name `bucket` in the generated switches. -/
def key_bucket : Bytes := [0x62, 0x75, 0x63, 0x6b, 0x65, 0x74]
example : key_bucket = "bucket".toList.map Char.toNat := by decide

/-- The field name `create_time` in the generated switches. -/
def key_create_time : Bytes := [0x63, 0x72, 0x65, 0x61, 0x74, 0x65, 0x5f, 0x74, 0x69, 0x6d, 0x65]
example : key_create_time = "create_time".toList.map Char.toNat := by decide

/-- The field name `update_time` in the generated switches. -/
def key_update_time : Bytes := [0x75, 0x70, 0x64, 0x61, 0x74, 0x65, 0x5f, 0x74, 0x69, 0x6d, 0x65]
example : key_update_time = "update_time".toList.map Char.toNat := by decide

/-- The field name `compress` in the generated switches. -/
def key_compress : Bytes := [0x63, 0x6f, 0x6d, 0x70, 0x72, 0x65, 0x73, 0x73]
example : key_compress = "compress".toList.map Char.toNat := by decide

/-- The field name `store_strategy` in the generated switches. -/
def key_store_strategy : Bytes := [0x73, 0x74, 0x6f, 0x72, 0x65, 0x5f, 0x73, 0x74, 0x72, 0x61, 0x74, 0x65, 0x67, 0x79]
example : key_store_strategy = "store_strategy".toList.map Char.toNat := by decide

/-- The field name `data_shards` in the generated switches. -/
def key_data_shards : Bytes := [0x64, 0x61, 0x74, 0x61, 0x5f, 0x73, 0x68, 0x61, 0x72, 0x64, 0x73]
example : key_data_shards = "data_shards".toList.map Char.toNat := by decide

/-- The field name `parity_shards` in the generated switches. -/
def key_parity_shards : Bytes := [0x70, 0x61, 0x72, 0x69, 0x74, 0x79, 0x5f, 0x73, 0x68, 0x61, 0x72, 0x64, 0x73]
example : key_parity_shards = "parity_shards".toList.map Char.toNat := by decide

/-- The field name `shard_size` in the generated switches. -/
def key_shard_size : Bytes := [0x73, 0x68, 0x61, 0x72, 0x64, 0x5f, 0x73, 0x69, 0x7a, 0x65]
example : key_shard_size = "shard_size".toList.map Char.toNat := by decide

/-- The field name `size` in the generated switches. -/
def key_size : Bytes := [0x73, 0x69, 0x7a, 0x65]
example : key_size = "size".toList.map Char.toNat := by decide

/-- The field name `ts` in the generated switches. -/
def key_ts : Bytes := [0x74, 0x73]
example : key_ts = "ts".toList.map Char.toNat := by decide

/-- The field name `sequence` in the generated switches. -/
def key_sequence : Bytes := [0x73, 0x65, 0x71, 0x75, 0x65, 0x6e, 0x63, 0x65]
example : key_sequence = "sequence".toList.map Char.toNat := by decide

/-- The field name `hash` in the generated switches. -/
def key_hash : Bytes := [0x68, 0x61, 0x73, 0x68]
example : key_hash = "hash".toList.map Char.toNat := by decide

/-- The field name `uniqueId` in the generated switches. -/
def key_uniqueId : Bytes := [0x75, 0x6e, 0x69, 0x71, 0x75, 0x65, 0x49, 0x64]
example : key_uniqueId = "uniqueId".toList.map Char.toNat := by decide

/-- The field name `locate` in the generated switches. -/
def key_locate : Bytes := [0x6c, 0x6f, 0x63, 0x61, 0x74, 0x65]
example : key_locate = "locate".toList.map Char.toNat := by decide

/-- The field name `versioning` in the generated switches. -/
def key_versioning : Bytes := [0x76, 0x65, 0x72, 0x73, 0x69, 0x6f, 0x6e, 0x69, 0x6e, 0x67]
example : key_versioning = "versioning".toList.map Char.toNat := by decide

/-- The field name `readonly` in the generated switches. -/
def key_readonly : Bytes := [0x72, 0x65, 0x61, 0x64, 0x6f, 0x6e, 0x6c, 0x79]
example : key_readonly = "readonly".toList.map Char.toNat := by decide

/-- The field name `version_remains` in the generated switches. -/
def key_version_remains : Bytes := [0x76, 0x65, 0x72, 0x73, 0x69, 0x6f, 0x6e, 0x5f, 0x72, 0x65, 0x6d, 0x61, 0x69, 0x6e, 0x73]
example : key_version_remains = "version_remains".toList.map Char.toNat := by decide

/-- The field name `policies` in the generated switches. -/
def key_policies : Bytes := [0x70, 0x6f, 0x6c, 0x69, 0x63, 0x69, 0x65, 0x73]
example : key_policies = "policies".toList.map Char.toNat := by decide

/-- The field name `type` in the generated switches. -/
def key_type : Bytes := [0x74, 0x79, 0x70, 0x65]
example : key_type = "type".toList.map Char.toNat := by decide

/-- The field name `dest` in the generated switches. -/
def key_dest : Bytes := [0x64, 0x65, 0x73, 0x74]
example : key_dest = "dest".toList.map Char.toNat := by decide

/-- The field name `version` in the generated switches. -/
def key_version : Bytes := [0x76, 0x65, 0x72, 0x73, 0x69, 0x6f, 0x6e]
example : key_version = "version".toList.map Char.toNat := by decide

/-- The field name `metadata` in the generated switches. -/
def key_metadata : Bytes := [0x6d, 0x65, 0x74, 0x61, 0x64, 0x61, 0x74, 0x61]
example : key_metadata = "metadata".toList.map Char.toNat := by decide

/-- The field name `id` in the generated switches. -/
def key_id : Bytes := [0x69, 0x64]
example : key_id = "id".toList.map Char.toNat := by decide

/-- The field name `server_id` in the generated switches. -/
def key_server_id : Bytes := [0x73, 0x65, 0x72, 0x76, 0x65, 0x72, 0x5f, 0x69, 0x64]
example : key_server_id = "server_id".toList.map Char.toNat := by decide

/-- The field name `slots` in the generated switches. -/
def key_slots : Bytes := [0x73, 0x6c, 0x6f, 0x74, 0x73]
example : key_slots = "slots".toList.map Char.toNat := by decide

/-- The field name `username` in the generated switches. -/
def key_username : Bytes := [0x75, 0x73, 0x65, 0x72, 0x6e, 0x61, 0x6d, 0x65]
example : key_username = "username".toList.map Char.toNat := by decide

/-- The field name `password` in the generated switches. -/
def key_password : Bytes := [0x70, 0x61, 0x73, 0x73, 0x77, 0x6f, 0x72, 0x64]
example : key_password = "password".toList.map Char.toNat := by decide

/-- The field name `free` in the generated switches. -/
def key_free : Bytes := [0x66, 0x72, 0x65, 0x65]
example : key_free = "free".toList.map Char.toNat := by decide

/-- The field name `used` in the generated switches. -/
def key_used : Bytes := [0x75, 0x73, 0x65, 0x64]
example : key_used = "used".toList.map Char.toNat := by decide

/-- The field name `files` in the generated switches. -/
def key_files : Bytes := [0x66, 0x69, 0x6c, 0x65, 0x73]
example : key_files = "files".toList.map Char.toNat := by decide

/-- The field name `f_free` in the generated switches. -/
def key_f_free : Bytes := [0x66, 0x5f, 0x66, 0x72, 0x65, 0x65]
example : key_f_free = "f_free".toList.map Char.toNat := by decide

/-- The field name `major` in the generated switches. -/
def key_major : Bytes := [0x6d, 0x61, 0x6a, 0x6f, 0x72]
example : key_major = "major".toList.map Char.toNat := by decide

/-- The field name `minor` in the generated switches. -/
def key_minor : Bytes := [0x6d, 0x69, 0x6e, 0x6f, 0x72]
example : key_minor = "minor".toList.map Char.toNat := by decide

/-- The field name `fs_type` in the generated switches. -/
def key_fs_type : Bytes := [0x66, 0x73, 0x5f, 0x74, 0x79, 0x70, 0x65]
example : key_fs_type = "fs_type".toList.map Char.toNat := by decide

/-- The field name `read_bytes` in the generated switches. -/
def key_read_bytes : Bytes := [0x72, 0x65, 0x61, 0x64, 0x5f, 0x62, 0x79, 0x74, 0x65, 0x73]
example : key_read_bytes = "read_bytes".toList.map Char.toNat := by decide

/-- The field name `write_bytes` in the generated switches. -/
def key_write_bytes : Bytes := [0x77, 0x72, 0x69, 0x74, 0x65, 0x5f, 0x62, 0x79, 0x74, 0x65, 0x73]
example : key_write_bytes = "write_bytes".toList.map Char.toNat := by decide

/-- The field name `read_count` in the generated switches. -/
def key_read_count : Bytes := [0x72, 0x65, 0x61, 0x64, 0x5f, 0x63, 0x6f, 0x75, 0x6e, 0x74]
example : key_read_count = "read_count".toList.map Char.toNat := by decide

/-- The field name `write_count` in the generated switches. -/
def key_write_count : Bytes := [0x77, 0x72, 0x69, 0x74, 0x65, 0x5f, 0x63, 0x6f, 0x75, 0x6e, 0x74]
example : key_write_count = "write_count".toList.map Char.toNat := by decide

/-- The field name `read_time` in the generated switches. -/
def key_read_time : Bytes := [0x72, 0x65, 0x61, 0x64, 0x5f, 0x74, 0x69, 0x6d, 0x65]
example : key_read_time = "read_time".toList.map Char.toNat := by decide

/-- The field name `write_time` in the generated switches. -/
def key_write_time : Bytes := [0x77, 0x72, 0x69, 0x74, 0x65, 0x5f, 0x74, 0x69, 0x6d, 0x65]
example : key_write_time = "write_time".toList.map Char.toNat := by decide

/-- The field name `current_ios` in the generated switches. -/
def key_current_ios : Bytes := [0x63, 0x75, 0x72, 0x72, 0x65, 0x6e, 0x74, 0x5f, 0x69, 0x6f, 0x73]
example : key_current_ios = "current_ios".toList.map Char.toNat := by decide

/-- The field name `io_time` in the generated switches. -/
def key_io_time : Bytes := [0x69, 0x6f, 0x5f, 0x74, 0x69, 0x6d, 0x65]
example : key_io_time = "io_time".toList.map Char.toNat := by decide

/-- The field name `weighted_io` in the generated switches. -/
def key_weighted_io : Bytes := [0x77, 0x65, 0x69, 0x67, 0x68, 0x74, 0x65, 0x64, 0x5f, 0x69, 0x6f]
example : key_weighted_io = "weighted_io".toList.map Char.toNat := by decide

/-- The field name `all` in the generated switches. -/
def key_all : Bytes := [0x61, 0x6c, 0x6c]
example : key_all = "all".toList.map Char.toNat := by decide

/-- The field name `self` in the generated switches. -/
def key_self : Bytes := [0x73, 0x65, 0x6c, 0x66]
example : key_self = "self".toList.map Char.toNat := by decide

/-- The field name `used_percent` in the generated switches. -/
def key_used_percent : Bytes := [0x75, 0x73, 0x65, 0x64, 0x5f, 0x70, 0x65, 0x72, 0x63, 0x65, 0x6e, 0x74]
example : key_used_percent = "used_percent".toList.map Char.toNat := by decide

/-- The field name `logical_count` in the generated switches. -/
def key_logical_count : Bytes := [0x6c, 0x6f, 0x67, 0x69, 0x63, 0x61, 0x6c, 0x5f, 0x63, 0x6f, 0x75, 0x6e, 0x74]
example : key_logical_count = "logical_count".toList.map Char.toNat := by decide

/-- The field name `physical_count` in the generated switches. -/
def key_physical_count : Bytes := [0x70, 0x68, 0x79, 0x73, 0x69, 0x63, 0x61, 0x6c, 0x5f, 0x63, 0x6f, 0x75, 0x6e, 0x74]
example : key_physical_count = "physical_count".toList.map Char.toNat := by decide

/-- The field name `DiskInfo` in the generated switches. -/
def key_DiskInfo : Bytes := [0x44, 0x69, 0x73, 0x6b, 0x49, 0x6e, 0x66, 0x6f]
example : key_DiskInfo = "DiskInfo".toList.map Char.toNat := by decide

/-- The field name `MemStatus` in the generated switches. -/
def key_MemStatus : Bytes := [0x4d, 0x65, 0x6d, 0x53, 0x74, 0x61, 0x74, 0x75, 0x73]
example : key_MemStatus = "MemStatus".toList.map Char.toNat := by decide

/-- The field name `CpuStatus` in the generated switches. -/
def key_CpuStatus : Bytes := [0x43, 0x70, 0x75, 0x53, 0x74, 0x61, 0x74, 0x75, 0x73]
example : key_CpuStatus = "CpuStatus".toList.map Char.toNat := by decide

/-- The field name `IoStatus` in the generated switches. -/
def key_IoStatus : Bytes := [0x49, 0x6f, 0x53, 0x74, 0x61, 0x74, 0x75, 0x73]
example : key_IoStatus = "IoStatus".toList.map Char.toNat := by decide

/-! ## Extra -/

/-- common/proto/msg/metadata.go:10-14: what the metadata store counts per object. -/
structure Extra where
  total : Int := 0
  firstVersion : Int := 0
  lastVersion : Int := 0
deriving DecidableEq, Repr

/-- common/proto/msg/metadata_gen.go:485-498 `(*Extra).MarshalMsg`, with the literal bytes of the generated code. -/
def appendExtra (v : Extra) : Bytes :=
  ([0x83, 0xa5, 0x74, 0x6f, 0x74, 0x61, 0x6c] : Bytes) ++ appendInt v.total ++
  ([0xad, 0x66, 0x69, 0x72, 0x73, 0x74, 0x5f, 0x76, 0x65, 0x72, 0x73, 0x69, 0x6f,
    0x6e] : Bytes) ++ appendInt v.firstVersion ++
  ([0xac, 0x6c, 0x61, 0x73, 0x74, 0x5f, 0x76, 0x65, 0x72, 0x73, 0x69, 0x6f,
    0x6e] : Bytes) ++ appendInt v.lastVersion

/-- The switch of common/proto/msg/metadata_gen.go:501-546 `UnmarshalMsg`. -/
def stepExtra (k : Bytes) (z : Extra) (b : Bytes) : R Extra :=
  if k = key_total then mapR (fun x => { z with total := x }) (readInt64 b)
  else if k = key_first_version then mapR (fun x => { z with firstVersion := x }) (readInt64 b)
  else if k = key_last_version then mapR (fun x => { z with lastVersion := x }) (readInt64 b)
  else unknownField z b

/-- common/proto/msg/metadata_gen.go:501-546 `UnmarshalMsg` into `z`. -/
def readExtra (z : Extra) (b : Bytes) : R Extra := readFields stepExtra z b

/-! ## Metadata -/

/-- common/proto/msg/metadata.go:16-22: one object name. -/
structure Metadata where
  extra : Option Extra := none
  name : Bytes := []
  bucket : Bytes := []
  createTime : Int := 0
  updateTime : Int := 0
deriving DecidableEq, Repr

/-- common/proto/msg/metadata_gen.go:750-782 `(*Metadata).MarshalMsg`, with the literal bytes of the generated code. -/
def appendMetadata (v : Metadata) : Bytes :=
  ([0x85, 0xa5, 0x45, 0x78, 0x74, 0x72, 0x61] : Bytes) ++ appendPtr appendExtra v.extra ++
  ([0xa4, 0x6e, 0x61, 0x6d, 0x65] : Bytes) ++ appendStr v.name ++
  ([0xa6, 0x62, 0x75, 0x63, 0x6b, 0x65, 0x74] : Bytes) ++ appendStr v.bucket ++
  ([0xab, 0x63, 0x72, 0x65, 0x61, 0x74, 0x65, 0x5f, 0x74, 0x69, 0x6d,
    0x65] : Bytes) ++ appendInt v.createTime ++
  ([0xab, 0x75, 0x70, 0x64, 0x61, 0x74, 0x65, 0x5f, 0x74, 0x69, 0x6d,
    0x65] : Bytes) ++ appendInt v.updateTime

/-- The switch of common/proto/msg/metadata_gen.go:785-888 `UnmarshalMsg`. -/
def stepMetadata (k : Bytes) (z : Metadata) (b : Bytes) : R Metadata :=
  if k = key_Extra then mapR (fun x => { z with extra := x }) (readPtr {} readExtra z.extra b)
  else if k = key_name then mapR (fun x => { z with name := x }) (readStr b)
  else if k = key_bucket then mapR (fun x => { z with bucket := x }) (readStr b)
  else if k = key_create_time then mapR (fun x => { z with createTime := x }) (readInt64 b)
  else if k = key_update_time then mapR (fun x => { z with updateTime := x }) (readInt64 b)
  else unknownField z b

/-- common/proto/msg/metadata_gen.go:785-888 `UnmarshalMsg` into `z`. -/
def readMetadata (z : Metadata) (b : Bytes) : R Metadata := readFields stepMetadata z b

/-! ## Version -/

/-- common/proto/msg/metadata.go:28-40: one version of an object. -/
structure Version where
  compress : Bool := false
  storeStrategy : Int := 0
  dataShards : Int := 0
  parityShards : Int := 0
  shardSize : Int := 0
  size : Int := 0
  ts : Int := 0
  sequence : Nat := 0
  hash : Bytes := []
  uniqueId : Bytes := []
  locate : List Bytes := []
deriving DecidableEq, Repr

/-- common/proto/msg/metadata_gen.go:1134-1174 `(*Version).MarshalMsg`, with the literal bytes of the generated code. -/
def appendVersion (v : Version) : Bytes :=
  ([0x8b, 0xa8, 0x63, 0x6f, 0x6d, 0x70, 0x72, 0x65, 0x73, 0x73] : Bytes) ++ appendBool v.compress ++
  ([0xae, 0x73, 0x74, 0x6f, 0x72, 0x65, 0x5f, 0x73, 0x74, 0x72, 0x61, 0x74, 0x65, 0x67,
    0x79] : Bytes) ++ appendInt v.storeStrategy ++
  ([0xab, 0x64, 0x61, 0x74, 0x61, 0x5f, 0x73, 0x68, 0x61, 0x72, 0x64,
    0x73] : Bytes) ++ appendInt v.dataShards ++
  ([0xad, 0x70, 0x61, 0x72, 0x69, 0x74, 0x79, 0x5f, 0x73, 0x68, 0x61, 0x72, 0x64,
    0x73] : Bytes) ++ appendInt v.parityShards ++
  ([0xaa, 0x73, 0x68, 0x61, 0x72, 0x64, 0x5f, 0x73, 0x69, 0x7a,
    0x65] : Bytes) ++ appendInt v.shardSize ++
  ([0xa4, 0x73, 0x69, 0x7a, 0x65] : Bytes) ++ appendInt v.size ++
  ([0xa2, 0x74, 0x73] : Bytes) ++ appendInt v.ts ++
  ([0xa8, 0x73, 0x65, 0x71, 0x75, 0x65, 0x6e, 0x63, 0x65] : Bytes) ++ appendUint v.sequence ++
  ([0xa4, 0x68, 0x61, 0x73, 0x68] : Bytes) ++ appendStr v.hash ++
  ([0xa8, 0x75, 0x6e, 0x69, 0x71, 0x75, 0x65, 0x49, 0x64] : Bytes) ++ appendStr v.uniqueId ++
  ([0xa6, 0x6c, 0x6f, 0x63, 0x61, 0x74, 0x65] : Bytes) ++ appendStrs v.locate

/-- The switch of common/proto/msg/metadata_gen.go:1177-1283 `UnmarshalMsg`. -/
def stepVersion (k : Bytes) (z : Version) (b : Bytes) : R Version :=
  if k = key_compress then mapR (fun x => { z with compress := x }) (readBool b)
  else if k = key_store_strategy then mapR (fun x => { z with storeStrategy := x }) (readIntW 8 b)
  else if k = key_data_shards then mapR (fun x => { z with dataShards := x }) (readIntW 32 b)
  else if k = key_parity_shards then mapR (fun x => { z with parityShards := x }) (readIntW 32 b)
  else if k = key_shard_size then mapR (fun x => { z with shardSize := x }) (readInt64 b)
  else if k = key_size then mapR (fun x => { z with size := x }) (readInt64 b)
  else if k = key_ts then mapR (fun x => { z with ts := x }) (readInt64 b)
  else if k = key_sequence then mapR (fun x => { z with sequence := x }) (readUint64 b)
  else if k = key_hash then mapR (fun x => { z with hash := x }) (readStr b)
  else if k = key_uniqueId then mapR (fun x => { z with uniqueId := x }) (readStr b)
  else if k = key_locate then mapR (fun x => { z with locate := x }) (readStrs b)
  else unknownField z b

/-- common/proto/msg/metadata_gen.go:1177-1283 `UnmarshalMsg` into `z`. -/
def readVersion (z : Version) (b : Bytes) : R Version := readFields stepVersion z b

/-! ## Bucket -/

/-- common/proto/msg/metadata.go:46-58: one bucket. -/
structure Bucket where
  versioning : Bool := false
  readonly : Bool := false
  compress : Bool := false
  storeStrategy : Int := 0
  dataShards : Int := 0
  parityShards : Int := 0
  versionRemains : Int := 0
  createTime : Int := 0
  updateTime : Int := 0
  name : Bytes := []
  policies : List Bytes := []
deriving DecidableEq, Repr

/-- common/proto/msg/metadata_gen.go:241-281 `(*Bucket).MarshalMsg`, with the literal bytes of the generated code. -/
def appendBucket (v : Bucket) : Bytes :=
  ([0x8b, 0xaa, 0x76, 0x65, 0x72, 0x73, 0x69, 0x6f, 0x6e, 0x69, 0x6e,
    0x67] : Bytes) ++ appendBool v.versioning ++
  ([0xa8, 0x72, 0x65, 0x61, 0x64, 0x6f, 0x6e, 0x6c, 0x79] : Bytes) ++ appendBool v.readonly ++
  ([0xa8, 0x63, 0x6f, 0x6d, 0x70, 0x72, 0x65, 0x73, 0x73] : Bytes) ++ appendBool v.compress ++
  ([0xae, 0x73, 0x74, 0x6f, 0x72, 0x65, 0x5f, 0x73, 0x74, 0x72, 0x61, 0x74, 0x65, 0x67,
    0x79] : Bytes) ++ appendInt v.storeStrategy ++
  ([0xab, 0x64, 0x61, 0x74, 0x61, 0x5f, 0x73, 0x68, 0x61, 0x72, 0x64,
    0x73] : Bytes) ++ appendInt v.dataShards ++
  ([0xad, 0x70, 0x61, 0x72, 0x69, 0x74, 0x79, 0x5f, 0x73, 0x68, 0x61, 0x72, 0x64,
    0x73] : Bytes) ++ appendInt v.parityShards ++
  ([0xaf, 0x76, 0x65, 0x72, 0x73, 0x69, 0x6f, 0x6e, 0x5f, 0x72, 0x65, 0x6d, 0x61, 0x69, 0x6e,
    0x73] : Bytes) ++ appendInt v.versionRemains ++
  ([0xab, 0x63, 0x72, 0x65, 0x61, 0x74, 0x65, 0x5f, 0x74, 0x69, 0x6d,
    0x65] : Bytes) ++ appendInt v.createTime ++
  ([0xab, 0x75, 0x70, 0x64, 0x61, 0x74, 0x65, 0x5f, 0x74, 0x69, 0x6d,
    0x65] : Bytes) ++ appendInt v.updateTime ++
  ([0xa4, 0x6e, 0x61, 0x6d, 0x65] : Bytes) ++ appendStr v.name ++
  ([0xa8, 0x70, 0x6f, 0x6c, 0x69, 0x63, 0x69, 0x65, 0x73] : Bytes) ++ appendStrs v.policies

/-- The switch of common/proto/msg/metadata_gen.go:284-390 `UnmarshalMsg`. -/
def stepBucket (k : Bytes) (z : Bucket) (b : Bytes) : R Bucket :=
  if k = key_versioning then mapR (fun x => { z with versioning := x }) (readBool b)
  else if k = key_readonly then mapR (fun x => { z with readonly := x }) (readBool b)
  else if k = key_compress then mapR (fun x => { z with compress := x }) (readBool b)
  else if k = key_store_strategy then mapR (fun x => { z with storeStrategy := x }) (readIntW 8 b)
  else if k = key_data_shards then mapR (fun x => { z with dataShards := x }) (readIntW 32 b)
  else if k = key_parity_shards then mapR (fun x => { z with parityShards := x }) (readIntW 32 b)
  else if k = key_version_remains then mapR (fun x => { z with versionRemains := x }) (readIntW 32 b)
  else if k = key_create_time then mapR (fun x => { z with createTime := x }) (readInt64 b)
  else if k = key_update_time then mapR (fun x => { z with updateTime := x }) (readInt64 b)
  else if k = key_name then mapR (fun x => { z with name := x }) (readStr b)
  else if k = key_policies then mapR (fun x => { z with policies := x }) (readStrs b)
  else unknownField z b

/-- common/proto/msg/metadata_gen.go:284-390 `UnmarshalMsg` into `z`. -/
def readBucket (z : Bucket) (b : Bytes) : R Bucket := readFields stepBucket z b

/-! ## RaftData -/

/-- metaserver/internal/entity/raft_data.go:24-33: one entry of the raft log. -/
structure RaftData where
  typ : Int := 0
  dest : Int := 0
  name : Bytes := []
  sequence : Nat := 0
  version : Option Version := none
  metadata : Option Metadata := none
  bucket : Option Bucket := none
  /-- Tagged `msg:"-"`: not part of the encoded form. -/
  batch : Bool := false
deriving DecidableEq, Repr

/-- metaserver/internal/entity/raft_data_gen.go:328-377 `(*RaftData).MarshalMsg`, with the literal bytes of the generated code. -/
def appendRaftData (v : RaftData) : Bytes :=
  ([0x87, 0xa4, 0x74, 0x79, 0x70, 0x65] : Bytes) ++ appendInt v.typ ++
  ([0xa4, 0x64, 0x65, 0x73, 0x74] : Bytes) ++ appendInt v.dest ++
  ([0xa4, 0x6e, 0x61, 0x6d, 0x65] : Bytes) ++ appendStr v.name ++
  ([0xa8, 0x73, 0x65, 0x71, 0x75, 0x65, 0x6e, 0x63, 0x65] : Bytes) ++ appendUint v.sequence ++
  ([0xa7, 0x76, 0x65, 0x72, 0x73, 0x69, 0x6f, 0x6e] : Bytes) ++ appendPtr appendVersion v.version ++
  ([0xa8, 0x6d, 0x65, 0x74, 0x61, 0x64, 0x61, 0x74,
    0x61] : Bytes) ++ appendPtr appendMetadata v.metadata ++
  ([0xa6, 0x62, 0x75, 0x63, 0x6b, 0x65, 0x74] : Bytes) ++ appendPtr appendBucket v.bucket

/-- The switch of metaserver/internal/entity/raft_data_gen.go:380-490 `UnmarshalMsg`. -/
def stepRaftData (k : Bytes) (z : RaftData) (b : Bytes) : R RaftData :=
  if k = key_type then mapR (fun x => { z with typ := x }) (readIntW 8 b)
  else if k = key_dest then mapR (fun x => { z with dest := x }) (readIntW 8 b)
  else if k = key_name then mapR (fun x => { z with name := x }) (readStr b)
  else if k = key_sequence then mapR (fun x => { z with sequence := x }) (readUint64 b)
  else if k = key_version then mapR (fun x => { z with version := x }) (readPtr {} readVersion z.version b)
  else if k = key_metadata then mapR (fun x => { z with metadata := x }) (readPtr {} readMetadata z.metadata b)
  else if k = key_bucket then mapR (fun x => { z with bucket := x }) (readPtr {} readBucket z.bucket b)
  else unknownField z b

/-- metaserver/internal/entity/raft_data_gen.go:380-490 `UnmarshalMsg` into `z`. -/
def readRaftData (z : RaftData) (b : Bytes) : R RaftData := readFields stepRaftData z b

/-! ## SlotInfo -/

/-- common/hashslot/slot_info.go:5-9: the slots of one group. -/
structure SlotInfo where
  groupID : Bytes := []
  serverID : Bytes := []
  slots : List Bytes := []
deriving DecidableEq, Repr

/-- common/hashslot/slot_info_gen.go:113-129 `(*SlotInfo).MarshalMsg`, with the literal bytes of the generated code. -/
def appendSlotInfo (v : SlotInfo) : Bytes :=
  ([0x83, 0xa2, 0x69, 0x64] : Bytes) ++ appendStr v.groupID ++
  ([0xa9, 0x73, 0x65, 0x72, 0x76, 0x65, 0x72, 0x5f, 0x69, 0x64] : Bytes) ++ appendStr v.serverID ++
  ([0xa5, 0x73, 0x6c, 0x6f, 0x74, 0x73] : Bytes) ++ appendStrs v.slots

/-- The switch of common/hashslot/slot_info_gen.go:132-190 `UnmarshalMsg`. -/
def stepSlotInfo (k : Bytes) (z : SlotInfo) (b : Bytes) : R SlotInfo :=
  if k = key_id then mapR (fun x => { z with groupID := x }) (readStr b)
  else if k = key_server_id then mapR (fun x => { z with serverID := x }) (readStr b)
  else if k = key_slots then mapR (fun x => { z with slots := x }) (readStrs b)
  else unknownField z b

/-- common/hashslot/slot_info_gen.go:132-190 `UnmarshalMsg` into `z`. -/
def readSlotInfo (z : SlotInfo) (b : Bytes) : R SlotInfo := readFields stepSlotInfo z b

/-! ## AdminCredential -/

/-- apiserver/internal/usecase/componet/auth/credential/admin_credential.go:5-8: the administrator's credential. -/
structure AdminCredential where
  username : Bytes := []
  password : Bytes := []
deriving DecidableEq, Repr

/-- apiserver/internal/usecase/componet/auth/credential/admin_credential_gen.go:77-87 `(*AdminCredential).MarshalMsg`, with the literal bytes of the generated code. -/
def appendAdminCredential (v : AdminCredential) : Bytes :=
  ([0x82, 0xa8, 0x75, 0x73, 0x65, 0x72, 0x6e, 0x61, 0x6d, 0x65] : Bytes) ++ appendStr v.username ++
  ([0xa8, 0x70, 0x61, 0x73, 0x73, 0x77, 0x6f, 0x72, 0x64] : Bytes) ++ appendStr v.password

/-- The switch of apiserver/internal/usecase/componet/auth/credential/admin_credential_gen.go:90-129 `UnmarshalMsg`. -/
def stepAdminCredential (k : Bytes) (z : AdminCredential) (b : Bytes) : R AdminCredential :=
  if k = key_username then mapR (fun x => { z with username := x }) (readStr b)
  else if k = key_password then mapR (fun x => { z with password := x }) (readStr b)
  else unknownField z b

/-- apiserver/internal/usecase/componet/auth/credential/admin_credential_gen.go:90-129 `UnmarshalMsg` into `z`. -/
def readAdminCredential (z : AdminCredential) (b : Bytes) : R AdminCredential := readFields stepAdminCredential z b

/-! ## DiskInfo -/

/-- common/system/disk/model.go:30-39: disk usage. -/
structure DiskInfo where
  total : Nat := 0
  free : Nat := 0
  used : Nat := 0
  files : Nat := 0
  ffree : Nat := 0
  major : Nat := 0
  minor : Nat := 0
  fsType : Bytes := []
deriving DecidableEq, Repr

/-- common/system/disk/model_gen.go:536-576 `(*Info).MarshalMsg`, with the literal bytes of the generated code. -/
def appendDiskInfo (v : DiskInfo) : Bytes :=
  ([0x88, 0xa5, 0x74, 0x6f, 0x74, 0x61, 0x6c] : Bytes) ++ appendUint v.total ++
  ([0xa4, 0x66, 0x72, 0x65, 0x65] : Bytes) ++ appendUint v.free ++
  ([0xa4, 0x75, 0x73, 0x65, 0x64] : Bytes) ++ appendUint v.used ++
  ([0xa5, 0x66, 0x69, 0x6c, 0x65, 0x73] : Bytes) ++ appendUint v.files ++
  ([0xa6, 0x66, 0x5f, 0x66, 0x72, 0x65, 0x65] : Bytes) ++ appendUint v.ffree ++
  ([0xa5, 0x6d, 0x61, 0x6a, 0x6f, 0x72] : Bytes) ++ appendUint v.major ++
  ([0xa5, 0x6d, 0x69, 0x6e, 0x6f, 0x72] : Bytes) ++ appendUint v.minor ++
  ([0xa7, 0x66, 0x73, 0x5f, 0x74, 0x79, 0x70, 0x65] : Bytes) ++ appendStr v.fsType

/-- The switch of common/system/disk/model_gen.go:579-654 `UnmarshalMsg`. -/
def stepDiskInfo (k : Bytes) (z : DiskInfo) (b : Bytes) : R DiskInfo :=
  if k = key_total then mapR (fun x => { z with total := x }) (readUint64 b)
  else if k = key_free then mapR (fun x => { z with free := x }) (readUint64 b)
  else if k = key_used then mapR (fun x => { z with used := x }) (readUint64 b)
  else if k = key_files then mapR (fun x => { z with files := x }) (readUint64 b)
  else if k = key_f_free then mapR (fun x => { z with ffree := x }) (readUint64 b)
  else if k = key_major then mapR (fun x => { z with major := x }) (readUint32 b)
  else if k = key_minor then mapR (fun x => { z with minor := x }) (readUint32 b)
  else if k = key_fs_type then mapR (fun x => { z with fsType := x }) (readStr b)
  else unknownField z b

/-- common/system/disk/model_gen.go:579-654 `UnmarshalMsg` into `z`. -/
def readDiskInfo (z : DiskInfo) (b : Bytes) : R DiskInfo := readFields stepDiskInfo z b

/-! ## IOStats -/

/-- common/system/disk/model.go:48-58: disk traffic. -/
structure IOStats where
  readBytes : Nat := 0
  writeBytes : Nat := 0
  readCount : Nat := 0
  writeCount : Nat := 0
  readTime : Nat := 0
  writeTime : Nat := 0
  currentIOs : Nat := 0
  ioTime : Nat := 0
  weightedIO : Nat := 0
deriving DecidableEq, Repr

/-- common/system/disk/model_gen.go:241-280 `(*IOStats).MarshalMsg`, with the literal bytes of the generated code. -/
def appendIOStats (v : IOStats) : Bytes :=
  ([0x89, 0xaa, 0x72, 0x65, 0x61, 0x64, 0x5f, 0x62, 0x79, 0x74, 0x65,
    0x73] : Bytes) ++ appendUint v.readBytes ++
  ([0xab, 0x77, 0x72, 0x69, 0x74, 0x65, 0x5f, 0x62, 0x79, 0x74, 0x65,
    0x73] : Bytes) ++ appendUint v.writeBytes ++
  ([0xaa, 0x72, 0x65, 0x61, 0x64, 0x5f, 0x63, 0x6f, 0x75, 0x6e,
    0x74] : Bytes) ++ appendUint v.readCount ++
  ([0xab, 0x77, 0x72, 0x69, 0x74, 0x65, 0x5f, 0x63, 0x6f, 0x75, 0x6e,
    0x74] : Bytes) ++ appendUint v.writeCount ++
  ([0xa9, 0x72, 0x65, 0x61, 0x64, 0x5f, 0x74, 0x69, 0x6d, 0x65] : Bytes) ++ appendUint v.readTime ++
  ([0xaa, 0x77, 0x72, 0x69, 0x74, 0x65, 0x5f, 0x74, 0x69, 0x6d,
    0x65] : Bytes) ++ appendUint v.writeTime ++
  ([0xab, 0x63, 0x75, 0x72, 0x72, 0x65, 0x6e, 0x74, 0x5f, 0x69, 0x6f,
    0x73] : Bytes) ++ appendUint v.currentIOs ++
  ([0xa7, 0x69, 0x6f, 0x5f, 0x74, 0x69, 0x6d, 0x65] : Bytes) ++ appendUint v.ioTime ++
  ([0xab, 0x77, 0x65, 0x69, 0x67, 0x68, 0x74, 0x65, 0x64, 0x5f, 0x69,
    0x6f] : Bytes) ++ appendUint v.weightedIO

/-- The switch of common/system/disk/model_gen.go:283-364 `UnmarshalMsg`. -/
def stepIOStats (k : Bytes) (z : IOStats) (b : Bytes) : R IOStats :=
  if k = key_read_bytes then mapR (fun x => { z with readBytes := x }) (readUint64 b)
  else if k = key_write_bytes then mapR (fun x => { z with writeBytes := x }) (readUint64 b)
  else if k = key_read_count then mapR (fun x => { z with readCount := x }) (readUint64 b)
  else if k = key_write_count then mapR (fun x => { z with writeCount := x }) (readUint64 b)
  else if k = key_read_time then mapR (fun x => { z with readTime := x }) (readUint64 b)
  else if k = key_write_time then mapR (fun x => { z with writeTime := x }) (readUint64 b)
  else if k = key_current_ios then mapR (fun x => { z with currentIOs := x }) (readUint64 b)
  else if k = key_io_time then mapR (fun x => { z with ioTime := x }) (readUint64 b)
  else if k = key_weighted_io then mapR (fun x => { z with weightedIO := x }) (readUint64 b)
  else unknownField z b

/-- common/system/disk/model_gen.go:283-364 `UnmarshalMsg` into `z`. -/
def readIOStats (z : IOStats) (b : Bytes) : R IOStats := readFields stepIOStats z b

/-! ## MemStatus -/

/-- common/system/mem/model.go:5-10: memory usage. -/
structure MemStatus where
  all : Nat := 0
  used : Nat := 0
  free : Nat := 0
  self : Nat := 0
deriving DecidableEq, Repr

/-- common/system/mem/model_gen.go:109-125 `(*Status).MarshalMsg`, with the literal bytes of the generated code. -/
def appendMemStatus (v : MemStatus) : Bytes :=
  ([0x84, 0xa3, 0x61, 0x6c, 0x6c] : Bytes) ++ appendUint v.all ++
  ([0xa4, 0x75, 0x73, 0x65, 0x64] : Bytes) ++ appendUint v.used ++
  ([0xa4, 0x66, 0x72, 0x65, 0x65] : Bytes) ++ appendUint v.free ++
  ([0xa4, 0x73, 0x65, 0x6c, 0x66] : Bytes) ++ appendUint v.self

/-- The switch of common/system/mem/model_gen.go:128-179 `UnmarshalMsg`. -/
def stepMemStatus (k : Bytes) (z : MemStatus) (b : Bytes) : R MemStatus :=
  if k = key_all then mapR (fun x => { z with all := x }) (readUint64 b)
  else if k = key_used then mapR (fun x => { z with used := x }) (readUint64 b)
  else if k = key_free then mapR (fun x => { z with free := x }) (readUint64 b)
  else if k = key_self then mapR (fun x => { z with self := x }) (readUint64 b)
  else unknownField z b

/-- common/system/mem/model_gen.go:128-179 `UnmarshalMsg` into `z`. -/
def readMemStatus (z : MemStatus) (b : Bytes) : R MemStatus := readFields stepMemStatus z b

/-! ## CpuStat -/

/-- common/system/cpu/model.go:5-9: processor usage. -/
structure CpuStat where
  usedPercent : Nat := 0
  logicalCount : Int := 0
  physicalCount : Int := 0
deriving DecidableEq, Repr

/-- common/system/cpu/model_gen.go:93-106 `(*Stat).MarshalMsg`, with the literal bytes of the generated code. -/
def appendCpuStat (v : CpuStat) : Bytes :=
  ([0x83, 0xac, 0x75, 0x73, 0x65, 0x64, 0x5f, 0x70, 0x65, 0x72, 0x63, 0x65, 0x6e,
    0x74] : Bytes) ++ appendFloat v.usedPercent ++
  ([0xad, 0x6c, 0x6f, 0x67, 0x69, 0x63, 0x61, 0x6c, 0x5f, 0x63, 0x6f, 0x75, 0x6e,
    0x74] : Bytes) ++ appendInt v.logicalCount ++
  ([0xae, 0x70, 0x68, 0x79, 0x73, 0x69, 0x63, 0x61, 0x6c, 0x5f, 0x63, 0x6f, 0x75, 0x6e,
    0x74] : Bytes) ++ appendInt v.physicalCount

/-- The switch of common/system/cpu/model_gen.go:109-154 `UnmarshalMsg`. -/
def stepCpuStat (k : Bytes) (z : CpuStat) (b : Bytes) : R CpuStat :=
  if k = key_used_percent then mapR (fun x => { z with usedPercent := x }) (readFloat b)
  else if k = key_logical_count then mapR (fun x => { z with logicalCount := x }) (readInt64 b)
  else if k = key_physical_count then mapR (fun x => { z with physicalCount := x }) (readInt64 b)
  else unknownField z b

/-- common/system/cpu/model_gen.go:109-154 `UnmarshalMsg` into `z`. -/
def readCpuStat (z : CpuStat) (b : Bytes) : R CpuStat := readFields stepCpuStat z b

/-! ## SysInfo -/

/-- common/system/system_info.go:11-16: one sample of a server's state. -/
structure SysInfo where
  diskInfo : Option DiskInfo := none
  memStatus : Option MemStatus := none
  cpuStatus : Option CpuStat := none
  ioStatus : Option IOStats := none
deriving DecidableEq, Repr

/-- common/system/system_info_gen.go:189-237 `(*Info).MarshalMsg`, with the literal bytes of the generated code. -/
def appendSysInfo (v : SysInfo) : Bytes :=
  ([0x84, 0xa8, 0x44, 0x69, 0x73, 0x6b, 0x49, 0x6e, 0x66,
    0x6f] : Bytes) ++ appendPtr appendDiskInfo v.diskInfo ++
  ([0xa9, 0x4d, 0x65, 0x6d, 0x53, 0x74, 0x61, 0x74, 0x75,
    0x73] : Bytes) ++ appendPtr appendMemStatus v.memStatus ++
  ([0xa9, 0x43, 0x70, 0x75, 0x53, 0x74, 0x61, 0x74, 0x75,
    0x73] : Bytes) ++ appendPtr appendCpuStat v.cpuStatus ++
  ([0xa8, 0x49, 0x6f, 0x53, 0x74, 0x61, 0x74, 0x75,
    0x73] : Bytes) ++ appendPtr appendIOStats v.ioStatus

/-- The switch of common/system/system_info_gen.go:240-335 `UnmarshalMsg`. -/
def stepSysInfo (k : Bytes) (z : SysInfo) (b : Bytes) : R SysInfo :=
  if k = key_DiskInfo then mapR (fun x => { z with diskInfo := x }) (readPtr {} readDiskInfo z.diskInfo b)
  else if k = key_MemStatus then mapR (fun x => { z with memStatus := x }) (readPtr {} readMemStatus z.memStatus b)
  else if k = key_CpuStatus then mapR (fun x => { z with cpuStatus := x }) (readPtr {} readCpuStat z.cpuStatus b)
  else if k = key_IoStatus then mapR (fun x => { z with ioStatus := x }) (readPtr {} readIOStats z.ioStatus b)
  else unknownField z b

/-- common/system/system_info_gen.go:240-335 `UnmarshalMsg` into `z`. -/
def readSysInfo (z : SysInfo) (b : Bytes) : R SysInfo := readFields stepSysInfo z b

end Verif.Msgp
