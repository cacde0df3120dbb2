import Verif.Msgp.Records
import Verif.Msgp.Lemmas
import Verif.Msgp.Local

/-!
# What the record codecs should do

The reference form of a record: a map with one name/value pair per field, in any order.
Independent of the order and of the literal bytes in the generated code.
-/

namespace Verif.Msgp

/-- A record on the wire: a map of names and encoded values. -/
def wireBytes (ws : List (Bytes × Bytes)) : Bytes :=
  appendMapHeader ws.length ++ (ws.map fun w => appendStr w.1 ++ w.2).flatten

/-- Fields a newer version of the program might have added. -/
def extraFields (us : List (Bytes × Value)) : List (Bytes × Bytes) := us.map fun u => (u.1, u.2.enc)

/-- A name and a value that can be encoded. -/
def FieldOk (u : Bytes × Value) : Prop := LenOk u.1 ∧ u.2.Ok

/-- Every number of the record fits the Go type of its field, every length fits 32 bits. -/
def Extra.Ok (v : Extra) : Prop :=
  InInt64 v.total ∧
  InInt64 v.firstVersion ∧
  InInt64 v.lastVersion

/-- The record as names and values. -/
def Extra.wire (v : Extra) : List (Bytes × Bytes) :=
  [(key_total, appendInt v.total),
   (key_first_version, appendInt v.firstVersion),
   (key_last_version, appendInt v.lastVersion)]

/-- The names of the fields of the record. -/
def Extra.names : List Bytes :=
  [key_total, key_first_version, key_last_version]

/-- Every number of the record fits the Go type of its field, every length fits 32 bits. -/
def Metadata.Ok (v : Metadata) : Prop :=
  (∀ x, v.extra = some x → Extra.Ok x) ∧
  LenOk v.name ∧
  LenOk v.bucket ∧
  InInt64 v.createTime ∧
  InInt64 v.updateTime

/-- Every string of the record consists of bytes. -/
def Metadata.Bytewise (v : Metadata) : Prop :=
  AllBytes v.name ∧
  AllBytes v.bucket

/-- The record as names and values. -/
def Metadata.wire (v : Metadata) : List (Bytes × Bytes) :=
  [(key_Extra, appendPtr appendExtra v.extra),
   (key_name, appendStr v.name),
   (key_bucket, appendStr v.bucket),
   (key_create_time, appendInt v.createTime),
   (key_update_time, appendInt v.updateTime)]

/-- The names of the fields of the record. -/
def Metadata.names : List Bytes :=
  [key_Extra, key_name, key_bucket, key_create_time, key_update_time]

/-- Every number of the record fits the Go type of its field, every length fits 32 bits. -/
def Version.Ok (v : Version) : Prop :=
  InInt8 v.storeStrategy ∧
  InInt32 v.dataShards ∧
  InInt32 v.parityShards ∧
  InInt64 v.shardSize ∧
  InInt64 v.size ∧
  InInt64 v.ts ∧
  InUint64 v.sequence ∧
  LenOk v.hash ∧
  LenOk v.uniqueId ∧
  (LenOk v.locate ∧ ∀ s ∈ v.locate, LenOk s)

/-- Every string of the record consists of bytes. -/
def Version.Bytewise (v : Version) : Prop :=
  AllBytes v.hash ∧
  AllBytes v.uniqueId ∧
  (∀ s ∈ v.locate, AllBytes s)

/-- The record as names and values. -/
def Version.wire (v : Version) : List (Bytes × Bytes) :=
  [(key_compress, appendBool v.compress),
   (key_store_strategy, appendInt v.storeStrategy),
   (key_data_shards, appendInt v.dataShards),
   (key_parity_shards, appendInt v.parityShards),
   (key_shard_size, appendInt v.shardSize),
   (key_size, appendInt v.size),
   (key_ts, appendInt v.ts),
   (key_sequence, appendUint v.sequence),
   (key_hash, appendStr v.hash),
   (key_uniqueId, appendStr v.uniqueId),
   (key_locate, appendStrs v.locate)]

/-- The names of the fields of the record. -/
def Version.names : List Bytes :=
  [key_compress, key_store_strategy, key_data_shards, key_parity_shards, key_shard_size,
   key_size, key_ts, key_sequence, key_hash, key_uniqueId, key_locate]

/-- Every number of the record fits the Go type of its field, every length fits 32 bits. -/
def Bucket.Ok (v : Bucket) : Prop :=
  InInt8 v.storeStrategy ∧
  InInt32 v.dataShards ∧
  InInt32 v.parityShards ∧
  InInt32 v.versionRemains ∧
  InInt64 v.createTime ∧
  InInt64 v.updateTime ∧
  LenOk v.name ∧
  (LenOk v.policies ∧ ∀ s ∈ v.policies, LenOk s)

/-- Every string of the record consists of bytes. -/
def Bucket.Bytewise (v : Bucket) : Prop :=
  AllBytes v.name ∧
  (∀ s ∈ v.policies, AllBytes s)

/-- The record as names and values. -/
def Bucket.wire (v : Bucket) : List (Bytes × Bytes) :=
  [(key_versioning, appendBool v.versioning),
   (key_readonly, appendBool v.readonly),
   (key_compress, appendBool v.compress),
   (key_store_strategy, appendInt v.storeStrategy),
   (key_data_shards, appendInt v.dataShards),
   (key_parity_shards, appendInt v.parityShards),
   (key_version_remains, appendInt v.versionRemains),
   (key_create_time, appendInt v.createTime),
   (key_update_time, appendInt v.updateTime),
   (key_name, appendStr v.name),
   (key_policies, appendStrs v.policies)]

/-- The names of the fields of the record. -/
def Bucket.names : List Bytes :=
  [key_versioning, key_readonly, key_compress, key_store_strategy, key_data_shards,
   key_parity_shards, key_version_remains, key_create_time, key_update_time, key_name, key_policies]

/-- Every number of the record fits the Go type of its field, every length fits 32 bits. -/
def RaftData.Ok (v : RaftData) : Prop :=
  InInt8 v.typ ∧
  InInt8 v.dest ∧
  LenOk v.name ∧
  InUint64 v.sequence ∧
  (∀ x, v.version = some x → Version.Ok x) ∧
  (∀ x, v.metadata = some x → Metadata.Ok x) ∧
  (∀ x, v.bucket = some x → Bucket.Ok x)

/-- Every string of the record consists of bytes. -/
def RaftData.Bytewise (v : RaftData) : Prop :=
  AllBytes v.name ∧
  (∀ x, v.version = some x → Version.Bytewise x) ∧
  (∀ x, v.metadata = some x → Metadata.Bytewise x) ∧
  (∀ x, v.bucket = some x → Bucket.Bytewise x)

/-- The record as names and values. -/
def RaftData.wire (v : RaftData) : List (Bytes × Bytes) :=
  [(key_type, appendInt v.typ),
   (key_dest, appendInt v.dest),
   (key_name, appendStr v.name),
   (key_sequence, appendUint v.sequence),
   (key_version, appendPtr appendVersion v.version),
   (key_metadata, appendPtr appendMetadata v.metadata),
   (key_bucket, appendPtr appendBucket v.bucket)]

/-- The names of the fields of the record. -/
def RaftData.names : List Bytes :=
  [key_type, key_dest, key_name, key_sequence, key_version, key_metadata, key_bucket]

/-- Every number of the record fits the Go type of its field, every length fits 32 bits. -/
def SlotInfo.Ok (v : SlotInfo) : Prop :=
  LenOk v.groupID ∧
  LenOk v.serverID ∧
  (LenOk v.slots ∧ ∀ s ∈ v.slots, LenOk s)

/-- Every string of the record consists of bytes. -/
def SlotInfo.Bytewise (v : SlotInfo) : Prop :=
  AllBytes v.groupID ∧
  AllBytes v.serverID ∧
  (∀ s ∈ v.slots, AllBytes s)

/-- The record as names and values. -/
def SlotInfo.wire (v : SlotInfo) : List (Bytes × Bytes) :=
  [(key_id, appendStr v.groupID),
   (key_server_id, appendStr v.serverID),
   (key_slots, appendStrs v.slots)]

/-- The names of the fields of the record. -/
def SlotInfo.names : List Bytes :=
  [key_id, key_server_id, key_slots]

/-- Every number of the record fits the Go type of its field, every length fits 32 bits. -/
def AdminCredential.Ok (v : AdminCredential) : Prop :=
  LenOk v.username ∧
  LenOk v.password

/-- Every string of the record consists of bytes. -/
def AdminCredential.Bytewise (v : AdminCredential) : Prop :=
  AllBytes v.username ∧
  AllBytes v.password

/-- The record as names and values. -/
def AdminCredential.wire (v : AdminCredential) : List (Bytes × Bytes) :=
  [(key_username, appendStr v.username),
   (key_password, appendStr v.password)]

/-- The names of the fields of the record. -/
def AdminCredential.names : List Bytes :=
  [key_username, key_password]

/-- Every number of the record fits the Go type of its field, every length fits 32 bits. -/
def DiskInfo.Ok (v : DiskInfo) : Prop :=
  InUint64 v.total ∧
  InUint64 v.free ∧
  InUint64 v.used ∧
  InUint64 v.files ∧
  InUint64 v.ffree ∧
  InUint32 v.major ∧
  InUint32 v.minor ∧
  LenOk v.fsType

/-- Every string of the record consists of bytes. -/
def DiskInfo.Bytewise (v : DiskInfo) : Prop :=
  AllBytes v.fsType

/-- The record as names and values. -/
def DiskInfo.wire (v : DiskInfo) : List (Bytes × Bytes) :=
  [(key_total, appendUint v.total),
   (key_free, appendUint v.free),
   (key_used, appendUint v.used),
   (key_files, appendUint v.files),
   (key_f_free, appendUint v.ffree),
   (key_major, appendUint v.major),
   (key_minor, appendUint v.minor),
   (key_fs_type, appendStr v.fsType)]

/-- The names of the fields of the record. -/
def DiskInfo.names : List Bytes :=
  [key_total, key_free, key_used, key_files, key_f_free, key_major, key_minor, key_fs_type]

/-- Every number of the record fits the Go type of its field, every length fits 32 bits. -/
def IOStats.Ok (v : IOStats) : Prop :=
  InUint64 v.readBytes ∧
  InUint64 v.writeBytes ∧
  InUint64 v.readCount ∧
  InUint64 v.writeCount ∧
  InUint64 v.readTime ∧
  InUint64 v.writeTime ∧
  InUint64 v.currentIOs ∧
  InUint64 v.ioTime ∧
  InUint64 v.weightedIO

/-- The record as names and values. -/
def IOStats.wire (v : IOStats) : List (Bytes × Bytes) :=
  [(key_read_bytes, appendUint v.readBytes),
   (key_write_bytes, appendUint v.writeBytes),
   (key_read_count, appendUint v.readCount),
   (key_write_count, appendUint v.writeCount),
   (key_read_time, appendUint v.readTime),
   (key_write_time, appendUint v.writeTime),
   (key_current_ios, appendUint v.currentIOs),
   (key_io_time, appendUint v.ioTime),
   (key_weighted_io, appendUint v.weightedIO)]

/-- The names of the fields of the record. -/
def IOStats.names : List Bytes :=
  [key_read_bytes, key_write_bytes, key_read_count, key_write_count, key_read_time,
   key_write_time, key_current_ios, key_io_time, key_weighted_io]

/-- Every number of the record fits the Go type of its field, every length fits 32 bits. -/
def MemStatus.Ok (v : MemStatus) : Prop :=
  InUint64 v.all ∧
  InUint64 v.used ∧
  InUint64 v.free ∧
  InUint64 v.self

/-- The record as names and values. -/
def MemStatus.wire (v : MemStatus) : List (Bytes × Bytes) :=
  [(key_all, appendUint v.all),
   (key_used, appendUint v.used),
   (key_free, appendUint v.free),
   (key_self, appendUint v.self)]

/-- The names of the fields of the record. -/
def MemStatus.names : List Bytes :=
  [key_all, key_used, key_free, key_self]

/-- Every number of the record fits the Go type of its field, every length fits 32 bits. -/
def CpuStat.Ok (v : CpuStat) : Prop :=
  InUint64 v.usedPercent ∧
  InInt64 v.logicalCount ∧
  InInt64 v.physicalCount

/-- The record as names and values. -/
def CpuStat.wire (v : CpuStat) : List (Bytes × Bytes) :=
  [(key_used_percent, appendFloat v.usedPercent),
   (key_logical_count, appendInt v.logicalCount),
   (key_physical_count, appendInt v.physicalCount)]

/-- The names of the fields of the record. -/
def CpuStat.names : List Bytes :=
  [key_used_percent, key_logical_count, key_physical_count]

/-- Every number of the record fits the Go type of its field, every length fits 32 bits. -/
def SysInfo.Ok (v : SysInfo) : Prop :=
  (∀ x, v.diskInfo = some x → DiskInfo.Ok x) ∧
  (∀ x, v.memStatus = some x → MemStatus.Ok x) ∧
  (∀ x, v.cpuStatus = some x → CpuStat.Ok x) ∧
  (∀ x, v.ioStatus = some x → IOStats.Ok x)

/-- Every string of the record consists of bytes. -/
def SysInfo.Bytewise (v : SysInfo) : Prop :=
  (∀ x, v.diskInfo = some x → DiskInfo.Bytewise x)

/-- The record as names and values. -/
def SysInfo.wire (v : SysInfo) : List (Bytes × Bytes) :=
  [(key_DiskInfo, appendPtr appendDiskInfo v.diskInfo),
   (key_MemStatus, appendPtr appendMemStatus v.memStatus),
   (key_CpuStatus, appendPtr appendCpuStat v.cpuStatus),
   (key_IoStatus, appendPtr appendIOStats v.ioStatus)]

/-- The names of the fields of the record. -/
def SysInfo.names : List Bytes :=
  [key_DiskInfo, key_MemStatus, key_CpuStatus, key_IoStatus]

end Verif.Msgp
