import Verif.Msgp.RecordProofs
import Verif.Util.Codec

/-!
# Records survive their binary form (C73)

Everything goodfs stores in bolt, in etcd, in the raft log or sends between servers goes through
the generated `MarshalMsg`/`UnmarshalMsg` methods.
-/

namespace Verif.Msgp

/-- common/util/util.go:203-209 `EncodeMsgp`; the generated methods never fail. -/
def encodeMsgp {α : Type} (app : α → Bytes) (v : α) : Bytes := app v

/-- common/util/util.go:194-200 `DecodeMsgp` into `z`: leftover bytes are ignored.  `none` is the
error return. -/
def decodeMsgp {α : Type} (read : α → Bytes → R α) (z : α) (b : Bytes) : Option α :=
  match read z b with
  | .ok (v, _) => some v
  | .error _ => none

/-! ## Specification -/

/-- The record comes back whatever the target held before and whatever follows the bytes. -/
def RoundTrip {α : Type} (app : α → Bytes) (read : α → Bytes → R α) (ok : α → Prop)
    (keep : α → α → α) : Prop :=
  ∀ v, ok v → ∀ z t, decodeMsgp read z (encodeMsgp app v ++ t) = some (keep z v)

/-- The fields may come in any order, with fields this version does not know between them. -/
def AnyOrder {α : Type} (wire : α → List (Bytes × Bytes)) (names : List Bytes)
    (read : α → Bytes → R α) (ok : α → Prop) (keep : α → α → α) : Prop :=
  ∀ v, ok v → ∀ us : List (Bytes × Value), (∀ u ∈ us, FieldOk u ∧ u.1 ∉ names) →
    ∀ ws : List (Bytes × Bytes), ws.Perm (wire v ++ extraFields us) → LenOk ws →
    ∀ z, decodeMsgp read z (wireBytes ws) = some (keep z v)

/-- A record cut off anywhere is reported as an error. -/
def TornRefused {α : Type} (app : α → Bytes) (read : α → Bytes → R α) (ok : α → Prop) : Prop :=
  ∀ v, ok v → ∀ p q, encodeMsgp app v = p ++ q → q ≠ [] → ∀ z, decodeMsgp read z p = none

/-- No two records have the same bytes; no record's bytes begin another's. -/
def Distinct {α : Type} (app : α → Bytes) (ok : α → Prop) (same : α → α → Prop) : Prop :=
  ∀ v w, ok v → ok w → ∀ t, encodeMsgp app v = encodeMsgp app w ++ t → same v w ∧ t = []

/-- The target's content is irrelevant. -/
def whole {α : Type} (_ v : α) : α := v

/-! ## The proof scheme -/

theorem roundTrip_of {α : Type} {app : α → Bytes} {read : α → Bytes → R α} {ok : α → Prop} {keep : α → α → α}
    (h : ∀ v, ok v → ∀ z t, read z (app v ++ t) = .ok (keep z v, t)) : RoundTrip app read ok keep := by
  intro v hv z t
  rw [decodeMsgp, encodeMsgp, h v hv z t]

theorem anyOrder_of {α : Type} {wire : α → List (Bytes × Bytes)} {names : List Bytes}
    {read : α → Bytes → R α} {ok : α → Prop} {keep : α → α → α}
    (h : ∀ v, ok v → ∀ us : List (Bytes × Value), (∀ u ∈ us, FieldOk u ∧ u.1 ∉ names) →
      ∀ ws : List (Bytes × Bytes), ws.Perm (wire v ++ extraFields us) → LenOk ws → ∀ z t,
      read z (wireBytes ws ++ t) = .ok (keep z v, t)) : AnyOrder wire names read ok keep := by
  intro v hv us hu ws hp hl z
  have := h v hv us hu ws hp hl z []
  rw [List.append_nil] at this
  rw [decodeMsgp, this]

theorem torn_of {α : Type} {app : α → Bytes} {read : α → Bytes → R α} {ok : α → Prop} {keep : α → α → α}
    (h : ∀ v, ok v → ∀ z t, read z (app v ++ t) = .ok (keep z v, t)) (hl : ∀ z, Loc (read z)) :
    TornRefused app read ok := by
  intro v hv p q he hq z
  have := h v hv z []
  rw [List.append_nil] at this
  obtain ⟨e, hp⟩ := prefix_refused (hl z) this he hq
  rw [decodeMsgp, hp]

theorem distinct_of {α : Type} {app : α → Bytes} {read : α → Bytes → R α} {ok : α → Prop} {keep : α → α → α}
    (z : α) (h : ∀ v, ok v → ∀ z t, read z (app v ++ t) = .ok (keep z v, t)) :
    Distinct app ok (fun v w => keep z v = keep z w) := by
  intro v w hv hw t he
  unfold encodeMsgp at he
  have h1 := h v hv z []
  have h2 := h w hw z t
  rw [List.append_nil, he, h2] at h1
  simp only [Except.ok.injEq, Prod.mk.injEq] at h1
  exact ⟨h1.1.symm, h1.2⟩

/-! ## Extra -/

/-- `Extra` comes back whole. -/
theorem C73_Extra_roundtrip : RoundTrip appendExtra readExtra Extra.Ok whole :=
  roundTrip_of Extra.read_append

/-- `Extra` is read in any field order and with unknown fields. -/
theorem C73_Extra_any_order : AnyOrder Extra.wire Extra.names readExtra Extra.Ok whole :=
  anyOrder_of Extra.read_wire

/-- A torn `Extra` is refused. -/
theorem C73_Extra_torn : TornRefused appendExtra readExtra Extra.Ok :=
  torn_of Extra.read_append loc_readExtra

/-- Different records have different bytes. -/
theorem C73_Extra_distinct : Distinct appendExtra Extra.Ok
    (fun v w => v = w) :=
  distinct_of (keep := whole) {} Extra.read_append

/-- What is written consists of bytes. -/
theorem C73_Extra_bytes (v : Extra) : AllBytes (encodeMsgp appendExtra v) := Extra.append_bytes v

/-! ## Metadata -/

/-- `Metadata` comes back whole. -/
theorem C73_Metadata_roundtrip : RoundTrip appendMetadata readMetadata Metadata.Ok whole :=
  roundTrip_of Metadata.read_append

/-- `Metadata` is read in any field order and with unknown fields. -/
theorem C73_Metadata_any_order : AnyOrder Metadata.wire Metadata.names readMetadata Metadata.Ok whole :=
  anyOrder_of Metadata.read_wire

/-- A torn `Metadata` is refused. -/
theorem C73_Metadata_torn : TornRefused appendMetadata readMetadata Metadata.Ok :=
  torn_of Metadata.read_append loc_readMetadata

/-- Different records have different bytes. -/
theorem C73_Metadata_distinct : Distinct appendMetadata Metadata.Ok
    (fun v w => v = w) :=
  distinct_of (keep := whole) {} Metadata.read_append

/-- What is written consists of bytes. -/
theorem C73_Metadata_bytes (v : Metadata) (h : v.Bytewise) : AllBytes (encodeMsgp appendMetadata v) :=
  Metadata.append_bytes v h

/-! ## Version -/

/-- A version record comes back whole. -/
theorem C73_Version_roundtrip : RoundTrip appendVersion readVersion Version.Ok whole :=
  roundTrip_of Version.read_append

/-- `Version` is read in any field order and with unknown fields. -/
theorem C73_Version_any_order : AnyOrder Version.wire Version.names readVersion Version.Ok whole :=
  anyOrder_of Version.read_wire

/-- A torn `Version` is refused. -/
theorem C73_Version_torn : TornRefused appendVersion readVersion Version.Ok :=
  torn_of Version.read_append loc_readVersion

/-- Different records have different bytes. -/
theorem C73_Version_distinct : Distinct appendVersion Version.Ok
    (fun v w => v = w) :=
  distinct_of (keep := whole) {} Version.read_append

/-- What is written consists of bytes. -/
theorem C73_Version_bytes (v : Version) (h : v.Bytewise) : AllBytes (encodeMsgp appendVersion v) :=
  Version.append_bytes v h

/-! ## Bucket -/

/-- `Bucket` comes back whole. -/
theorem C73_Bucket_roundtrip : RoundTrip appendBucket readBucket Bucket.Ok whole :=
  roundTrip_of Bucket.read_append

/-- `Bucket` is read in any field order and with unknown fields. -/
theorem C73_Bucket_any_order : AnyOrder Bucket.wire Bucket.names readBucket Bucket.Ok whole :=
  anyOrder_of Bucket.read_wire

/-- A torn `Bucket` is refused. -/
theorem C73_Bucket_torn : TornRefused appendBucket readBucket Bucket.Ok :=
  torn_of Bucket.read_append loc_readBucket

/-- Different records have different bytes. -/
theorem C73_Bucket_distinct : Distinct appendBucket Bucket.Ok
    (fun v w => v = w) :=
  distinct_of (keep := whole) {} Bucket.read_append

/-- What is written consists of bytes. -/
theorem C73_Bucket_bytes (v : Bucket) (h : v.Bytewise) : AllBytes (encodeMsgp appendBucket v) :=
  Bucket.append_bytes v h

/-! ## RaftData -/

/-- A raft log entry comes back whole, except for `batch`, which is not encoded. -/
theorem C73_RaftData_roundtrip : RoundTrip appendRaftData readRaftData RaftData.Ok (fun z v : RaftData => { v with batch := z.batch }) :=
  roundTrip_of RaftData.read_append

/-- `RaftData` is read in any field order and with unknown fields. -/
theorem C73_RaftData_any_order : AnyOrder RaftData.wire RaftData.names readRaftData RaftData.Ok (fun z v : RaftData => { v with batch := z.batch }) :=
  anyOrder_of RaftData.read_wire

/-- A torn `RaftData` is refused. -/
theorem C73_RaftData_torn : TornRefused appendRaftData readRaftData RaftData.Ok :=
  torn_of RaftData.read_append loc_readRaftData

/-- Different records have different bytes. -/
theorem C73_RaftData_distinct : Distinct appendRaftData RaftData.Ok
    (fun v w : RaftData => { v with batch := false } = { w with batch := false }) :=
  distinct_of (keep := (fun z v : RaftData => { v with batch := z.batch })) {} RaftData.read_append

/-- What is written consists of bytes. -/
theorem C73_RaftData_bytes (v : RaftData) (h : v.Bytewise) : AllBytes (encodeMsgp appendRaftData v) :=
  RaftData.append_bytes v h

/-! ## SlotInfo -/

/-- `SlotInfo` comes back whole. -/
theorem C73_SlotInfo_roundtrip : RoundTrip appendSlotInfo readSlotInfo SlotInfo.Ok whole :=
  roundTrip_of SlotInfo.read_append

/-- `SlotInfo` is read in any field order and with unknown fields. -/
theorem C73_SlotInfo_any_order : AnyOrder SlotInfo.wire SlotInfo.names readSlotInfo SlotInfo.Ok whole :=
  anyOrder_of SlotInfo.read_wire

/-- A torn `SlotInfo` is refused. -/
theorem C73_SlotInfo_torn : TornRefused appendSlotInfo readSlotInfo SlotInfo.Ok :=
  torn_of SlotInfo.read_append loc_readSlotInfo

/-- Different records have different bytes. -/
theorem C73_SlotInfo_distinct : Distinct appendSlotInfo SlotInfo.Ok
    (fun v w => v = w) :=
  distinct_of (keep := whole) {} SlotInfo.read_append

/-- What is written consists of bytes. -/
theorem C73_SlotInfo_bytes (v : SlotInfo) (h : v.Bytewise) : AllBytes (encodeMsgp appendSlotInfo v) :=
  SlotInfo.append_bytes v h

/-! ## AdminCredential -/

/-- `AdminCredential` comes back whole. -/
theorem C73_AdminCredential_roundtrip : RoundTrip appendAdminCredential readAdminCredential AdminCredential.Ok whole :=
  roundTrip_of AdminCredential.read_append

/-- `AdminCredential` is read in any field order and with unknown fields. -/
theorem C73_AdminCredential_any_order : AnyOrder AdminCredential.wire AdminCredential.names readAdminCredential AdminCredential.Ok whole :=
  anyOrder_of AdminCredential.read_wire

/-- A torn `AdminCredential` is refused. -/
theorem C73_AdminCredential_torn : TornRefused appendAdminCredential readAdminCredential AdminCredential.Ok :=
  torn_of AdminCredential.read_append loc_readAdminCredential

/-- Different records have different bytes. -/
theorem C73_AdminCredential_distinct : Distinct appendAdminCredential AdminCredential.Ok
    (fun v w => v = w) :=
  distinct_of (keep := whole) {} AdminCredential.read_append

/-- What is written consists of bytes. -/
theorem C73_AdminCredential_bytes (v : AdminCredential) (h : v.Bytewise) : AllBytes (encodeMsgp appendAdminCredential v) :=
  AdminCredential.append_bytes v h

/-! ## DiskInfo -/

/-- `DiskInfo` comes back whole. -/
theorem C73_DiskInfo_roundtrip : RoundTrip appendDiskInfo readDiskInfo DiskInfo.Ok whole :=
  roundTrip_of DiskInfo.read_append

/-- `DiskInfo` is read in any field order and with unknown fields. -/
theorem C73_DiskInfo_any_order : AnyOrder DiskInfo.wire DiskInfo.names readDiskInfo DiskInfo.Ok whole :=
  anyOrder_of DiskInfo.read_wire

/-- A torn `DiskInfo` is refused. -/
theorem C73_DiskInfo_torn : TornRefused appendDiskInfo readDiskInfo DiskInfo.Ok :=
  torn_of DiskInfo.read_append loc_readDiskInfo

/-- Different records have different bytes. -/
theorem C73_DiskInfo_distinct : Distinct appendDiskInfo DiskInfo.Ok
    (fun v w => v = w) :=
  distinct_of (keep := whole) {} DiskInfo.read_append

/-- What is written consists of bytes. -/
theorem C73_DiskInfo_bytes (v : DiskInfo) (h : v.Bytewise) : AllBytes (encodeMsgp appendDiskInfo v) :=
  DiskInfo.append_bytes v h

/-! ## IOStats -/

/-- `IOStats` comes back whole. -/
theorem C73_IOStats_roundtrip : RoundTrip appendIOStats readIOStats IOStats.Ok whole :=
  roundTrip_of IOStats.read_append

/-- `IOStats` is read in any field order and with unknown fields. -/
theorem C73_IOStats_any_order : AnyOrder IOStats.wire IOStats.names readIOStats IOStats.Ok whole :=
  anyOrder_of IOStats.read_wire

/-- A torn `IOStats` is refused. -/
theorem C73_IOStats_torn : TornRefused appendIOStats readIOStats IOStats.Ok :=
  torn_of IOStats.read_append loc_readIOStats

/-- Different records have different bytes. -/
theorem C73_IOStats_distinct : Distinct appendIOStats IOStats.Ok
    (fun v w => v = w) :=
  distinct_of (keep := whole) {} IOStats.read_append

/-- What is written consists of bytes. -/
theorem C73_IOStats_bytes (v : IOStats) : AllBytes (encodeMsgp appendIOStats v) := IOStats.append_bytes v

/-! ## MemStatus -/

/-- `MemStatus` comes back whole. -/
theorem C73_MemStatus_roundtrip : RoundTrip appendMemStatus readMemStatus MemStatus.Ok whole :=
  roundTrip_of MemStatus.read_append

/-- `MemStatus` is read in any field order and with unknown fields. -/
theorem C73_MemStatus_any_order : AnyOrder MemStatus.wire MemStatus.names readMemStatus MemStatus.Ok whole :=
  anyOrder_of MemStatus.read_wire

/-- A torn `MemStatus` is refused. -/
theorem C73_MemStatus_torn : TornRefused appendMemStatus readMemStatus MemStatus.Ok :=
  torn_of MemStatus.read_append loc_readMemStatus

/-- Different records have different bytes. -/
theorem C73_MemStatus_distinct : Distinct appendMemStatus MemStatus.Ok
    (fun v w => v = w) :=
  distinct_of (keep := whole) {} MemStatus.read_append

/-- What is written consists of bytes. -/
theorem C73_MemStatus_bytes (v : MemStatus) : AllBytes (encodeMsgp appendMemStatus v) := MemStatus.append_bytes v

/-! ## CpuStat -/

/-- `CpuStat` comes back whole. -/
theorem C73_CpuStat_roundtrip : RoundTrip appendCpuStat readCpuStat CpuStat.Ok whole :=
  roundTrip_of CpuStat.read_append

/-- `CpuStat` is read in any field order and with unknown fields. -/
theorem C73_CpuStat_any_order : AnyOrder CpuStat.wire CpuStat.names readCpuStat CpuStat.Ok whole :=
  anyOrder_of CpuStat.read_wire

/-- A torn `CpuStat` is refused. -/
theorem C73_CpuStat_torn : TornRefused appendCpuStat readCpuStat CpuStat.Ok :=
  torn_of CpuStat.read_append loc_readCpuStat

/-- Different records have different bytes. -/
theorem C73_CpuStat_distinct : Distinct appendCpuStat CpuStat.Ok
    (fun v w => v = w) :=
  distinct_of (keep := whole) {} CpuStat.read_append

/-- What is written consists of bytes. -/
theorem C73_CpuStat_bytes (v : CpuStat) : AllBytes (encodeMsgp appendCpuStat v) := CpuStat.append_bytes v

/-! ## SysInfo -/

/-- `SysInfo` comes back whole. -/
theorem C73_SysInfo_roundtrip : RoundTrip appendSysInfo readSysInfo SysInfo.Ok whole :=
  roundTrip_of SysInfo.read_append

/-- `SysInfo` is read in any field order and with unknown fields. -/
theorem C73_SysInfo_any_order : AnyOrder SysInfo.wire SysInfo.names readSysInfo SysInfo.Ok whole :=
  anyOrder_of SysInfo.read_wire

/-- A torn `SysInfo` is refused. -/
theorem C73_SysInfo_torn : TornRefused appendSysInfo readSysInfo SysInfo.Ok :=
  torn_of SysInfo.read_append loc_readSysInfo

/-- Different records have different bytes. -/
theorem C73_SysInfo_distinct : Distinct appendSysInfo SysInfo.Ok
    (fun v w => v = w) :=
  distinct_of (keep := whole) {} SysInfo.read_append

/-- What is written consists of bytes. -/
theorem C73_SysInfo_bytes (v : SysInfo) (h : v.Bytewise) : AllBytes (encodeMsgp appendSysInfo v) :=
  SysInfo.append_bytes v h

/-! ## Lists of versions -/

/-- A list of versions written by `EncodeArrayMsgp` (the answer of `ListVersions`) is read back by
`DecodeArrayMsgp` as the same list: the frames of C10 around the records of C73. -/
theorem C73_version_list (vs : List Version) (h : ∀ v ∈ vs, v.Ok)
    (hs : ∀ v ∈ vs, (encodeMsgp appendVersion v).length ≤ Verif.Codec.maxInt32) :
    ∃ data, Verif.Codec.encodeArray (fun v => some (encodeMsgp appendVersion v)) vs = .ok data ∧
      ∀ ext, Verif.Codec.decodeArray (decodeMsgp readVersion {}) data ext = .ok vs := by
  refine Verif.Codec.C10_array_roundtrip _ _ vs ?_ (fun v hv => ⟨_, rfl, hs v hv⟩)
  intro v hv b hb
  simp only [Option.some.injEq] at hb
  subst hb
  simpa [whole] using C73_Version_roundtrip v (h v hv) {} []

/-- What `DecodeMsgp` does not report: bytes after the record. -/
theorem C73_trailing_ignored (v : Metadata) (h : v.Ok) (t : Bytes) :
    decodeMsgp readMetadata {} (encodeMsgp appendMetadata v ++ t) = some v :=
  C73_Metadata_roundtrip v h {} t

/-! ## Concrete cases -/

/-- A version with every kind of field: a negative number, a two byte number, a string list. -/
def sampleVersion : Version where
  compress := true
  storeStrategy := 2
  dataShards := 4
  parityShards := -1
  shardSize := 70000
  size := 300
  ts := 1700000000
  sequence := 9223372036854775808
  hash := [0x61, 0x62]
  uniqueId := [0x75]
  locate := [[0x68, 0x31], []]

theorem sampleVersion_ok : sampleVersion.Ok := by
  simp [Version.Ok, sampleVersion, InInt8, InInt32, InInt64, InUint64, LenOk]

/-- A log entry that carries the version and no bucket. -/
def sampleLog : RaftData where
  typ := 1
  dest := 1
  name := [0x62, 0x2f, 0x6e]
  sequence := 7
  version := some sampleVersion
  metadata := some { extra := some { total := 3, firstVersion := 1, lastVersion := 3 }, name := [0x6e] }
  batch := true

theorem sampleLog_ok : sampleLog.Ok := by
  refine ⟨?_, ?_, ?_, ?_, ?_, ?_, ?_⟩
  · simp [sampleLog, InInt8]
  · simp [sampleLog, InInt8]
  · simp [sampleLog, LenOk]
  · simp [sampleLog, InUint64]
  · intro x hx
    simp only [sampleLog, Option.some.injEq] at hx
    subst hx
    exact sampleVersion_ok
  · intro x hx
    simp only [sampleLog, Option.some.injEq] at hx
    subst hx
    simp [Metadata.Ok, Extra.Ok, InInt64, LenOk]
  · intro x hx
    simp [sampleLog] at hx

/-- The entry comes back into a dirty target; `batch` is the target's. -/
example : decodeMsgp readRaftData { name := [1], bucket := some {} } (encodeMsgp appendRaftData sampleLog) =
    some { sampleLog with batch := false } := by
  have := C73_RaftData_roundtrip sampleLog sampleLog_ok { name := [1], bucket := some {} } []
  rwa [List.append_nil] at this

/-- The bytes of a small record. -/
example : encodeMsgp appendAdminCredential { username := [0x61], password := [0x62, 0x63] } =
    [0x82, 0xa8, 0x75, 0x73, 0x65, 0x72, 0x6e, 0x61, 0x6d, 0x65, 0xa1, 0x61,
     0xa8, 0x70, 0x61, 0x73, 0x73, 0x77, 0x6f, 0x72, 0x64, 0xa2, 0x62, 0x63] := by decide

/-- The same record from a newer program: other order, one more field. -/
example : decodeMsgp readAdminCredential { username := [9] }
    (wireBytes [(key_password, appendStr [0x62]), ([0x78], (Value.arr (.cons (.int (-5)) .nil)).enc),
      (key_username, appendStr [0x61])]) = some { username := [0x61], password := [0x62] } := by
  refine C73_AdminCredential_any_order { username := [0x61], password := [0x62] } ?_
    [([0x78], Value.arr (.cons (.int (-5)) .nil))] ?_ _ ?_ ?_ _
  · simp [AdminCredential.Ok, LenOk]
  · intro u hu
    simp only [List.mem_singleton] at hu
    subst hu
    exact ⟨⟨by simp [LenOk], by simp [Value.Ok, Values.Ok, Values.length]⟩, by decide⟩
  · simp only [AdminCredential.wire, extraFields, List.map_cons, List.map_nil, List.cons_append,
      List.nil_append]
    exact (List.Perm.swap _ _ _).trans
      ((List.Perm.swap _ _ _).cons _ |>.trans (List.Perm.swap _ _ _) |>.trans
        ((List.Perm.swap _ _ _).cons _))
  · simp [LenOk]

/-- A torn record. -/
example : decodeMsgp readAdminCredential {} [0x82, 0xa8, 0x75, 0x73, 0x65] = none :=
  C73_AdminCredential_torn { username := [0x61], password := [0x62] } (by simp [AdminCredential.Ok, LenOk])
    _ [0x72, 0x6e, 0x61, 0x6d, 0x65, 0xa1, 0x61, 0xa8, 0x70, 0x61, 0x73, 0x73, 0x77, 0x6f, 0x72, 0x64, 0xa1, 0x62]
    rfl (by simp) {}

/-- A number that does not fit the Go type of its field does not come back: the range conditions
are needed. -/
example : decodeMsgp readVersion {} (encodeMsgp appendVersion { sampleVersion with storeStrategy := 300 }) = none := by
  rfl

end Verif.Msgp
