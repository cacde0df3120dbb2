import Verif.Common.Str
import Verif.Object.Disk

/-!
# Files of a data server (C48) and the object cache in front of them (C50)

Models src/objectserver/internal/usecase/service/objects_service.go (files),
controller/http/temp/temp_rest.go (PATCH), controller/http/objects/objects_rest.go and objects_cache.go.
Disks are assumed to store what is written; several mount points are the subject of
`Verif.Object.Paths`.
-/

namespace Verif.Object

/-- Pass lengths of a copy loop with one buffer of `B` bytes, enough for `n` bytes. -/
def passes (B n : Nat) : List Nat := List.replicate (n / B + 1) B

theorem passes_sum {B : Nat} (hB : 0 < B) (n : Nat) : n < (passes B n).sum := by
  have hsum : ∀ k : Nat, (List.replicate k B).sum = k * B := by
    intro k
    induction k with
    | zero => simp
    | succ k ih => rw [List.replicate_succ, List.sum_cons, ih, Nat.add_mul]; omega
  have := Nat.lt_div_mul_add (a := n) hB
  rw [passes, hsum, Nat.add_mul]; omega

/-- `AppendFileAligned`, objects_service.go:230-237, with an effective buffer of `B` bytes.
(`io.CopyBuffer` hands the copy to `os.File.ReadFrom`, whose buffer has 32 KB; the theorems hold for
every multiple of 4096.)  Result: the file afterwards, and whether the request failed. -/
def appendAligned (B : Nat) (f : Bytes) (body : Src) : Bytes × Bool :=
  let r := padCopy (passes B body.data.length) body
  (f ++ r.1, r.2 == some .fail)

theorem appendAligned_ok {B : Nat} (hB : 0 < B) (hp : pageSize ∣ B) (f b : Bytes) :
    appendAligned B f ⟨b, false⟩ = (f ++ padded b, false) := by
  have := C49_padded (passes B b.length)
    (fun n hn => by rw [passes] at hn; rw [List.eq_of_mem_replicate hn]; exact ⟨hB, hp⟩) b (passes_sum hB _)
  simp only [appendAligned, this, padded]
  rfl

/-- The file after uploading `pieces`, one PATCH request each (temp_rest.go:19-34). -/
def storePieces (B : Nat) (pieces : List Bytes) : Bytes :=
  pieces.foldl (fun f p => (appendAligned B f ⟨p, false⟩).1) []

theorem storePieces_eq {B : Nat} (hB : 0 < B) (hp : pageSize ∣ B) (pieces : List Bytes) :
    storePieces B pieces = (pieces.map padded).flatten := by
  have : ∀ (ps : List Bytes) (f : Bytes),
      ps.foldl (fun f p => (appendAligned B f ⟨p, false⟩).1) f = f ++ (ps.map padded).flatten := by
    intro ps
    induction ps with
    | nil => intro f; simp
    | cons p ps ih =>
      intro f
      rw [List.foldl_cons, ih, appendAligned_ok hB hp]
      simp
  have h := this pieces []
  rw [List.nil_append] at h
  exact h

/-- `GetFile`, objects_service.go:129-152.  The file delivers as much as is asked for.  `lost`: how much
of the additional 4096 bytes that `AlignedBlock` allocates precedes the first page boundary (0 for
allocations that begin at a page boundary).  `none`: panic. -/
def getFile (lost : Nat) (f : Bytes) (off size : Nat) : Option Bytes :=
  let B := min size (8 * pageSize)
  let cap := B + (pageSize - lost)
  (limCopy (List.replicate (f.length + 2) ⟨B, cap, cap⟩) (size, f.drop off)).map (·.1)

theorem getFile_ok {lost : Nat} (hl : lost ≤ 1) (f : Bytes) (off size : Nat) (hs : 0 < size) :
    getFile lost f off size = some ((f.drop off).take size) := by
  obtain ⟨b, e, h1, h2⟩ := limCopy_spec
    (List.replicate (f.length + 2) ⟨min size (8 * pageSize), min size (8 * pageSize) + (pageSize - lost),
      min size (8 * pageSize) + (pageSize - lost)⟩) (size, f.drop off) (fun q hq => by
    rw [List.eq_of_mem_replicate hq]
    refine ⟨by simp only [pageSize]; omega, fun n _ => ?_⟩
    unfold limLen
    split
    · have := alignedSize_lt n
      simp only [pageSize] at *
      omega
    · simp only; omega)
  simp only [getFile, h1, Option.map_some]
  rcases h2 with ⟨_, h4⟩ | ⟨_, h4, h5⟩
  · rw [h4]
  · have := h4.length_le
    simp only [List.length_take, List.length_drop, List.length_replicate] at this h5
    omega

/-- Reading from the start of a file that is long enough never panics, wherever the buffer lies. -/
theorem getFile_start {lost : Nat} (hl : lost < pageSize) (f : Bytes) (size : Nat) (hs : 0 < size)
    (hf : size ≤ f.length) : getFile lost f 0 size = some (f.take size) := by
  by_cases hb : size ≤ 8 * pageSize
  · simp only [getFile, List.drop_zero]
    have hB : min size (8 * pageSize) = size := by omega
    rw [hB, show f.length + 2 = (f.length + 1) + 1 from rfl, List.replicate_succ, List.replicate_succ]
    have hne : f ≠ [] := by intro h; rw [h] at hf; simp at hf; omega
    have hlim : limLen size size = size := by simp [limLen]
    have hk : max 1 (min (size + (pageSize - lost)) (min size f.length)) = size := by omega
    have h1 : limRead (size, f) ⟨size, size + (pageSize - lost), size + (pageSize - lost)⟩ =
        some (f.take size, none, (0, f.drop size)) := by
      simp only [limRead, hlim]
      rw [if_neg (by omega), if_neg (by omega), if_neg (by omega), if_neg hne, hk]
      simp
    simp only [limCopy, h1]
    simp [limRead]
  · obtain ⟨b, e, h1, h2⟩ := limCopy_spec
      (List.replicate (f.length + 2) ⟨min size (8 * pageSize), min size (8 * pageSize) + (pageSize - lost),
        min size (8 * pageSize) + (pageSize - lost)⟩) (size, f) (fun q hq => by
      rw [List.eq_of_mem_replicate hq]
      refine ⟨by simp only [pageSize]; omega, fun n _ => ?_⟩
      unfold limLen
      split
      · have := alignedSize_le (b := 8 * pageSize) (Nat.dvd_mul_left _ _)
          (show n ≤ 8 * pageSize by simp only at *; omega)
        simp only
        omega
      · simp only; omega)
    simp only [getFile, List.drop_zero, h1, Option.map_some]
    rcases h2 with ⟨_, h4⟩ | ⟨_, h4, h5⟩
    · rw [h4]
    · have := h4.length_le
      simp only [List.length_take, List.length_replicate] at this h5
      omega

/-- All pieces but the last have a length that is a multiple of 4096. -/
def AlignedPieces : List Bytes → Prop
  | [] => True
  | [_] => True
  | p :: q :: rest => pageSize ∣ p.length ∧ AlignedPieces (q :: rest)

theorem padded_of_dvd (b : Bytes) (h : pageSize ∣ b.length) : padded b = b := by
  simp [padded, alignedSize_of_dvd h]

theorem alignedPieces_flatten (pieces : List Bytes) (h : AlignedPieces pieces) :
    (pieces.map padded).flatten = padded pieces.flatten := by
  induction pieces with
  | nil => simp [padded, alignedSize]
  | cons p rest ih =>
    cases rest with
    | nil => simp
    | cons q rest =>
      obtain ⟨h1, h2⟩ := h
      rw [List.map_cons, List.flatten_cons, ih h2, padded_of_dvd p h1]
      rw [show (p :: q :: rest).flatten = p ++ (q :: rest).flatten from rfl, padded_append p _ h1]

/-- **C48** A shard stored in pieces, all but the last of a length that is a multiple of 4096, and read
back with its size, is the concatenation of the pieces.  Missing for the full property: other lengths of
pieces (`C48_unaligned_pieces`). -/
theorem C48_store_partial {B lost : Nat} (hB : 0 < B) (hp : pageSize ∣ B) (hl : lost < pageSize)
    (pieces : List Bytes) (ha : AlignedPieces pieces) (hne : pieces.flatten ≠ []) :
    getFile lost (storePieces B pieces) 0 pieces.flatten.length = some pieces.flatten := by
  rw [storePieces_eq hB hp, alignedPieces_flatten _ ha]
  rw [getFile_start hl _ _ (List.length_pos_iff.2 hne) (by rw [padded_length]; exact le_alignedSize _)]
  simp [padded]

/-- With an offset the remaining bytes are delivered if exactly their number is asked for. -/
theorem C48_store_tail_partial {B lost : Nat} (hB : 0 < B) (hp : pageSize ∣ B) (hl : lost ≤ 1)
    (pieces : List Bytes) (ha : AlignedPieces pieces) (off : Nat) (ho : off < pieces.flatten.length) :
    getFile lost (storePieces B pieces) off (pieces.flatten.length - off) =
      some (pieces.flatten.drop off) := by
  rw [storePieces_eq hB hp, alignedPieces_flatten _ ha, getFile_ok hl _ _ _ (by omega)]
  congr 1
  unfold padded
  rw [List.drop_append_of_le_length (by omega), List.take_append_of_le_length (by simp)]
  rw [List.take_of_length_le (by simp)]

/-- Asking for the full size from an offset — as `GetStream` does (get_stream.go:34-35) — delivers zeros
behind the content, taken from the padding. -/
theorem C48_offset_reads_padding {B lost : Nat} (hB : 0 < B) (hp : pageSize ∣ B) (hl : lost ≤ 1)
    (b : Bytes) (off : Nat) (ho : off ≤ b.length) (hs : b.length + off ≤ alignedSize b.length)
    (hb : 0 < b.length) :
    getFile lost (storePieces B [b]) off b.length = some (b.drop off ++ List.replicate off 0) := by
  rw [storePieces_eq hB hp, getFile_ok hl _ _ _ hb]
  simp only [List.map_cons, List.map_nil, List.flatten_cons, List.flatten_nil, List.append_nil, padded]
  congr 1
  rw [List.drop_append_of_le_length ho, List.take_append, List.take_of_length_le (by simp)]
  congr 1
  simp only [List.length_drop, List.take_replicate]
  congr 1
  omega

example : (100 : Nat) ≤ ([1, 2, 3] : Bytes).length + 97 ∧
    ([1, 2, 3] : Bytes).length + 1 ≤ alignedSize ([1, 2, 3] : Bytes).length := by decide

/-- The first bytes of a file whose first piece was not a multiple of 4096: the second piece is not where
it should be, there are zeros instead. -/
theorem unaligned_reads_zero {B lost : Nat} (hB : 0 < B) (hp : pageSize ∣ B) (hl : lost < pageSize)
    (p q : Bytes) (hq : 0 < q.length) (h : p.length + q.length ≤ alignedSize p.length) :
    getFile lost (storePieces B [p, q]) 0 (p.length + q.length) =
      some (p ++ List.replicate q.length 0) := by
  rw [storePieces_eq hB hp, getFile_start hl _ _ (by omega) (by
    simp only [List.map_cons, List.map_nil, List.flatten_cons, List.flatten_nil, List.append_nil,
      List.length_append, padded_length]
    have := le_alignedSize q.length
    omega)]
  simp only [List.map_cons, List.map_nil, List.flatten_cons, List.flatten_nil, List.append_nil]
  rw [List.take_append_of_le_length (by rw [padded_length]; exact h)]
  unfold padded
  rw [List.take_append, List.take_of_length_le (by omega)]
  congr 2
  simp only [List.take_replicate]
  congr 1
  omega

/-- The property as stated. -/
def StoresExactly : Prop :=
  ∀ (B lost : Nat) (pieces : List Bytes), 0 < B → pageSize ∣ B → lost < pageSize → pieces.flatten ≠ [] →
    getFile lost (storePieces B pieces) 0 pieces.flatten.length = some pieces.flatten

/-- **C48 fails** for pieces of other lengths: the bytes 1 and 2, sent in two pieces, come back as 1 and
0, without an error. -/
theorem C48_unaligned_pieces :
    getFile 0 (storePieces 32768 [[1], [2]]) 0 2 = some [1, 0] :=
  unaligned_reads_zero (p := [1]) (q := [2]) (by decide) (by decide) (by decide) (by decide) (by decide)

theorem C48_statement_fails : ¬ StoresExactly := by
  intro h
  have h1 := h 32768 0 [[1], [2]] (by decide) (by decide) (by decide) (by decide)
  have h2 : getFile 0 (storePieces 32768 [[1], [2]]) 0 2 = some [1, 2] := h1
  rw [C48_unaligned_pieces] at h2
  exact absurd h2 (by decide)

/-- Pieces as the default configuration sends them. -/
example : AlignedPieces [List.replicate 16384 1, List.replicate 16384 2, [3]] := by
  refine ⟨?_, ?_, trivial⟩ <;> rw [List.length_replicate] <;> exact by decide

/-! ## `WriteFileWithSize` -/

/-- `WriteFileWithSize`, objects_service.go:191-227 (used by the tests of the repository only).  `none`:
an error is returned.  The file is opened at its start and without `O_APPEND`. -/
def writeWithSize (f : Bytes) (cur : Nat) (data : Bytes) : Option Bytes :=
  if f.length ≥ cur + pageSize then none
  else if f.length > cur then
    if f.length < pageSize then none
    else
      let tail := (f.drop (f.length - pageSize)).take (pageSize - (f.length - cur))
      some (f.take (f.length - pageSize) ++ padded (tail ++ data))
  else some (padded data ++ f.drop (alignedSize data.length))

/-- **C48** Appending with removal of the padding: works whenever there is padding to remove. -/
theorem C48_write_with_size_partial (content data : Bytes) (hpad : ¬ pageSize ∣ content.length) :
    ∃ f', writeWithSize (padded content) content.length data = some f' ∧
      f' = padded (content ++ data) := by
  have h1 := le_alignedSize content.length
  have h2 := alignedSize_lt content.length
  have h3 := alignedSize_dvd content.length
  have h4 : content.length < alignedSize content.length := by
    rcases Nat.lt_or_ge content.length (alignedSize content.length) with h | h
    · exact h
    · have : content.length = alignedSize content.length := by omega
      exact absurd (this ▸ h3) hpad
  have h5 : pageSize ≤ alignedSize content.length := Nat.le_of_dvd (by omega) h3
  refine ⟨_, ?_, rfl⟩
  unfold writeWithSize
  rw [padded_length, if_neg (by omega), if_pos h4, if_neg (by omega)]
  show some _ = some _
  refine congrArg some ?_
  have hlen : alignedSize content.length - pageSize ≤ content.length := by omega
  have e1 : (padded content).take (alignedSize content.length - pageSize) =
      content.take (alignedSize content.length - pageSize) := by
    unfold padded
    rw [List.take_append_of_le_length hlen]
  have e2 : ((padded content).drop (alignedSize content.length - pageSize)).take
      (pageSize - (alignedSize content.length - content.length)) =
      content.drop (alignedSize content.length - pageSize) := by
    unfold padded
    rw [List.drop_append_of_le_length hlen, List.take_append_of_le_length (by simp; omega),
      List.take_of_length_le (by simp; omega)]
  rw [e1, e2]
  have h6 : (content.take (alignedSize content.length - pageSize)).length =
      alignedSize content.length - pageSize := by rw [List.length_take]; omega
  rw [← padded_append _ _ (by rw [h6]; exact Nat.dvd_sub h3 (Nat.dvd_refl _)), ← List.append_assoc,
    List.take_append_drop]

/-- **C48** A file that is longer than the stated size by a page or more is not the padded file of that size, and is
refused. -/
theorem C48_write_with_size_refuses (f data : Bytes) (cur : Nat) :
    (cur + pageSize ≤ f.length → writeWithSize f cur data = none) ∧
    ∀ content : Bytes, content.length = cur → f = padded content → f.length < cur + pageSize := by
  refine ⟨fun h => by unfold writeWithSize; rw [if_pos h], ?_⟩
  rintro content rfl rfl
  have := alignedSize_lt content.length
  rw [padded_length]; omega

example : ¬ pageSize ∣ ([1, 2, 3] : Bytes).length := by decide

/-- **C48 fails** for `WriteFileWithSize` on a file without padding: the beginning of the file is
overwritten instead. -/
theorem C48_write_with_size_overwrites (f data : Bytes) (hl : alignedSize data.length ≤ f.length) :
    ∃ f', writeWithSize f f.length data = some f' ∧ f'.length = f.length ∧
      f'.take data.length = data := by
  refine ⟨padded data ++ f.drop (alignedSize data.length), ?_, ?_, ?_⟩
  · unfold writeWithSize
    have : 0 < pageSize := by decide
    rw [if_neg (by omega), if_neg (by omega)]
  · simp only [List.length_append, padded_length, List.length_drop]; omega
  · simp [padded]

example : alignedSize ([1] : Bytes).length ≤ (List.replicate pageSize (7 : UInt8)).length := by
  rw [List.length_replicate]; decide

/-! ## The object cache in front of the files (C50) -/

/-- A data server: files and the object cache.  Names are the file names. -/
structure DS where
  files : Str → Option Bytes
  cache : Str → Option Bytes

inductive DsOp
  /-- PUT /objects/:name; `keep`: the goroutine that fills the cache has run. -/
  | put (name : Str) (body : Bytes) (keep : Bool)
  /-- GET /objects/:name with range start and size header. -/
  | get (name : Str) (off size : Nat) (keep : Bool)
  | delete (name : Str)
  /-- Eviction from the cache. -/
  | evict (name : Str)

def upd {α : Type} (m : Str → Option α) (k : Str) (v : Option α) : Str → Option α :=
  fun x => if x = k then v else m x

/-- One request, with the answer to a GET (`none`: not a GET or an error).  `maxItem`:
`Cache.MaxItemSize`.  objects_rest.go:18-93, objects_cache.go:11-22; `Exist` is taken to agree with the
files. -/
def DS.step (B maxItem : Nat) (d : DS) : DsOp → DS × Option Bytes
  | .put name body keep =>
    match d.files name with
    | some _ => (d, none)
    | none =>
      let files := upd d.files name (some (storePieces B [body]))
      (⟨files, if keep ∧ body.length ≤ maxItem ∧ body ≠ [] then upd d.cache name (some body) else d.cache⟩,
        none)
  | .get name off size keep =>
    match d.cache name with
    | some bt => (d, some bt)
    | none =>
      match d.files name with
      | none => (d, none)
      | some f =>
        match getFile 0 f off size with
        | none => (d, none)
        | some b =>
          (⟨d.files, if keep ∧ size ≤ maxItem ∧ b ≠ [] then upd d.cache name (some b) else d.cache⟩, some b)
  | .delete name => (⟨upd d.files name none, upd d.cache name none⟩, none)
  | .evict name => (⟨d.files, upd d.cache name none⟩, none)

def DS.run (B maxItem : Nat) : DS → List DsOp → DS × List (Option Bytes)
  | d, [] => (d, [])
  | d, op :: ops =>
    let r := d.step B maxItem op
    let r' := DS.run B maxItem r.1 ops
    (r'.1, r.2 :: r'.2)

def DS.empty : DS := ⟨fun _ => none, fun _ => none⟩

/-- Specification: the bodies stored under each name. -/
def specStep (m : Str → Option Bytes) : DsOp → (Str → Option Bytes)
  | .put name body _ => if (m name).isSome then m else upd m name (some body)
  | .delete name => upd m name none
  | _ => m

/-- The answer a client may expect. -/
def specAnswer (m : Str → Option Bytes) : DsOp → Option Bytes
  | .get name off _ _ => (m name).map (List.drop off)
  | _ => none

def specRun (m : Str → Option Bytes) : List DsOp → List (Option Bytes)
  | [] => []
  | op :: ops => specAnswer m op :: specRun (specStep m op) ops

/-- Every GET asks for the full size of what is stored, from the start; nothing empty is stored. -/
def FullReads (m : Str → Option Bytes) : List DsOp → Prop
  | [] => True
  | op :: ops => (match op with
      | .get name off size _ => off = 0 ∧ ∀ b, m name = some b → size = b.length
      | .put _ body _ => body ≠ []
      | _ => True) ∧ FullReads (specStep m op) ops

structure DsInv (m : Str → Option Bytes) (d : DS) : Prop where
  files : ∀ n, d.files n = (m n).map padded
  cache : ∀ n c, d.cache n = some c → m n = some c
  nonempty : ∀ n b, m n = some b → b ≠ []

theorem run_full {B maxItem : Nat} (hB : 0 < B) (hp : pageSize ∣ B) (ops : List DsOp)
    (m : Str → Option Bytes) (d : DS) (h : DsInv m d) (hf : FullReads m ops) :
    (d.run B maxItem ops).2 = specRun m ops := by
  induction ops generalizing m d with
  | nil => rfl
  | cons op ops ih =>
    obtain ⟨hop, hrest⟩ := hf
    suffices hs : (d.step B maxItem op).2 = specAnswer m op ∧
        DsInv (specStep m op) (d.step B maxItem op).1 by
      simp only [DS.run, specRun, hs.1]
      rw [ih _ _ hs.2 hrest]
    cases op with
    | put name body keep =>
      simp only at hop
      cases hm : m name with
      | some b0 =>
        have : d.files name = some (padded b0) := by rw [h.files, hm]; rfl
        simp only [DS.step, this, specAnswer, specStep, hm, Option.isSome_some, if_true]
        exact ⟨trivial, h⟩
      | none =>
        have : d.files name = none := by rw [h.files, hm]; rfl
        simp only [DS.step, this, specAnswer, specStep, hm, Option.isSome_none, Bool.false_eq_true, if_false]
        refine ⟨trivial, ⟨fun n => ?_, fun n c hc => ?_, fun n b hb => ?_⟩⟩
        · simp only [upd]
          split
          · simp [storePieces_eq hB hp]
          · exact h.files n
        · simp only at hc
          split at hc
          · simp only [upd] at hc ⊢
            split at hc
            · rename_i hn; simp only [Option.some.injEq] at hc; simp [hn, hc]
            · rename_i hn; simp only [hn, if_false]; exact h.cache n c hc
          · have := h.cache n c hc
            simp only [upd]
            split
            · rename_i hn; rw [hn, hm] at this; cases this
            · exact this
        · simp only [upd] at hb
          split at hb
          · cases hb; exact hop
          · exact h.nonempty n b hb
    | get name off size keep =>
      simp only at hop
      obtain ⟨hoff, hsize⟩ := hop
      subst hoff
      simp only [specAnswer, specStep]
      cases hc : d.cache name with
      | some c =>
        have := h.cache name c hc
        simp only [DS.step, hc, this, Option.map_some, List.drop_zero, true_and]
        exact h
      | none =>
        cases hm : m name with
        | none =>
          have : d.files name = none := by rw [h.files, hm]; rfl
          simp only [DS.step, hc, this, Option.map_none, true_and]
          exact h
        | some b =>
          have hfile : d.files name = some (padded b) := by rw [h.files, hm]; rfl
          have hb := h.nonempty name b hm
          have hsz := hsize b hm
          have hg : getFile 0 (padded b) 0 size = some b := by
            rw [hsz, getFile_start (by decide) _ _ (List.length_pos_iff.2 hb)
              (by rw [padded_length]; exact le_alignedSize _)]
            simp [padded]
          simp only [DS.step, hc, hfile, hg, Option.map_some, List.drop_zero, true_and]
          refine ⟨h.files, fun n c hcn => ?_, h.nonempty⟩
          simp only at hcn
          split at hcn
          · simp only [upd] at hcn
            split at hcn
            · rename_i hn; cases hcn; rw [hn]; exact hm
            · exact h.cache n c hcn
          · exact h.cache n c hcn
    | delete name =>
      simp only [DS.step, specAnswer, specStep, true_and]
      refine ⟨fun n => ?_, fun n c hcn => ?_, fun n b hb => ?_⟩
      · simp only [upd]; split
        · rfl
        · exact h.files n
      · simp only [upd] at hcn ⊢; split at hcn
        · cases hcn
        · rename_i hn; simp only [hn, if_false]; exact h.cache n c hcn
      · simp only [upd] at hb; split at hb
        · cases hb
        · exact h.nonempty n b hb
    | evict name =>
      simp only [DS.step, specAnswer, specStep, true_and]
      refine ⟨h.files, fun n c hcn => ?_, h.nonempty⟩
      simp only [upd] at hcn; split at hcn
      · cases hcn
      · exact h.cache n c hcn

/-- **C50** For every sequence of requests in which each read asks for the whole shard: the answers are
the stored bytes, whether or not the cache answers, however entries are evicted and whenever the
goroutines that fill it run before the next request.  Missing for the full property: reads with an
offset (`C50_cache_ignores_offset`, `C50_offset_poisons_cache`). -/
theorem C50_full_reads_partial {B maxItem : Nat} (hB : 0 < B) (hp : pageSize ∣ B) (ops : List DsOp)
    (hf : FullReads (fun _ => none) ops) :
    (DS.empty.run B maxItem ops).2 = specRun (fun _ => none) ops :=
  run_full hB hp ops _ _ ⟨fun _ => rfl, fun _ _ h => (by cases h), fun _ _ h => (by cases h)⟩ hf

def shardName : Str := ['h', '.', '0']

example : FullReads (fun _ => none) [.put shardName [1, 2, 3] true, .get shardName 0 3 true,
    .evict shardName, .get shardName 0 3 true, .delete shardName, .get shardName 0 3 true] := by
  refine ⟨by decide, ⟨rfl, ?_⟩, trivial, ⟨rfl, ?_⟩, trivial, ⟨rfl, ?_⟩, trivial⟩ <;>
    intro b hb <;> simp [specStep, upd] at hb <;> rw [← hb] <;> rfl

/-- **C50** (offsets, no cache) When no item fits into the cache, reads of the remaining bytes from any
offset are answered exactly. -/
theorem C50_uncached_tail_partial {B : Nat} (hB : 0 < B) (hp : pageSize ∣ B) (name : Str) (b : Bytes)
    (off : Nat) (ho : off < b.length) (k1 k2 : Bool) :
    (DS.empty.run B 0 [.put name b k1, .get name off (b.length - off) k2]).2 = [none, some (b.drop off)] := by
  have hb : ¬ b.length ≤ 0 := by omega
  simp only [DS.run, DS.step, DS.empty, hb, upd, false_and, and_false, if_false, if_true]
  have := C48_store_tail_partial hB hp (show 0 ≤ 1 by decide) [b] trivial off (by simpa using ho)
  simp only [List.flatten_cons, List.flatten_nil, List.append_nil] at this
  simp only [this]

/-- **C50 fails**: after a full read, a read from an offset is answered from the cache with the whole
object. -/
theorem C50_cache_ignores_offset :
    (DS.run 32768 10 DS.empty [.put shardName [1, 2, 3] true, .get shardName 2 1 true]).2 =
      [none, some [1, 2, 3]] := by
  simp [DS.run, DS.step, DS.empty, upd]

theorem C50_offset_first (b : Bytes) (h : 2 < b.length) :
    (DS.run 32768 b.length DS.empty [.put shardName b false, .get shardName 2 (b.length - 2) true,
      .get shardName 0 b.length true]).2 = [none, some (b.drop 2), some (b.drop 2)] := by
  have h1 := C48_store_tail_partial (B := 32768) (by decide) (by decide) (show 0 ≤ 1 by decide) [b] trivial 2
    (by simpa using h)
  simp only [List.flatten_cons, List.flatten_nil, List.append_nil] at h1
  have h2 : b.drop 2 ≠ [] := by intro h0; have := congrArg List.length h0; simp at this; omega
  have h3 : b.length - 2 ≤ b.length := by omega
  simp only [DS.run, DS.step, DS.empty, upd, Bool.false_eq_true, false_and, if_false, if_true, h1, h2,
    h3, true_and, ne_eq, not_false_eq_true, and_self]

/-- **C50 fails**: a read from an offset puts the tail into the cache under the name of the object, and
later full reads get only the tail. -/
theorem C50_offset_poisons_cache :
    (DS.run 32768 3 DS.empty [.put shardName [1, 2, 3] false, .get shardName 2 1 true,
      .get shardName 0 3 true]).2 = [none, some [3], some [3]] :=
  C50_offset_first [1, 2, 3] (by decide)

end Verif.Object
