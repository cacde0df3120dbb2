import Verif.Object.RSFindings
import Verif.Object.DataServer

/-!
# Erasure coded streams on top of the files of the data servers

`Verif.Object.RS` lets each writer keep the bytes it is given.  Here the writers are the real ones: every
flush of the encoder is one PATCH request per shard (put_stream.go:42-51, webapi `PatchTmpObject`), which
the data server appends with padding (`appendAligned`), and readers get what `getFile` delivers for the
shard size (rs_get_stream.go:33, 48-55).
-/

namespace Verif.Object

/-- The encoder, remembering the blocks it has sent: block `b` is sent as one request with
`(encodeBlock cod b)[i]` to the server of shard `i`, for every `i`.  rs_encoder.go:12-17. -/
structure Wire where
  cache : Bytes
  blocks : List Bytes
  deriving DecidableEq

/-- rs_encoder.go:59-112. -/
def Wire.flush (w : Wire) : Wire := if w.cache = [] then w else ⟨[], w.blocks ++ [w.cache]⟩

/-- rs_encoder.go:39-57, see `Enc.writeLoop`. -/
def Wire.writeLoop (bs : Nat) : Nat → Wire → Bytes → Option Wire
  | _, e, [] => some e
  | 0, _, _ :: _ => none
  | fuel + 1, e, bt =>
    let next := min (bs - e.cache.length) bt.length
    if next = 0 then none
    else
      let e1 : Wire := ⟨e.cache ++ bt.take next, e.blocks⟩
      let e2 := if bs ≤ e1.cache.length then e1.flush else e1
      Wire.writeLoop bs fuel e2 (bt.drop next)

def Wire.writeAll (bs : Nat) (e : Wire) : List Bytes → Option Wire
  | [] => some e.flush
  | bt :: rest =>
    match Wire.writeLoop bs bt.length e bt with
    | none => none
    | some e' => Wire.writeAll bs e' rest

/-- The requests of an upload: one list per shard. -/
def requests (c : RsConfig) (cod : Code c.dataShards c.parityShards) (pieces : List Bytes) :
    Option (List (List Bytes)) :=
  (Wire.writeAll c.blockSize ⟨[], []⟩ pieces).map fun w =>
    (List.range c.allShards).map fun i => w.blocks.map fun b => (encodeBlock cod b).getD i []

/-- The files on the data servers after the upload. -/
def storedFiles (B : Nat) (c : RsConfig) (cod : Code c.dataShards c.parityShards) (pieces : List Bytes) :
    Option (List Bytes) :=
  (requests c cod pieces).map fun r => r.map (storePieces B)

/-- What opening the stream for an object of `size` bytes gets: servers for which `up` is false do not
answer. -/
def readersOf (lost : Nat → Nat) (c : RsConfig) (size : Nat) (up : Nat → Bool) (files : List Bytes) :
    List (Option Bytes) :=
  files.mapIdx fun i f => if up i then getFile (lost i) f 0 (c.shardSize size) else none

theorem wire_loop {bs : Nat} (fuel : Nat) (bt : Bytes) (w : Wire) (data : Bytes) (hf : bt.length ≤ fuel)
    (h1 : Full bs w.blocks) (h2 : data = w.blocks.flatten ++ w.cache) (h3 : w.cache.length < bs) :
    ∃ w', Wire.writeLoop bs fuel w bt = some w' ∧ Full bs w'.blocks ∧
      data ++ bt = w'.blocks.flatten ++ w'.cache ∧ w'.cache.length < bs := by
  induction fuel generalizing bt w data with
  | zero =>
    cases bt with
    | nil => exact ⟨w, by simp [Wire.writeLoop], h1, by simpa using h2, h3⟩
    | cons _ _ => simp at hf
  | succ fuel ih =>
    cases bt with
    | nil => exact ⟨w, by simp [Wire.writeLoop], h1, by simpa using h2, h3⟩
    | cons x xs =>
      rw [Wire.writeLoop]
      generalize hn : min (bs - w.cache.length) (x :: xs).length = next
      have hpos : next ≠ 0 := by simp at hn; omega
      simp only [hpos, ↓reduceIte]
      have hsplit : data ++ (x :: xs) = (data ++ (x :: xs).take next) ++ (x :: xs).drop next := by
        rw [List.append_assoc, List.take_append_drop]
      rw [hsplit]
      have hdl : ((x :: xs).drop next).length ≤ fuel := by
        rw [List.length_drop]; omega
      have htl : ((x :: xs).take next).length = next := by
        rw [List.length_take]; omega
      by_cases hfull : bs ≤ (w.cache ++ (x :: xs).take next).length
      · simp only [hfull, ↓reduceIte]
        have hlen : (w.cache ++ (x :: xs).take next).length = bs := by
          simp only [List.length_append, htl] at hfull ⊢; omega
        have hne : w.cache ++ (x :: xs).take next ≠ [] := by
          intro he; rw [he] at hlen; simp at hlen; omega
        apply ih _ _ _ hdl
        · simp only [Wire.flush, hne, ↓reduceIte]
          intro b hb
          rcases List.mem_append.1 hb with hb | hb
          · exact h1 b hb
          · rw [List.mem_singleton.1 hb]; exact hlen
        · simp [Wire.flush, hne, h2]
        · simp [Wire.flush, hne]; omega
      · simp only [hfull, ↓reduceIte]
        apply ih _ _ _ hdl
        · exact h1
        · simp [h2]
        · simpa using hfull
      · intro h; cases h

theorem wire_all {bs : Nat} (hbs : 0 < bs) (pieces : List Bytes) (w : Wire) (data : Bytes)
    (h1 : Full bs w.blocks) (h2 : data = w.blocks.flatten ++ w.cache) (h3 : w.cache.length < bs) :
    ∃ w', Wire.writeAll bs w pieces = some w' ∧ WF bs w'.blocks ∧
      w'.blocks.flatten = data ++ pieces.flatten := by
  induction pieces generalizing w data with
  | nil =>
    refine ⟨w.flush, rfl, ?_⟩
    by_cases hc : w.cache = []
    · simp only [Wire.flush, hc, ↓reduceIte]
      exact ⟨wf_full hbs _ h1, by simp [h2, hc]⟩
    · simp only [Wire.flush, hc, ↓reduceIte]
      exact ⟨wf_of_full hbs _ h1 _ (by omega) hc, by simp [h2]⟩
  | cons bt rest ih =>
    obtain ⟨e1, a1, a2, a3, a4⟩ := wire_loop bt.length bt w data (Nat.le_refl _) h1 h2 h3
    obtain ⟨w', b1, b2, b3⟩ := ih e1 (data ++ bt) a2 a3 a4
    exact ⟨w', by simp [Wire.writeAll, a1, b1], b2, by simp [b3]⟩

theorem wf_unique {c : Nat} (a b : List Bytes) (ha : WF c a) (hb : WF c b) (he : a.flatten = b.flatten) :
    a = b := by
  induction a generalizing b with
  | nil =>
    cases b with
    | nil => rfl
    | cons x b =>
      have := congrArg List.length he
      have h0 := hb.1
      rw [List.flatten_cons, List.length_append] at this
      simp only [List.flatten_nil, List.length_nil] at this
      omega
  | cons x a ih =>
    cases b with
    | nil =>
      have := congrArg List.length he
      have h0 := ha.1
      rw [List.flatten_cons, List.length_append] at this
      simp only [List.flatten_nil, List.length_nil] at this
      omega
    | cons y b =>
      obtain ⟨a1, a2, a3, a4⟩ := ha
      obtain ⟨b1, b2, b3, b4⟩ := hb
      have hl := congrArg List.length he
      simp only [List.flatten_cons, List.length_append] at hl
      have hxy : x.length = y.length := by
        by_cases h1 : a = []
        · by_cases h2 : b = []
          · subst h1; subst h2; simpa using hl
          · have := b3 h2
            subst h1
            have h4 : 0 < b.flatten.length := by
              cases b with
              | nil => exact absurd rfl h2
              | cons z b => simp only [List.flatten_cons, List.length_append]; have := b4.1; omega
            simp only [List.flatten_nil, List.length_nil] at hl
            omega
        · have h5 := a3 h1
          by_cases h2 : b = []
          · subst h2
            have h4 : 0 < a.flatten.length := by
              cases a with
              | nil => exact absurd rfl h1
              | cons z a => simp only [List.flatten_cons, List.length_append]; have := a4.1; omega
            simp only [List.flatten_nil, List.length_nil] at hl
            omega
          · rw [h5, b3 h2]
      rw [List.flatten_cons, List.flatten_cons] at he
      obtain ⟨e1, e2⟩ := List.append_inj he hxy
      rw [e1, ih b a4 b4 e2]

theorem shard_length {k m : Nat} (hk : 0 < k) (cod : Code k m) {i : Nat} (hi : i < k + m) (b : Bytes) :
    ((encodeBlock cod b).getD i []).length = perShard k b.length := by
  have hlen := encodeBlock_length hk cod b
  rw [List.getD_eq_getElem?_getD, List.getElem?_eq_getElem (by omega)]
  exact encodeBlock_mem hk cod b (List.getElem_mem _)

theorem aligned_shards {k m : Nat} (hk : 0 < k) (cod : Code k m) {i bps : Nat} (hi : i < k + m)
    (hd : pageSize ∣ bps) (bs : List Bytes) (h : WF (bps * k) bs) :
    AlignedPieces (bs.map fun b => (encodeBlock cod b).getD i []) := by
  induction bs with
  | nil => trivial
  | cons b bs ih =>
    obtain ⟨_, _, h3, h4⟩ := h
    cases bs with
    | nil => trivial
    | cons b' bs =>
      refine ⟨?_, ih h4⟩
      simp only
      rw [shard_length hk cod hi, h3 (by simp), perShard_block hk]
      exact hd

/-- With blocks of a multiple of 4096 bytes per shard the data servers deliver exactly what the encoder
wrote: each reader gets the shard file of `upload`, or nothing. -/
theorem stored_readers {B : Nat} (hB : 0 < B) (hpB : pageSize ∣ B) (lost : Nat → Nat)
    (hlost : ∀ i, lost i < pageSize) (c : RsConfig) (cod : Code c.dataShards c.parityShards)
    (hk : 0 < c.dataShards) (hb : 0 < c.blockPerShard) (hd : pageSize ∣ c.blockPerShard)
    (pieces : List Bytes) (hne : pieces.flatten ≠ []) (up : Nat → Bool) :
    ∃ files stored, upload c cod pieces = some files ∧ storedFiles B c cod pieces = some stored ∧
      ErasureOf (readersOf lost c pieces.flatten.length up stored) files ∧
      ∀ i < c.allShards, up i = true →
        (readersOf lost c pieces.flatten.length up stored)[i]? = some files[i]? := by
  obtain ⟨blocks, h1, h2, h3⟩ := upload_blocks c cod hk hb pieces
  have hbs : 0 < c.blockSize := Nat.mul_pos hb hk
  obtain ⟨w, w1, w2, w3⟩ := wire_all hbs pieces ⟨[], []⟩ [] (by simp [Full]) (by simp) hbs
  have hw : w.blocks = blocks := wf_unique _ _ w2 h1 (by rw [w3, h2]; simp)
  have hread : ∀ i < c.allShards,
      getFile (lost i) (storePieces B (blocks.map fun b => (encodeBlock cod b).getD i [])) 0
        (c.shardSize pieces.flatten.length) = some (strm cod i blocks) := by
    intro i hi
    have hl := strm_length hk cod hi blocks h1
    have hs : (blocks.map fun b => (encodeBlock cod b).getD i []).flatten = strm cod i blocks := rfl
    have := C48_store_partial hB hpB (hlost i) (blocks.map fun b => (encodeBlock cod b).getD i [])
      (aligned_shards hk cod hi hd blocks h1) (by
        rw [hs, ← List.length_pos_iff, hl]
        apply perShard_pos hk
        rw [h2]
        exact List.length_pos_iff.2 hne)
    rw [hs, hl, h2] at this
    exact this
  have hget : ∀ i < c.allShards,
      (readersOf lost c pieces.flatten.length up
        ((List.range c.allShards).map fun i => storePieces B (blocks.map fun b => (encodeBlock cod b).getD i [])))[i]?
      = some (if up i then some (strm cod i blocks) else none) := by
    intro i hi
    simp only [readersOf, List.getElem?_mapIdx, List.getElem?_map, List.getElem?_range hi, Option.map_some]
    rw [hread i hi]
  refine ⟨encOut cod blocks, _, h3, by simp only [storedFiles, requests, w1, Option.map_some, hw, List.map_map]; rfl, ?_, ?_⟩
  · refine ⟨by simp [readersOf, encOut, RsConfig.allShards], fun i x hx => ?_⟩
    have hi : i < c.allShards := by
      refine Nat.lt_of_not_le fun hcon => ?_
      have hx : (readersOf lost c pieces.flatten.length up
        ((List.range c.allShards).map fun i => storePieces B (blocks.map fun b => (encodeBlock cod b).getD i [])))[i]?
         = some (some x) := hx
      rw [List.getElem?_eq_none (by simp [readersOf]; omega)] at hx
      cases hx
    have h5 := hget i hi
    have hx : (readersOf lost c pieces.flatten.length up
        ((List.range c.allShards).map fun i => storePieces B (blocks.map fun b => (encodeBlock cod b).getD i [])))[i]?
         = some (some x) := hx
    rw [hx] at h5
    have hi' : i < c.dataShards + c.parityShards := hi
    by_cases hu : up i = true
    · simp only [hu, ↓reduceIte, Option.some.injEq] at h5
      simp [encOut, List.getElem?_range hi', h5]
    · simp [hu] at h5
  · intro i hi hu
    have hi' : i < c.dataShards + c.parityShards := hi
    refine (hget i hi).trans ?_
    simp [hu, encOut, List.getElem?_range hi']

/-- **C33/C34 on real data servers**: with a block size that is a multiple of 4096 per shard, an object
uploaded in any pieces to the data servers is read back unchanged, with any buffer sizes, as long as
`dataShards` servers answer.  Missing for the full property: other block sizes (`C33_padding_corrupts`). -/
theorem C33_data_servers_partial {B : Nat} (hB : 0 < B) (hpB : pageSize ∣ B) (lost : Nat → Nat)
    (hlost : ∀ i, lost i < pageSize) (c : RsConfig) (cod : Code c.dataShards c.parityShards)
    (hk : 0 < c.dataShards) (hb : 0 < c.blockPerShard) (hd : pageSize ∣ c.blockPerShard)
    (pieces : List Bytes) (hne : pieces.flatten ≠ []) (up : Nat → Bool)
    (hup : c.dataShards ≤ (List.range c.allShards).countP up) (sizes : List Nat)
    (hs : ∀ n ∈ sizes, 0 < n) (hl : pieces.flatten.length < sizes.length) :
    ∃ stored, storedFiles B c cod pieces = some stored ∧
      received (Dec.reads c cod pieces.flatten.length (sizes.map fun n => (n, fun _ => false))
        (.init (readersOf lost c pieces.flatten.length up stored))).1 = pieces.flatten := by
  obtain ⟨files, stored, h1, h2, h3, h4⟩ := stored_readers hB hpB lost hlost c cod hk hb hd pieces hne up
  refine ⟨stored, h2, ?_⟩
  have hfl : files.length = c.allShards := by
    obtain ⟨f', e1, e2, _⟩ := C35_shard_size c cod hk hb pieces
    rw [h1] at e1; cases e1; exact e2
  generalize hrs : readersOf lost c pieces.flatten.length up stored = rs at h3 h4
  have hkill : killReaders (fun _ => false) rs = rs := by
    apply List.ext_getElem?
    intro i
    rw [killReaders, List.getElem?_mapIdx]
    cases rs[i]? <;> simp
  have hrl : rs.length = c.allShards := h3.1.trans hfl
  have hcount : (List.range c.allShards).countP up ≤ presentCount rs := by
    have : rs = (List.range c.allShards).map fun i => (rs[i]?).join := by
      apply List.ext_getElem?
      intro i
      by_cases hi : i < c.allShards
      · have hi' : i < rs.length := by omega
        rw [List.getElem?_map, List.getElem?_range hi, Option.map_some, List.getElem?_eq_getElem hi']
        rfl
      · rw [List.getElem?_eq_none (by omega), List.getElem?_eq_none (by simp; omega)]
    unfold presentCount
    conv => rhs; rw [this]
    rw [List.countP_map]
    apply List.countP_mono_left
    intro i hi hu
    have hi := List.mem_range.1 hi
    have := h4 i hi hu
    simp only [Function.comp_apply, this]
    rw [List.getElem?_eq_getElem (by omega)]
    rfl
  have := C34_survives c cod hk hb pieces files h1 rs h3 (fun _ => false)
    (by rw [hkill]; omega) (sizes.map fun n => (n, fun _ => false)) (by simp)
  exact this.2.1 (this.2.2 (by simpa using hs) (by simpa using hl))

example : pageSize ∣ (⟨4, 2, 16384⟩ : RsConfig).blockPerShard ∧
    streamConfig ⟨4, 2, 16384⟩ 4 2 1000000 = ⟨4, 2, 16384⟩ ∧
    4 ≤ (List.range 6).countP (fun i => i != 1 && i != 3) := by decide

/-- The block size does not depend on the object for `ds` data shards exactly when the configured
block size times `ds` is a multiple of 64 KB; only then it is the configured one. -/
theorem C33_stream_config_aligned (conf : RsConfig) (ds ps size : Nat)
    (h : netPkgSize ∣ conf.blockPerShard * ds) :
    streamConfig conf ds ps size = ⟨ds, ps, conf.blockPerShard⟩ := by
  have : conf.blockPerShard * ds % netPkgSize = 0 := Nat.mod_eq_zero_of_dvd h
  simp [streamConfig, RsConfig.blockSize, this]

example : netPkgSize ∣ (⟨4, 2, 16384⟩ : RsConfig).blockPerShard * 4 := by decide

/-- **C33 fails** on real data servers for other block sizes.  A bucket with two data shards, default
block size 16384, an object of three bytes: the stream uses blocks of one byte per shard, the second
request for each shard lands behind 4095 bytes of padding, and the object comes back as 1, 2, 0 with no
error. -/
theorem C33_padding_corrupts :
    streamConfig ⟨4, 2, 16384⟩ 2 1 3 = ⟨2, 1, 1⟩ ∧
    ∃ stored, storedFiles 32768 ⟨2, 1, 1⟩ xorCode [[1, 2, 3]] = some stored ∧
      (Dec.reads ⟨2, 1, 1⟩ xorCode 3 [(8, fun _ => false), (8, fun _ => false), (8, fun _ => false)]
        (.init (readersOf (fun _ => 0) ⟨2, 1, 1⟩ 3 (fun _ => true) stored))).1 =
      [.ok [1, 2], .ok [0], .error .eof] := by
  refine ⟨by decide, [storePieces 32768 [[1], [3]], storePieces 32768 [[2], [0]],
    storePieces 32768 [[3], [3]]], by rfl, ?_⟩
  have hz : ∀ a b : UInt8, getFile 0 (storePieces 32768 [[a], [b]]) 0 2 = some [a, 0] := fun a b =>
    unaligned_reads_zero (p := [a]) (q := [b]) (by decide) (by decide) (by decide) (by simp)
      (by simp [alignedSize, pageSize])
  have hs : (⟨2, 1, 1⟩ : RsConfig).shardSize 3 = 2 := by decide
  simp only [readersOf, List.mapIdx_cons, List.mapIdx_nil, if_true, hs, hz]
  rfl

end Verif.Object
