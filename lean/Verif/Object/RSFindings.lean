import Verif.Object.RSSeek

/-!
# Erasure coded streams: block sizes, concrete cases and counterexamples
-/

namespace Verif.Object

/-! ## Concrete cases for the hypotheses of C33–C36 -/

def smallCfg : RsConfig := ⟨2, 1, 4⟩
def elevenBytes : List Bytes := [[1, 2, 3], [], [4, 5, 6, 7, 8], [9, 10, 11]]
def elevenFiles : List Bytes :=
  [[1, 2, 3, 4, 9, 10], [5, 6, 7, 8, 11, 0], [1 ^^^ 5, 2 ^^^ 6, 3 ^^^ 7, 4 ^^^ 8, 9 ^^^ 11, 10]]

example : upload smallCfg xorCode elevenBytes = some elevenFiles := by decide
/-- The first server is lost; the second one fails during the second block, so only the first block
arrives. -/
example : ErasureOf [none, some [5, 6, 7, 8, 11, 0], some [4, 4, 4, 12, 2, 10]] elevenFiles := by
  refine ⟨rfl, fun i x h => ?_⟩
  match i with
  | 0 => simp at h
  | 1 => simpa [elevenFiles] using h
  | 2 => simp at h; subst h; rfl
  | n + 3 => simp at h
example : (Dec.reads smallCfg xorCode 11 [(5, fun _ => false), (5, fun _ => false), (5, fun _ => false),
    (5, fun _ => false)] (.init [none, some [5, 6, 7, 8, 11, 0], some [4, 4, 4, 12, 2, 10]])).1 =
    [.ok [1, 2, 3, 4, 5], .ok [6, 7, 8], .ok [9, 10, 11], .error .eof] := by rfl
example : (Dec.reads smallCfg xorCode 11 [(8, fun _ => false), (5, fun i => i == 1)]
    (.init [none, some [5, 6, 7, 8, 11, 0], some [4, 4, 4, 12, 2, 10]])).1 =
    [.ok [1, 2, 3, 4, 5, 6, 7, 8], .error (.rs .tooFewShards)] := by rfl
example : (Dec.reads smallCfg xorCode 11 [(8, fun _ => false), (8, fun _ => false)]
    (Dec.seek smallCfg xorCode 11 (List.replicate 9 (2, fun _ => false)) 9
      (.init (elevenFiles.map some))).2).1 = [.ok [10, 11], .error .eof] := by rfl

/-! ## Which block size a stream uses -/

/-- `cst.OS.NetPkgSize`, src/common/cst/os_const.go:17. -/
def netPkgSize : Nat := 65536

/-- `NewStreamProvider`, object_service.go:250-263: the configured block size, with the shard numbers of
the version. -/
def streamConfig (conf : RsConfig) (ds ps size : Nat) : RsConfig :=
  let c : RsConfig := ⟨ds, ps, conf.blockPerShard⟩
  let i := c.blockSize % netPkgSize
  if i > 0 then ⟨ds, ps, min (c.blockSize - i + netPkgSize) size / ds⟩ else c

/-- The block size is positive, so that `C33_round_trip` and its companions apply, for all objects that
have at least one byte per data shard. -/
theorem C33_block_positive (conf : RsConfig) (ds ps size : Nat) (hb : 0 < conf.blockPerShard)
    (hk : 0 < ds) (hs : ds ≤ size) : 0 < (streamConfig conf ds ps size).blockPerShard := by
  unfold streamConfig
  simp only
  split
  · rename_i hi
    have : 0 < conf.blockPerShard * ds := Nat.mul_pos hb hk
    apply Nat.div_pos _ hk
    simp only [RsConfig.blockSize, netPkgSize] at hi ⊢
    have h1 := Nat.mod_le (conf.blockPerShard * ds) 65536
    have h2 := Nat.mod_lt (conf.blockPerShard * ds) (show 65536 > 0 by decide)
    have h3 : ds ≤ conf.blockPerShard * ds := Nat.le_mul_of_pos_left _ hb
    apply Nat.le_min.2 ⟨?_, hs⟩
    omega
  · exact hb

example : streamConfig ⟨4, 2, 16384⟩ 3 2 100000 = ⟨3, 2, 21845⟩ := by decide

/-- **C33 fails** for objects smaller than the number of data shards: the block size becomes 0 and
`Write` never returns.  Here one byte is uploaded with two data shards and the default block size. -/
theorem C33_tiny_object_hangs :
    streamConfig ⟨4, 2, 16384⟩ 2 1 1 = ⟨2, 1, 0⟩ ∧ upload ⟨2, 1, 0⟩ xorCode [[7]] = none := by
  decide

/-- The property as stated, for streams made by `NewStreamProvider`: every upload ends. -/
def UploadAlwaysEnds : Prop :=
  ∀ (conf : RsConfig) (ds ps : Nat) (pieces : List Bytes)
    (cod : Code (streamConfig conf ds ps pieces.flatten.length).dataShards
      (streamConfig conf ds ps pieces.flatten.length).parityShards),
    0 < conf.blockPerShard → 0 < ds →
    (upload (streamConfig conf ds ps pieces.flatten.length) cod pieces).isSome = true

theorem C33_statement_fails : ¬ UploadAlwaysEnds := by
  intro h
  have := h ⟨4, 2, 16384⟩ 2 1 [[7]] xorCode (by decide) (by decide)
  exact absurd this (by decide)

/-- The block size is not recorded with the object: after `block-per-shard` was changed in the
configuration, old objects are delivered in the wrong order without any error. -/
theorem C33_changed_block_size_corrupts :
    (upload ⟨2, 1, 4⟩ xorCode [[1, 2, 3, 4, 5, 6, 7, 8]]).map (fun files =>
      received (Dec.reads ⟨2, 1, 2⟩ xorCode 8 (List.replicate 3 (8, fun _ => false))
        (.init (files.map some))).1) = some [1, 2, 5, 6, 3, 4, 7, 8] := by decide

/-- **C34 fails** for damaged shards: one file that was cut short makes the object unreadable, although
two intact shards of three are enough. -/
theorem C34_truncated_shard_unreadable :
    (Dec.reads ⟨2, 1, 4⟩ xorCode 8 [(8, fun _ => false)]
      (.init [some [1, 2], some [5, 6, 7, 8], some [4, 4, 4, 12]])).1 = [.error (.rs .shardSize)] ∧
    (Dec.reads ⟨2, 1, 4⟩ xorCode 8 [(8, fun _ => false)]
      (.init [none, some [5, 6, 7, 8], some [4, 4, 4, 12]])).1 = [.ok [1, 2, 3, 4, 5, 6, 7, 8]] := by
  constructor <;> rfl

/-- **C34 fails** for damaged shards: when all files are cut short at the same place, bytes are delivered
that are not a prefix of the object. -/
theorem C34_truncated_shards_wrong_bytes :
    (Dec.reads ⟨2, 1, 4⟩ xorCode 8 [(8, fun _ => false)]
      (.init [some [1, 2], some [5, 6], some [4, 4]])).1 = [.ok [1, 2, 5, 6]] := by rfl

/-- Shards are not verified: a shard with a flipped byte is delivered, although the parity shard shows
the damage. -/
theorem C34_flipped_byte_delivered :
    (Dec.reads ⟨2, 1, 4⟩ xorCode 8 [(8, fun _ => false)]
      (.init [some [1, 2, 3, 4], some [5, 6, 99, 8], some [4, 4, 4, 12]])).1 =
      [.ok [1, 2, 3, 4, 5, 6, 99, 8]] := by rfl

end Verif.Object
