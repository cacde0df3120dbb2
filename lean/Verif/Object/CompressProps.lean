import Verif.Object.Compress

/-! # Compressed objects (theorems): C87 -/

namespace Verif.Object.Compress

open Verif Verif.Object

/-! ## One file -/

theorem readShard_start (z : S2) (compress : Bool) {lost : Nat} (hl : lost < pageSize) (f : Bytes) (n : Nat)
    (hn : 0 < n) (hf : n ≤ f.length) : readShard z compress lost (commitAs z compress f) 0 n = some (f.take n) := by
  cases compress with
  | false => exact getFile_start hl f n hn hf
  | true => simp [readShard, commitAs, getFileCompress, z.round, hf]

/-- **C87** One shard, sent in pieces and committed with some flag, is read back with the same flag.  Missing for
the full property: pieces of other lengths (as `C48_store_partial`). -/
theorem C87_shard_partial (z : S2) (compress : Bool) {B lost : Nat} (hB : 0 < B) (hp : pageSize ∣ B)
    (hl : lost < pageSize) (pieces : List Bytes) (ha : AlignedPieces pieces) (hne : pieces.flatten ≠ []) :
    readShard z compress lost (commitAs z compress (storePieces B pieces)) 0 pieces.flatten.length =
      some pieces.flatten := by
  have hpos : 0 < pieces.flatten.length := List.length_pos_iff.2 hne
  have he : storePieces B pieces = padded pieces.flatten := by
    rw [storePieces_eq hB hp, alignedPieces_flatten pieces ha]
  have hlen : pieces.flatten.length ≤ (storePieces B pieces).length := by
    rw [he]; simp only [padded, List.length_append]; omega
  rw [readShard_start z compress hl _ _ hpos hlen, he]
  simp [padded]

/-- **C87** A copy written by the repair of a read is read back with the same flag. -/
theorem C87_repaired (z : S2) (compress : Bool) {B lost : Nat} (hB : 0 < B) (hp : pageSize ∣ B) (hl : lost < pageSize)
    (body : Bytes) (hne : body ≠ []) :
    readShard z compress lost (putFile z compress B body) 0 body.length = some body := by
  cases compress with
  | false => simpa [commitAs, putFile] using C87_shard_partial z false hB hp hl [body] trivial (by simpa using hne)
  | true => simp [readShard, putFile, getFileCompress, z.round]

/-- The flags have to agree: a compressed file read without the flag is delivered as it is on the disk, and begins
with the byte ff whatever was stored. -/
theorem raw_compressed (z : S2) {lost : Nat} (hl : lost ≤ 1) (f : Bytes) (hf : f ≠ []) (n : Nat) (hn : 0 < n) :
    ∃ t, readShard z false lost (commitAs z true f) 0 n = some (0xff :: t) := by
  obtain ⟨r, hr⟩ := z.ident f hf
  have : readShard z false lost (commitAs z true f) 0 n = some ((z.enc f).take n) := by
    have := getFile_ok hl (z.enc f) 0 n hn
    simpa [readShard, commitAs] using this
  rw [this, ← hr]
  cases n with
  | zero => omega
  | succ n => exact ⟨_, rfl⟩

/-- And a file stored as it is, read with the flag, is an error unless it begins with the byte ff. -/
theorem C87_flag_matters (z : S2) (lost : Nat) (x : UInt8) (f : Bytes) (hx : x ≠ 0xff) (n : Nat) (hn : 0 < n) :
    readShard z true lost (commitAs z false (x :: f)) 0 n = none := by
  have h : ¬ n ≤ 0 := by omega
  simp [readShard, commitAs, getFileCompress, z.refuse x f hx, h]

/-! ## Erasure coded objects -/

theorem stored_long {B : Nat} (hB : 0 < B) (hpB : pageSize ∣ B) (c : RsConfig)
    (cod : Code c.dataShards c.parityShards) (hk : 0 < c.dataShards) (hb : 0 < c.blockPerShard)
    (pieces : List Bytes) {stored : List Bytes} (hs : storedFiles B c cod pieces = some stored) :
    ∀ f ∈ stored, c.shardSize pieces.flatten.length ≤ f.length := by
  obtain ⟨blocks, h1, h2, h3⟩ := upload_blocks c cod hk hb pieces
  have hbs : 0 < c.blockSize := Nat.mul_pos hb hk
  obtain ⟨w, w1, w2, w3⟩ := wire_all hbs pieces ⟨[], []⟩ [] (by simp [Full]) (by simp) hbs
  have hw : w.blocks = blocks := wf_unique _ _ w2 h1 (by rw [w3, h2]; simp)
  have : storedFiles B c cod pieces =
      some ((List.range c.allShards).map fun i => storePieces B (blocks.map fun b => (encodeBlock cod b).getD i [])) := by
    simp only [storedFiles, requests, w1, Option.map_some, hw, List.map_map]; rfl
  rw [this] at hs
  cases hs
  intro f hf
  simp only [List.mem_map, List.mem_range] at hf
  obtain ⟨i, hi, rfl⟩ := hf
  have hl := strm_length hk cod hi blocks h1
  rw [storePieces_eq hB hpB]
  have hle : ∀ l : List Bytes, l.flatten.length ≤ ((l.map padded).flatten).length := by
    intro l
    induction l with
    | nil => simp
    | cons p l ih =>
      simp only [List.flatten_cons, List.length_append, List.map_cons]
      have : p.length ≤ (padded p).length := by simp only [padded, List.length_append]; omega
      omega
  have := hle (blocks.map fun b => (encodeBlock cod b).getD i [])
  have hs : (blocks.map fun b => (encodeBlock cod b).getD i []).flatten = strm cod i blocks := rfl
  rw [hs, hl, h2] at this
  exact this

/-- **C87** The data servers answer a reader of a compressed object, given the flag the shards were committed with,
exactly as they answer for an object that is not compressed.  So everything shown about reading erasure coded objects
(C33, C34, C36, C37, C61) holds for compressed ones. -/
theorem C87_same_answers (z : S2) (compress : Bool) {B : Nat} (hB : 0 < B) (hpB : pageSize ∣ B) (lost : Nat → Nat)
    (hlost : ∀ i, lost i < pageSize) (c : RsConfig) (cod : Code c.dataShards c.parityShards)
    (hk : 0 < c.dataShards) (hb : 0 < c.blockPerShard) (pieces : List Bytes) (hne : pieces.flatten ≠ [])
    (up : Nat → Bool) (stored : List Bytes) (hs : storedFiles B c cod pieces = some stored) :
    readersWith z compress lost c pieces.flatten.length up (stored.map (commitAs z compress)) =
      readersOf lost c pieces.flatten.length up stored := by
  have hlong := stored_long hB hpB c cod hk hb pieces hs
  have hn : 0 < c.shardSize pieces.flatten.length := by
    have := List.length_pos_iff.2 hne
    unfold RsConfig.shardSize
    exact Nat.div_pos (by omega) hk
  apply List.ext_getElem?
  intro i
  simp only [readersWith, readersOf, List.getElem?_mapIdx, List.getElem?_map]
  cases hi : stored[i]? with
  | none => rfl
  | some f =>
    simp only [Option.map_some, Option.some.injEq]
    have hf := hlong f (List.mem_of_getElem? hi)
    rw [readShard_start z compress (hlost i) f _ hn hf, getFile_start (hlost i) f _ hn hf]

/-- **C87** An erasure coded object, stored in any pieces and with any flag, is read back with the same flag as
long as enough servers answer.  Missing for the full property: block sizes that are not multiples of 4096
(`C33_padding_corrupts`). -/
theorem C87_object_partial (z : S2) (compress : Bool) {B : Nat} (hB : 0 < B) (hpB : pageSize ∣ B) (lost : Nat → Nat)
    (hlost : ∀ i, lost i < pageSize) (c : RsConfig) (cod : Code c.dataShards c.parityShards)
    (hk : 0 < c.dataShards) (hb : 0 < c.blockPerShard) (hd : pageSize ∣ c.blockPerShard)
    (pieces : List Bytes) (hne : pieces.flatten ≠ []) (up : Nat → Bool)
    (hup : c.dataShards ≤ (List.range c.allShards).countP up) (sizes : List Nat)
    (hs : ∀ n ∈ sizes, 0 < n) (hl : pieces.flatten.length < sizes.length) :
    ∃ stored, storedFiles B c cod pieces = some stored ∧
      received (Dec.reads c cod pieces.flatten.length (sizes.map fun n => (n, fun _ => false))
        (.init (readersWith z compress lost c pieces.flatten.length up (stored.map (commitAs z compress))))).1 =
      pieces.flatten := by
  obtain ⟨stored, h1, h2⟩ := C33_data_servers_partial hB hpB lost hlost c cod hk hb hd pieces hne up hup sizes hs hl
  exact ⟨stored, h1, by
    rw [C87_same_answers z compress hB hpB lost hlost c cod hk hb pieces hne up stored h1]; exact h2⟩

/-! ## Replicated objects -/

/-- The copies of an object, committed with a flag. -/
def Copies (z : S2) (compress : Bool) (B : Nat) (data : Bytes) (holds : Cluster) (loc : List Nat) : Prop :=
  ∀ (i s : Nat) (f : Bytes), loc[i]? = some s → holds s i = some f →
    ∃ ps, AlignedPieces ps ∧ ps.flatten = data ∧ f = commitAs z compress (storePieces B ps)

/-- Some server that holds a copy answers. -/
def Reachable (holds : Cluster) (up : Nat → Bool) (loc : List Nat) : Prop :=
  ∃ i s : Nat, loc[i]? = some s ∧ up s = true ∧ (holds s i).isSome = true

theorem copyReadWith_found {z : S2} {compress : Bool} {B : Nat} {data : Bytes} {holds : Cluster} {up : Nat → Bool}
    (pick : Nat → Nat) {loc : List Nat} (hold : Copies z compress B data holds loc) (hone : Reachable holds up loc)
    (flag : Bool) (lost size off : Nat) :
    ∃ ps, AlignedPieces ps ∧ ps.flatten = data ∧
      copyReadWith z flag lost holds up pick loc size off =
        readShard z flag lost (commitAs z compress (storePieces B ps)) off size := by
  have h := openCopies_chosen holds up pick loc 0
  unfold copyReadWith
  cases hc : (openCopies holds up pick 0 loc).chosen with
  | none =>
    rw [hc] at h
    obtain ⟨i, s, h1, h2, h3⟩ := hone
    have := h i s h1
    simp [h2, h3] at this
  | some p =>
    obtain ⟨i, s⟩ := p
    rw [hc] at h
    obtain ⟨_, a2, a3, a4⟩ := h
    simp only
    cases hf : holds s i with
    | none => rw [hf] at a4; simp at a4
    | some f =>
      obtain ⟨ps, b1, b2, b3⟩ := hold i s f (by simpa using a2) hf
      exact ⟨ps, b1, b2, by rw [← b3]⟩

/-- **C87** A replicated object is read back with the flag its copies were committed with, as long as one server
with a copy answers. -/
theorem C87_copy (z : S2) (compress : Bool) {B : Nat} (hB : 0 < B) (hpB : pageSize ∣ B) (lost : Nat)
    (hl : lost < pageSize) (data : Bytes) (hne : data ≠ []) (holds : Cluster) (up : Nat → Bool) (pick : Nat → Nat)
    (loc : List Nat) (hold : Copies z compress B data holds loc) (hone : Reachable holds up loc) :
    copyReadWith z compress lost holds up pick loc data.length 0 = some data := by
  obtain ⟨ps, h1, h2, h3⟩ := copyReadWith_found pick hold hone compress lost data.length 0
  rw [h3, ← h2]
  exact C87_shard_partial z compress hB hpB hl ps h1 (by rw [h2]; exact hne)

theorem storePieces_ne {B : Nat} (hB : 0 < B) (hpB : pageSize ∣ B) {ps : List Bytes} (h : ps.flatten ≠ []) :
    storePieces B ps ≠ [] := by
  rw [storePieces_eq hB hpB]
  intro h0
  apply h
  rw [List.flatten_eq_nil_iff] at h0 ⊢
  intro l hl
  have := h0 (padded l) (List.mem_map_of_mem hl)
  simp only [padded, List.append_eq_nil_iff] at this
  exact this.1

/-- **C87 fails** for parts of compressed replicated objects: the offset is applied to the compressed file.  With
any codec, any content and any of the offsets 1 to 9, the part is not delivered although the servers have it. -/
theorem C87_range_fails (z : S2) {B : Nat} (hB : 0 < B) (hpB : pageSize ∣ B) (lost : Nat) (data : Bytes)
    (hne : data ≠ []) (holds : Cluster) (up : Nat → Bool) (pick : Nat → Nat) (loc : List Nat)
    (hold : Copies z true B data holds loc) (hone : Reachable holds up loc) (off : Nat) (h1 : 1 ≤ off) (h2 : off ≤ 9) :
    copyReadWith z true lost holds up pick loc data.length off = none := by
  obtain ⟨ps, a1, a2, a3⟩ := copyReadWith_found pick hold hone true lost data.length off
  rw [a3]
  obtain ⟨r, hr⟩ := z.ident (storePieces B ps) (storePieces_ne hB hpB (by rw [a2]; exact hne))
  have hlen : ¬ data.length ≤ 0 := by have := List.length_pos_iff.2 hne; omega
  have key : ∀ (x : UInt8) (xs : Bytes), x ≠ 0xff → (z.enc (storePieces B ps)).drop off = x :: xs →
      readShard z true lost (commitAs z true (storePieces B ps)) off data.length = none := by
    intro x xs hx hd
    simp [readShard, commitAs, getFileCompress, hd, z.refuse x xs hx, hlen]
  rw [← hr] at key
  match off, h1, h2 with
  | 1, _, _ => exact key 0x06 _ (by decide) rfl
  | 2, _, _ => exact key 0x00 _ (by decide) rfl
  | 3, _, _ => exact key 0x00 _ (by decide) rfl
  | 4, _, _ => exact key 0x53 _ (by decide) rfl
  | 5, _, _ => exact key 0x32 _ (by decide) rfl
  | 6, _, _ => exact key 0x73 _ (by decide) rfl
  | 7, _, _ => exact key 0x54 _ (by decide) rfl
  | 8, _, _ => exact key 0x77 _ (by decide) rfl
  | 9, _, _ => exact key 0x4f _ (by decide) rfl

/-- Behind the end of the compressed file the part is empty, and no error is reported: the better an object
compresses, the more of it cannot be read. -/
theorem C87_range_empty (z : S2) (lost : Nat) (f : Bytes) (off n : Nat) (h : (z.enc f).length ≤ off) :
    readShard z true lost (commitAs z true f) off n = some [] := by
  have : (z.enc f).drop off = [] := List.drop_eq_nil_of_le h
  simp only [readShard, commitAs, getFileCompress, if_true, this, z.nothing]
  split <;> rename_i h1 <;> split at h1 <;> simp_all

/-! ## Which flag is recorded -/

/-- **C87** `PUT`: the recorded version has the flag the bytes were sent with (and which is part of the name of the
shards), on every way through `StoreObject`. -/
theorem C87_put_flag (cfg : Api.Cfg) (sha : Str → Str) (env : Api.StoreEnv) (req : Api.Ver) {f g : Api.Eff}
    {v w : Api.Ver} (hf : f ∈ (Api.storeObject cfg sha env req).2) (hg : g ∈ (Api.storeObject cfg sha env req).2)
    (hv : f.ver? = some v) (hw : g.ver? = some w) : v.compress = w.compress ∧ v.hash = w.hash := by
  obtain ⟨b, v1, a1, _, a3, _, _, _, a7, _, _, a10⟩ := Api.storeObject_ver cfg sha env req hf hv
  obtain ⟨b', v2, b1, _, b3, _, _, _, b7, _, _, b10⟩ := Api.storeObject_ver cfg sha env req hg hw
  rw [a1] at b1; cases b1
  rw [a3] at b3; cases b3
  exact ⟨a7.trans b7.symm, a10.trans b10.symm⟩

/-- **C87** A resumable upload that does not ask for compression is read back with the flag it records.  Missing
for the full property: uploads that ask for it (`C87_resumable_lost`), and other block sizes. -/
theorem C87_resumable_partial (z : S2) {B : Nat} (hB : 0 < B) (hpB : pageSize ∣ B) (lost : Nat → Nat)
    (hlost : ∀ i, lost i < pageSize) (c : RsConfig) (cod : Code c.dataShards c.parityShards)
    (hk : 0 < c.dataShards) (hb : 0 < c.blockPerShard) (hd : pageSize ∣ c.blockPerShard)
    (pieces : List Bytes) (hne : pieces.flatten ≠ []) (up : Nat → Bool)
    (hup : c.dataShards ≤ (List.range c.allShards).countP up) (hash : Str) (size ds ps shard : Int) (loc : List Str)
    (sizes : List Nat) (hs : ∀ n ∈ sizes, 0 < n) (hl : pieces.flatten.length < sizes.length) :
    let flags := resumableFlags false hash size ds ps shard loc
    ∃ stored, storedFiles B c cod pieces = some stored ∧
      received (Dec.reads c cod pieces.flatten.length (sizes.map fun n => (n, fun _ => false))
        (.init (readersWith z flags.2 lost c pieces.flatten.length up (stored.map (commitAs z flags.1))))).1 =
      pieces.flatten :=
  C87_object_partial z false hB hpB lost hlost c cod hk hb hd pieces hne up hup sizes hs hl

theorem combine_keeps (size : Nat) (xs : List Bytes) (ct : Bytes × Nat) : ct.1 <+: (combine size ct xs).1 := by
  induction xs generalizing ct with
  | nil => exact List.prefix_refl _
  | cons x xs ih =>
    obtain ⟨a, t⟩ := ct
    simp only [combine]
    exact List.IsPrefix.trans (List.prefix_append _ _) (ih (_, _))

/-- `Reconstruct` leaves the shards alone that are there ("missing shards are recreated"). -/
def Keeps {k m : Nat} (cod : Code k m) : Prop := ∀ s all, cod.recon s = .ok all → ErasureOf s all

theorem body_head {c : RsConfig} {cod : Code c.dataShards c.parityShards} (hk : 0 < c.dataShards)
    (hb : 0 < c.blockPerShard) (hkeep : Keeps cod) {size : Nat} (hsz : 0 < size) {rs : List (Option Bytes)}
    {x : UInt8} {t : Bytes} (h0 : rs[0]? = some (some (x :: t))) (reqs : List (Nat × (Nat → Bool)))
    (hq : ∀ q ∈ reqs, 0 < q.1 ∧ q.2 0 = false) :
    bodyOf (Dec.reads c cod size reqs (.init rs)).1 = [] ∨
    ∃ u, bodyOf (Dec.reads c cod size reqs (.init rs)).1 = x :: u := by
  cases reqs with
  | nil => exact .inl rfl
  | cons q rest =>
    obtain ⟨n, dead⟩ := q
    obtain ⟨hn, hd⟩ := hq (n, dead) (by simp)
    simp only at hn hd
    have g1 : ¬ ((Dec.init rs).total = size) := by simp only [Dec.init]; omega
    have g2 : ¬ (size < (Dec.init rs).total) := by simp only [Dec.init]; omega
    have hrd : (Dec.init rs).read c cod size n dead =
        match (Dec.init rs).getData c cod size dead with
        | (.error e, d') => (.error e, d')
        | (.ok (), d') => (.ok (d'.cache.take n), { d' with cache := d'.cache.drop n }) := by
      unfold Dec.read
      exact if_pos rfl
    have hbody : bodyOf (Dec.reads c cod size ((n, dead) :: rest) (.init rs)).1 =
        bodyOf (((Dec.init rs).read c cod size n dead).1 ::
          (Dec.reads c cod size rest ((Dec.init rs).read c cod size n dead).2).1) := rfl
    rw [hbody]
    cases hr : cod.recon ((killReaders dead rs).map (readBlock c.blockPerShard)) with
    | error e =>
      have hg : ∃ d', (Dec.init rs).getData c cod size dead = (.error (.rs e), d') := by
        unfold Dec.getData
        rw [if_neg g1, if_neg g2]
        simp only [Dec.init, hr]
        exact ⟨_, rfl⟩
      obtain ⟨d', hg⟩ := hg
      rw [hrd, hg]
      exact .inl rfl
    | ok all =>
      have hg : ∃ d', (Dec.init rs).getData c cod size dead = (.ok (), d') ∧
          d'.cache = (combine size ([], 0) (all.take c.dataShards)).1 := by
        unfold Dec.getData
        rw [if_neg g1, if_neg g2]
        simp only [Dec.init, hr]
        exact ⟨_, rfl, rfl⟩
      obtain ⟨d', hg, hcache⟩ := hg
      rw [hrd, hg]
      right
      obtain ⟨_, he⟩ := hkeep _ _ hr
      obtain ⟨p, hp⟩ : ∃ p, c.blockPerShard = p + 1 := ⟨c.blockPerShard - 1, by omega⟩
      have h1 : ((killReaders dead rs).map (readBlock c.blockPerShard))[0]? = some (some (x :: t.take p)) := by
        rw [List.getElem?_map, killReaders, List.getElem?_mapIdx, h0]
        simp [hd, readBlock, hp]
      have h2 := he 0 _ h1
      cases all with
      | nil => simp at h2
      | cons a all =>
        simp only [List.getElem?_cons_zero, Option.some.injEq] at h2
        subst h2
        obtain ⟨d, hd'⟩ : ∃ d, c.dataShards = d + 1 := ⟨c.dataShards - 1, by omega⟩
        obtain ⟨s, hs⟩ : ∃ s, size = s + 1 := ⟨size - 1, by omega⟩
        obtain ⟨m, hm⟩ : ∃ m, n = m + 1 := ⟨n - 1, by omega⟩
        have hc : ∃ u, (combine size ([], 0) (((x :: t.take p) :: all).take c.dataShards)).1 = x :: u := by
          rw [hd', List.take_succ_cons]
          simp only [combine]
          generalize hnn : (if 0 + (x :: List.take p t).length > size then size - 0 else (x :: List.take p t).length) = nn
          have : ∃ q, nn = q + 1 := by
            refine ⟨nn - 1, ?_⟩
            subst hnn
            split
            · omega
            · simp
          obtain ⟨q, rfl⟩ := this
          obtain ⟨u, hu⟩ := combine_keeps size (all.take d) ([] ++ (x :: List.take p t).take (q + 1), 0 + (q + 1))
          exact ⟨_, hu.symm⟩
        obtain ⟨u, hu⟩ := hc
        simp only [hcache, hu, hm, List.take_succ_cons, bodyOf, List.cons_append]
        exact ⟨_, rfl⟩

/-- **C87 fails** for resumable uploads with compression: the shards are committed compressed, the version says
they are not.  Whatever the codec, the sizes of the pieces and of the buffers, and although all servers answer, no
client gets the object back unless it begins with the byte ff. -/
theorem C87_resumable_lost (z : S2) {B : Nat} (hB : 0 < B) (hpB : pageSize ∣ B) (lost : Nat → Nat)
    (hlost : ∀ i, lost i ≤ 1) (c : RsConfig) (cod : Code c.dataShards c.parityShards) (hkeep : Keeps cod)
    (hk : 0 < c.dataShards) (hb : 0 < c.blockPerShard) (pieces : List Bytes) (x : UInt8) (content : Bytes)
    (hc : pieces.flatten = x :: content) (hx : x ≠ 0xff) (hash : Str) (size ds ps shard : Int) (loc : List Str)
    (stored : List Bytes) (hs : storedFiles B c cod pieces = some stored) (hst : stored ≠ [])
    (reqs : List (Nat × (Nat → Bool))) (hq : ∀ q ∈ reqs, 0 < q.1 ∧ q.2 0 = false) :
    let flags := resumableFlags true hash size ds ps shard loc
    bodyOf (Dec.reads c cod pieces.flatten.length reqs
      (.init (readersWith z flags.2 lost c pieces.flatten.length (fun _ => true)
        (stored.map (commitAs z flags.1))))).1 ≠ pieces.flatten := by
  intro flags
  have hlong := stored_long hB hpB c cod hk hb pieces hs
  have hpos : 0 < pieces.flatten.length := by rw [hc]; simp
  have hn : 0 < c.shardSize pieces.flatten.length := by
    unfold RsConfig.shardSize
    exact Nat.div_pos (by omega) hk
  cases stored with
  | nil => exact absurd rfl hst
  | cons f rest =>
    have hf := hlong f (by simp)
    obtain ⟨t, ht⟩ := raw_compressed z (hlost 0) f (by
      intro h; rw [h] at hf; exact absurd hf (by simp only [List.length_nil]; omega)) _ hn
    have h0 : (readersWith z flags.2 lost c pieces.flatten.length (fun _ => true)
        ((f :: rest).map (commitAs z flags.1)))[0]? = some (some (0xff :: t)) := by
      simp only [readersWith, List.map_cons, List.getElem?_mapIdx, List.getElem?_cons_zero, Option.map_some, if_true]
      exact congrArg some ht
    rcases body_head hk hb hkeep hpos h0 reqs hq with h | ⟨u, h⟩
    · rw [h, hc]; simp
    · rw [h, hc]
      intro h
      exact hx (List.cons.inj h).1.symm

/-! ### Cases -/

theorem keeps_xor : Keeps xorCode := by
  intro s all h
  have h : xorRecon s = .ok all := h
  unfold xorRecon at h
  split at h
  all_goals first
    | (split at h
       · cases h
         refine ⟨rfl, fun i x hx => ?_⟩
         match i with
         | 0 => simpa using hx
         | 1 => simpa using hx
         | 2 => simpa using hx
         | i + 3 => simp at hx
       · cases h)
    | cases h

/-- A codec that makes one file smaller. -/
def oneS2 (big : Bytes) : S2 where
  enc b := if b = [] then [] else if b = big then magic ++ [1] else magic ++ 0 :: b
  dec b :=
    if b = [] then ([], false)
    else if b.take 10 = magic then
      match b.drop 10 with
      | [1] => (big, false)
      | 0 :: r => (r, false)
      | _ => ([], true)
    else ([], true)
  round b := by
    by_cases h : b = []
    · simp [h]
    · by_cases h2 : b = big
      · simp only [if_neg h, if_pos h2]
        rw [if_neg (by simp [magic]), if_pos (by simp [magic])]
        simp only [magic, List.cons_append, List.nil_append, List.drop_succ_cons, List.drop_zero]
        rw [h2]
      · simp [h, h2, magic]
  nothing := by simp
  ident b h := by
    by_cases h2 : b = big
    · simp only [if_neg h, if_pos h2]; exact List.prefix_append _ _
    · simp [h, h2]
  refuse x xs hx := by
    have : (x :: xs).take 10 ≠ magic := by
      intro h
      simp only [magic, List.take_succ_cons, List.cons.injEq] at h
      exact hx h.1
    simp only [reduceCtorEq, if_false, if_neg this]

/-- An object of a thousand bytes that compresses to eleven: everything behind these reads as nothing, without an
error. -/
example (big : Bytes) (h : big.length = 1000) :
    readShard (oneS2 big) true 0 (commitAs (oneS2 big) true big) 96 1000 = some [] :=
  C87_range_empty (oneS2 big) 0 big 96 1000 (by
    have : big ≠ [] := by intro h0; rw [h0] at h; simp at h
    simp [oneS2, magic, this])

/-- Two of three compressed copies lost. -/
def oneCompressed : Cluster := fun s i =>
  if s = 12 ∧ i = 2 then some (commitAs plainS2 true (storePieces 32768 [[1, 2, 3]])) else none

theorem oneCompressed_copies : Copies plainS2 true 32768 [1, 2, 3] oneCompressed [10, 11, 12] ∧
    Reachable oneCompressed (fun s => s != 11) [10, 11, 12] := by
  refine ⟨fun i s f _ hf => ⟨[[1, 2, 3]], trivial, rfl, ?_⟩, 2, 12, rfl, rfl, rfl⟩
  unfold oneCompressed at hf
  split at hf
  · simpa using hf.symm
  · cases hf

example : copyReadWith plainS2 true 0 oneCompressed (fun s => s != 11) id [10, 11, 12] 3 0 = some [1, 2, 3] :=
  C87_copy plainS2 true (by decide) (by decide) 0 (by decide) [1, 2, 3] (by simp) _ _ _ _ oneCompressed_copies.1
    oneCompressed_copies.2

example : copyReadWith plainS2 true 0 oneCompressed (fun s => s != 11) id [10, 11, 12] 3 2 = none :=
  C87_range_fails plainS2 (by decide) (by decide) 0 [1, 2, 3] (by simp) _ _ _ _ oneCompressed_copies.1
    oneCompressed_copies.2 2 (by decide) (by decide)

/-- A resumable upload of two bytes in two data shards and a parity shard. -/
example : (∃ stored, storedFiles 32768 ⟨2, 1, 4096⟩ xorCode [[7, 9]] = some stored ∧ stored ≠ []) ∧
    Keeps xorCode ∧ ([[7, 9]] : List Bytes).flatten = 7 :: [9] ∧ (7 : UInt8) ≠ 0xff ∧
    resumableFlags true [] 2 2 1 1 [] = (true, false) :=
  ⟨⟨_, rfl, by simp [RsConfig.allShards]⟩, keeps_xor, rfl, by decide, rfl⟩

/-- The same with the flag recorded correctly: both bytes come back although a server is down. -/
example : ∃ stored, storedFiles 32768 ⟨2, 1, 4096⟩ xorCode [[7, 9]] = some stored ∧
    received (Dec.reads ⟨2, 1, 4096⟩ xorCode 2 ([8, 8, 8].map fun n => (n, fun _ => false))
      (.init (readersWith plainS2 true (fun _ => 0) ⟨2, 1, 4096⟩ 2 (fun i => i != 0)
        (stored.map (commitAs plainS2 true))))).1 = [7, 9] :=
  C87_object_partial plainS2 true (by decide) (by decide) (fun _ => 0) (by simp [pageSize]) ⟨2, 1, 4096⟩ xorCode
    (by decide) (by decide) (by decide) [[7, 9]] (by simp) (fun i => i != 0) (by decide) [8, 8, 8] (by decide)
    (by decide)

end Verif.Object.Compress
