import Verif.Object.RS

/-! # Erasure coded streams: lemmas -/

namespace Verif.Object

theorem perShard_mul_ge {k : Nat} (hk : 0 < k) (n : Nat) : n ≤ perShard k n * k := by
  unfold perShard
  have := Nat.lt_div_mul_add (a := n + k - 1) hk
  omega

theorem perShard_block {k : Nat} (hk : 0 < k) (b : Nat) : perShard k (b * k) = b := by
  unfold perShard
  rw [Nat.add_sub_assoc hk, Nat.mul_comm, Nat.mul_add_div hk, Nat.div_eq_of_lt (by omega)]
  omega

theorem perShard_pos {k n : Nat} (hk : 0 < k) (hn : 0 < n) : 0 < perShard k n := by
  have := perShard_mul_ge hk n
  rcases Nat.eq_zero_or_pos (perShard k n) with h | h
  · rw [h] at this; omega
  · exact h

theorem perShard_le {k n b : Nat} (hk : 0 < k) (h : n ≤ b * k) : perShard k n ≤ b := by
  rw [← perShard_block hk b]
  exact Nat.div_le_div_right (by omega)

theorem perShard_add {k : Nat} (hk : 0 < k) (b n : Nat) :
    perShard k (b * k + n) = b + perShard k n := by
  unfold perShard
  rw [show b * k + n + k - 1 = k * b + (n + k - 1) by rw [Nat.mul_comm]; omega, Nat.mul_add_div hk]

theorem splitData_length (k : Nat) (b : Bytes) : (splitData k b).length = k := by simp [splitData]

theorem splitData_mem {k : Nat} (hk : 0 < k) (b : Bytes) {x : Bytes} (hx : x ∈ splitData k b) :
    x.length = perShard k b.length := by
  simp only [splitData, List.mem_map, List.mem_range] at hx
  obtain ⟨i, hi, rfl⟩ := hx
  have h := perShard_mul_ge hk b.length
  simp only [List.length_take, List.length_drop, List.length_append, List.length_replicate]
  have h2 : i * perShard k b.length + perShard k b.length ≤ perShard k b.length * k := by
    have : (i + 1) * perShard k b.length ≤ k * perShard k b.length := Nat.mul_le_mul_right _ hi
    rw [Nat.mul_comm (perShard k b.length) k]
    rw [Nat.add_mul] at this
    omega
  omega

/-- Cutting a list in pieces of the same size and putting it together again. -/
theorem flatten_pieces {α : Type} (l : List α) (n k : Nat) :
    ((List.range k).map fun i => (l.drop (i * n)).take n).flatten = l.take (k * n) := by
  induction k with
  | zero => simp
  | succ k ih =>
    rw [List.range_succ, List.map_append, List.flatten_append, ih]
    simp only [List.map_cons, List.map_nil, List.flatten_cons, List.flatten_nil, List.append_nil]
    rw [Nat.add_mul, Nat.one_mul, List.take_add]

theorem splitData_flatten {k : Nat} (hk : 0 < k) (b : Bytes) :
    (splitData k b).flatten = b ++ List.replicate (perShard k b.length * k - b.length) 0 := by
  have h := perShard_mul_ge hk b.length
  simp only [splitData]
  rw [flatten_pieces]
  apply List.take_of_length_le
  simp only [List.length_append, List.length_replicate, Nat.mul_comm k]
  omega

theorem encodeBlock_length {k m : Nat} (hk : 0 < k) (cod : Code k m) (b : Bytes) :
    (encodeBlock cod b).length = k + m := by
  have := (cod.parity_shape (splitData k b) _ (splitData_length k b) fun x => splitData_mem hk b).1
  simp [encodeBlock, splitData_length, this]

theorem encodeBlock_mem {k m : Nat} (hk : 0 < k) (cod : Code k m) (b : Bytes) {x : Bytes}
    (hx : x ∈ encodeBlock cod b) : x.length = perShard k b.length := by
  rcases List.mem_append.1 hx with h | h
  · exact splitData_mem hk b h
  · exact (cod.parity_shape (splitData k b) _ (splitData_length k b) fun x => splitData_mem hk b).2 x h

/-- What writer `i` receives for a list of blocks. -/
def strm {k m : Nat} (cod : Code k m) (i : Nat) (bs : List Bytes) : Bytes :=
  (bs.map fun b => (encodeBlock cod b).getD i []).flatten

/-- What all writers receive. -/
def encOut {k m : Nat} (cod : Code k m) (bs : List Bytes) : List Bytes :=
  (List.range (k + m)).map fun i => strm cod i bs

theorem encOut_nil {k m : Nat} (cod : Code k m) : encOut cod [] = List.replicate (k + m) [] := by
  simp [encOut, strm, List.map_const']

theorem encOut_append {k m : Nat} (hk : 0 < k) (cod : Code k m) (bs : List Bytes) (b : Bytes) :
    List.zipWith (· ++ ·) (encOut cod bs) (encodeBlock cod b) = encOut cod (bs ++ [b]) := by
  apply List.ext_getElem?
  intro i
  have hlen := encodeBlock_length hk cod b
  simp only [encOut, List.getElem?_zipWith, List.getElem?_map]
  by_cases hi : i < k + m
  · rw [List.getElem?_range hi, List.getElem?_eq_getElem (by omega : i < (encodeBlock cod b).length)]
    simp [strm, List.getD_eq_getElem?_getD, hlen, hi]
  · rw [List.getElem?_eq_none (by simp; omega)]
    simp

/-- All blocks full. -/
def Full (c : Nat) (bs : List Bytes) : Prop := ∀ b ∈ bs, b.length = c

/-- All blocks full except that the last one may be shorter, none empty. -/
def WF (c : Nat) : List Bytes → Prop
  | [] => True
  | b :: bs => 0 < b.length ∧ b.length ≤ c ∧ (bs ≠ [] → b.length = c) ∧ WF c bs

theorem wf_of_full {c : Nat} (hc : 0 < c) (bs : List Bytes) (h : Full c bs) (last : Bytes)
    (hl : last.length ≤ c) (hne : last ≠ []) : WF c (bs ++ [last]) := by
  induction bs with
  | nil => exact ⟨List.length_pos_iff.2 hne, hl, fun h => absurd rfl h, trivial⟩
  | cons b bs ih =>
    have hb := h b (by simp)
    exact ⟨by omega, by omega, fun _ => hb, ih fun x hx => h x (by simp [hx])⟩

theorem wf_full {c : Nat} (hc : 0 < c) (bs : List Bytes) (h : Full c bs) : WF c bs := by
  induction bs with
  | nil => trivial
  | cons b bs ih =>
    have hb := h b (by simp)
    exact ⟨by omega, by omega, fun _ => hb, ih fun x hx => h x (by simp [hx])⟩

/-- The encoder holds `data`: full blocks are sent, the rest is buffered. -/
def EncInv {k m : Nat} (cod : Code k m) (bs : Nat) (data : Bytes) (e : Enc) : Prop :=
  ∃ blocks, Full bs blocks ∧ data = blocks.flatten ++ e.cache ∧ e.cache.length < bs ∧
    e.out = encOut cod blocks

theorem writeLoop_inv {k m : Nat} (hk : 0 < k) (cod : Code k m) {bs : Nat} (fuel : Nat) (bt : Bytes)
    (e : Enc) (data : Bytes) (hf : bt.length ≤ fuel) (h : EncInv cod bs data e) :
    ∃ e', Enc.writeLoop cod bs fuel e bt = some e' ∧ EncInv cod bs (data ++ bt) e' := by
  induction fuel generalizing bt e data with
  | zero =>
    cases bt with
    | nil => exact ⟨e, by simp [Enc.writeLoop], by simpa using h⟩
    | cons _ _ => simp at hf
  | succ fuel ih =>
    cases bt with
    | nil => exact ⟨e, by simp [Enc.writeLoop], by simpa using h⟩
    | cons x xs =>
      obtain ⟨blocks, h1, h2, h3, h4⟩ := h
      rw [Enc.writeLoop]
      generalize hn : min (bs - e.cache.length) (x :: xs).length = next
      have hpos : next ≠ 0 := by simp at hn; omega
      simp only [hpos, ↓reduceIte]
      have hsplit : data ++ (x :: xs) = (data ++ (x :: xs).take next) ++ (x :: xs).drop next := by
        rw [List.append_assoc, List.take_append_drop]
      rw [hsplit]
      have hdl : ((x :: xs).drop next).length ≤ fuel := by
        rw [List.length_drop]; omega
      have htl : ((x :: xs).take next).length = next := by
        rw [List.length_take]; omega
      apply ih _ _ _ hdl
      by_cases hfull : bs ≤ (e.cache ++ (x :: xs).take next).length
      · simp only [hfull, ↓reduceIte]
        have hlen : (e.cache ++ (x :: xs).take next).length = bs := by
          simp only [List.length_append, htl] at hfull ⊢; omega
        have hne : e.cache ++ (x :: xs).take next ≠ [] := by
          intro he; rw [he] at hlen; simp at hlen; omega
        refine ⟨blocks ++ [e.cache ++ (x :: xs).take next], ?_, ?_, ?_, ?_⟩
        · intro b hb
          rcases List.mem_append.1 hb with hb | hb
          · exact h1 b hb
          · rw [List.mem_singleton.1 hb]; exact hlen
        · simp [Enc.flush, hne, h2]
        · simp [Enc.flush, hne]; omega
        · simp only [Enc.flush, hne, ↓reduceIte]
          rw [h4, encOut_append hk]
      · simp only [hfull, ↓reduceIte]
        exact ⟨blocks, h1, by simp [h2], by simpa using hfull, h4⟩
      · intro h; cases h

theorem writeAll_blocks {k m : Nat} (hk : 0 < k) (cod : Code k m) {bs : Nat} (hbs : 0 < bs)
    (pieces : List Bytes) (e : Enc) (data : Bytes) (h : EncInv cod bs data e) :
    ∃ e' blocks, Enc.writeAll cod bs e pieces = some e' ∧ WF bs blocks ∧
      blocks.flatten = data ++ pieces.flatten ∧ e'.out = encOut cod blocks := by
  induction pieces generalizing e data with
  | nil =>
    obtain ⟨blocks, h1, h2, h3, h4⟩ := h
    refine ⟨e.flush cod, ?_⟩
    by_cases hc : e.cache = []
    · exact ⟨blocks, by simp [Enc.writeAll], wf_full hbs _ h1, by simp [h2, hc], by simp [Enc.flush, hc, h4]⟩
    · refine ⟨blocks ++ [e.cache], by simp [Enc.writeAll], wf_of_full hbs _ h1 _ (by omega) hc,
        by simp [h2], ?_⟩
      simp only [Enc.flush, hc, ↓reduceIte]
      rw [h4, encOut_append hk]
  | cons bt rest ih =>
    obtain ⟨e1, h1, h2⟩ := writeLoop_inv hk cod bt.length bt e data (Nat.le_refl _) h
    obtain ⟨e', blocks, h3, h4, h5, h6⟩ := ih e1 (data ++ bt) h2
    exact ⟨e', blocks, by simp [Enc.writeAll, Enc.write, h1, h3], h4, by simp [h5], h6⟩

/-- An upload in any pieces is the encoding of some division of the data into blocks. -/
theorem upload_blocks (c : RsConfig) (cod : Code c.dataShards c.parityShards) (hk : 0 < c.dataShards)
    (hb : 0 < c.blockPerShard) (pieces : List Bytes) :
    ∃ blocks, WF c.blockSize blocks ∧ blocks.flatten = pieces.flatten ∧
      upload c cod pieces = some (encOut cod blocks) := by
  have hbs : 0 < c.blockSize := Nat.mul_pos hb hk
  obtain ⟨e', blocks, h1, h2, h3, h4⟩ := writeAll_blocks hk cod hbs pieces (.init c) []
    ⟨[], by simp [Full], by simp [Enc.init], by simpa [Enc.init] using hbs,
      by simp [Enc.init, encOut_nil, RsConfig.allShards]⟩
  exact ⟨blocks, h2, by simpa using h3, by simp [upload, h1, h4]⟩

/-! ## Shard sizes -/

theorem strm_length {k m : Nat} (hk : 0 < k) (cod : Code k m) {bps i : Nat} (hi : i < k + m)
    (bs : List Bytes) (h : WF (bps * k) bs) :
    (strm cod i bs).length = perShard k bs.flatten.length := by
  induction bs with
  | nil => simp [strm, perShard]; rw [Nat.div_eq_of_lt (by omega)]
  | cons b bs ih =>
    obtain ⟨h1, h2, h3, h4⟩ := h
    have hlen := encodeBlock_length hk cod b
    have hb : ((encodeBlock cod b).getD i []).length = perShard k b.length := by
      rw [List.getD_eq_getElem?_getD, List.getElem?_eq_getElem (by omega)]
      exact encodeBlock_mem hk cod b (List.getElem_mem _)
    have : strm cod i (b :: bs) = (encodeBlock cod b).getD i [] ++ strm cod i bs := by simp [strm]
    rw [this, List.length_append, hb, ih h4, List.flatten_cons, List.length_append]
    by_cases hne : bs = []
    · subst hne
      simp [perShard]; omega
    · rw [h3 hne, perShard_add hk, perShard_block hk]

/-! ## Decoder -/

theorem combine_spec (size : Nat) (xs : List Bytes) (cache : Bytes) (total : Nat) (h : total ≤ size) :
    combine size (cache, total) xs =
      (cache ++ xs.flatten.take (size - total), total + min xs.flatten.length (size - total)) := by
  induction xs generalizing cache total with
  | nil => simp [combine]
  | cons x xs ih =>
    simp only [combine]
    split
    · rename_i hgt
      rw [ih _ _ (by omega)]
      have e1 : size - (total + (size - total)) = 0 := by omega
      rw [e1]
      simp only [List.take_zero, List.append_nil, List.flatten_cons, List.length_append]
      congr 1
      · rw [List.take_append_of_le_length (by omega)]
      · omega
    · rename_i hle
      rw [ih _ _ (by omega)]
      simp only [List.flatten_cons, List.length_append, List.take_length, List.append_assoc]
      congr 1
      · rw [List.take_append]
        rw [List.take_of_length_le (l := x) (by omega)]
        congr 3
        omega
      · omega

theorem take_data {k m : Nat} (cod : Code k m) (b : Bytes) :
    (encodeBlock cod b).take k = splitData k b := by
  rw [encodeBlock, List.take_append_of_le_length (by simp [splitData_length])]
  rw [List.take_of_length_le (by simp [splitData_length])]

theorem strm_cons {k m : Nat} (cod : Code k m) (i : Nat) (b : Bytes) (bs : List Bytes) :
    strm cod i (b :: bs) = (encodeBlock cod b).getD i [] ++ strm cod i bs := by simp [strm]

/-- The readers deliver the shards of `bs`, some are missing. -/
def ReadersOf {k m : Nat} (cod : Code k m) (bs : List Bytes) (rs : List (Option Bytes)) : Prop :=
  rs.length = k + m ∧ ∀ (i : Nat) (x : Bytes), rs[i]? = some (some x) → x = strm cod i bs

theorem kill_readers {k m : Nat} (cod : Code k m) {bs : List Bytes} {rs : List (Option Bytes)}
    (dead : Nat → Bool) (h : ReadersOf cod bs rs) : ReadersOf cod bs (killReaders dead rs) := by
  refine ⟨by simp [killReaders, h.1], fun i x hx => h.2 i x ?_⟩
  simp only [killReaders, List.getElem?_mapIdx, Option.map_eq_some_iff] at hx
  obtain ⟨r, h1, h2⟩ := hx
  rw [h1]
  split at h2
  · cases h2
  · rw [h2]

theorem shard_take {k m : Nat} (hk : 0 < k) (cod : Code k m) {bps i : Nat} (hi : i < k + m) {b : Bytes}
    {bs : List Bytes} (h : WF (bps * k) (b :: bs)) :
    (strm cod i (b :: bs)).take bps = (encodeBlock cod b).getD i [] ∧
    (strm cod i (b :: bs)).drop bps = strm cod i bs ∧ (encodeBlock cod b).getD i [] ≠ [] := by
  obtain ⟨h1, h2, h3, h4⟩ := h
  have hlen := encodeBlock_length hk cod b
  have hb : ((encodeBlock cod b).getD i []).length = perShard k b.length := by
    rw [List.getD_eq_getElem?_getD, List.getElem?_eq_getElem (by omega)]
    exact encodeBlock_mem hk cod b (List.getElem_mem _)
  have hpos := perShard_pos hk h1
  have hle := perShard_le hk h2
  rw [strm_cons]
  refine ⟨?_, ?_, fun he => by rw [he] at hb; simp at hb; omega⟩
  · by_cases hne : bs = []
    · subst hne
      simp only [strm, List.map_nil, List.flatten_nil, List.append_nil]
      exact List.take_of_length_le (by omega)
    · have := h3 hne
      rw [this, perShard_block hk] at hb
      rw [List.take_append_of_le_length (by omega), List.take_of_length_le (by omega)]
  · by_cases hne : bs = []
    · subst hne
      simp only [strm, List.map_nil, List.flatten_nil, List.append_nil]
      exact List.drop_of_length_le (by omega)
    · have := h3 hne
      rw [this, perShard_block hk] at hb
      rw [List.drop_append_of_le_length (by omega), List.drop_of_length_le (by omega)]
      rfl

theorem advance_readers {k m : Nat} (hk : 0 < k) (cod : Code k m) {bps : Nat} {b : Bytes}
    {bs : List Bytes} (hw : WF (bps * k) (b :: bs)) {rs : List (Option Bytes)}
    (h : ReadersOf cod (b :: bs) rs) : ReadersOf cod bs (rs.map (Option.map (List.drop bps))) := by
  refine ⟨by simp [h.1], fun i x hx => ?_⟩
  simp only [List.getElem?_map, Option.map_eq_some_iff] at hx
  obtain ⟨r, h1, h2⟩ := hx
  cases r with
  | none => simp at h2
  | some y =>
    obtain ⟨a, ha, h2⟩ := h2
    cases ha
    have hi : i < k + m := by
      rcases Nat.lt_or_ge i (k + m) with h' | h'
      · exact h'
      · rw [List.getElem?_eq_none (by rw [h.1]; exact h')] at h1; cases h1
    rw [← h2, h.2 i y h1, (shard_take hk cod hi hw).2.1]

theorem read_shards {k m : Nat} (hk : 0 < k) (cod : Code k m) {bps : Nat} {b : Bytes}
    {bs : List Bytes} (hw : WF (bps * k) (b :: bs)) {rs : List (Option Bytes)}
    (h : ReadersOf cod (b :: bs) rs) :
    ErasureOf (rs.map (readBlock bps)) (encodeBlock cod b) ∧
    presentCount (rs.map (readBlock bps)) = presentCount rs := by
  have hlen := encodeBlock_length hk cod b
  refine ⟨⟨by simp [h.1, hlen], fun i x hx => ?_⟩, ?_⟩
  · simp only [List.getElem?_map, Option.map_eq_some_iff] at hx
    obtain ⟨r, h1, h2⟩ := hx
    cases r with
    | none => simp [readBlock] at h2
    | some y =>
      have hi : i < k + m := by
        rcases Nat.lt_or_ge i (k + m) with h' | h'
        · exact h'
        · rw [List.getElem?_eq_none (by rw [h.1]; exact h')] at h1; cases h1
      have hs := shard_take hk cod hi hw
      have hy := h.2 i y h1
      simp only [readBlock] at h2
      split at h2
      · cases h2
      · cases h2
        rw [hy, hs.1, List.getD_eq_getElem?_getD, List.getElem?_eq_getElem (by omega)]
        rfl
  · unfold presentCount
    rw [List.countP_map]
    apply List.countP_congr
    intro r hr
    obtain ⟨i, hi, rfl⟩ := List.getElem_of_mem hr
    cases hri : rs[i] with
    | none => simp [readBlock]
    | some y =>
      have hy := h.2 i y (by rw [List.getElem?_eq_getElem hi, hri])
      have hs := shard_take hk cod (by rw [← h.1]; exact hi) hw
      have : y.take bps ≠ [] := by rw [hy, hs.1]; exact hs.2.2
      simp [readBlock, this]

/-- The decoder is somewhere in the middle of `data`: `done` was delivered, `cache` is ready, the blocks
`bs` are still to come. -/
structure DecInv (c : RsConfig) (cod : Code c.dataShards c.parityShards) (data done : Bytes)
    (bs : List Bytes) (d : Dec) : Prop where
  wf : WF c.blockSize bs
  data_eq : data = done ++ (d.cache ++ bs.flatten)
  total_eq : d.total = done.length + d.cache.length
  readers : ReadersOf cod bs d.readers

/-- What one call of `getData` does while enough readers are left. -/
theorem getData_ok {c : RsConfig} {cod : Code c.dataShards c.parityShards} (hk : 0 < c.dataShards)
    {data done : Bytes} {d : Dec} {b : Bytes} {rest : List Bytes}
    (h : DecInv c cod data done (b :: rest) d) (hcache : d.cache = []) (dead : Nat → Bool)
    (hp : c.dataShards ≤ presentCount (killReaders dead d.readers)) :
    d.getData c cod data.length dead =
      (.ok (), ⟨(killReaders dead d.readers).map (Option.map (List.drop c.blockPerShard)), b,
        d.total + b.length, d.repair.mapIdx fun i w => w.map (· ++ (encodeBlock cod b).getD i [])⟩) := by
  obtain ⟨hw, hd, ht, hr⟩ := h
  have hb0 : 0 < b.length := hw.1
  have hdl : data.length = done.length + (b.length + rest.flatten.length) := by
    rw [hd, hcache]; simp
  have htd : d.total = done.length := by rw [ht, hcache]; simp
  have hne : ¬ d.total = data.length := by omega
  have hnl : ¬ data.length < d.total := by omega
  have hrk := kill_readers cod dead hr
  obtain ⟨he, hpc⟩ := read_shards hk cod hw hrk
  have hrec : cod.recon ((killReaders dead d.readers).map (readBlock c.blockPerShard)) =
      .ok (encodeBlock cod b) :=
    cod.recon_ok (splitData c.dataShards b) (perShard c.dataShards b.length) _ (splitData_length _ _)
      (perShard_pos hk hb0) (fun x => splitData_mem hk b) he (by rw [hpc]; exact hp)
  unfold Dec.getData
  simp only [hne, hnl, ↓reduceIte, hrec, take_data]
  rw [combine_spec _ _ _ _ (by omega), splitData_flatten hk]
  have hsz : data.length - d.total = b.length + rest.flatten.length := by omega
  rw [hsz, hcache]
  have hge := perShard_mul_ge hk b.length
  by_cases hrest : rest = []
  · subst hrest
    have hm : min (b ++ List.replicate (perShard c.dataShards b.length * c.dataShards - b.length) 0).length
        (b.length + ([] : List Bytes).flatten.length) = b.length := by
      simp
    simp only [hm]
    simp
  · have hfull := hw.2.2.1 hrest
    have hz : perShard c.dataShards b.length * c.dataShards - b.length = 0 := by
      rw [hfull, RsConfig.blockSize, perShard_block hk]; omega
    rw [hz]
    simp only [List.replicate_zero, List.append_nil, List.nil_append]
    rw [List.take_of_length_le (by omega)]
    have : min b.length (b.length + rest.flatten.length) = b.length := by omega
    rw [this]

end Verif.Object
