import Verif.Object.RSProps
import Verif.Object.PowerProps

/-!
# Erasure coded objects after a loss of power (C136)

Puts the files that data servers have after a loss of power (`Verif.Object.Power`, C132) under the reader of erasure coded objects
(`Verif.Object.RS`, C33 and C34).  After a loss of power a file may be gone, whole, or a beginning of what it was.  The decoder,
src/apiserver/internal/usecase/service/rs_decoder.go `getData`, reads a block of every shard with `io.ReadFull` and takes the end of a
file for no error (lines 83-87): what was read of a shard that ended early is handed to `Reconstruct` as if it were the block.

`getDataW` is `Dec.getData` with the reading of one block as a parameter; `code_reads` shows that with `readBlock` it is the decoder of
the code.  `readWhole` is the reading that the code lacks: a piece that is not as long as the block has to be counts as missing.
-/

namespace Verif.Object.PowerCode

open Verif Verif.Object

/-! ## Model -/

/-- How the piece of one shard is read, knowing how many bytes of the object were delivered. -/
abbrev Reading := Nat → Option Bytes → Option Bytes

/-- rs_decoder.go:81-88. -/
def codeReading (c : RsConfig) : Reading := fun _ => readBlock c.blockPerShard

/-- A repair, not in the code: the piece is used if it has the size that the pieces of this block have. -/
def readWhole (n want : Nat) : Option Bytes → Option Bytes
  | none => none
  | some r => if (r.take n).length = want ∧ 0 < want then some (r.take n) else none

def strictReading (c : RsConfig) (size : Nat) : Reading := fun total =>
  readWhole c.blockPerShard (perShard c.dataShards (min c.blockSize (size - total)))

/-- `getData`, rs_decoder.go:63-137. -/
def getDataW (rb : Reading) (c : RsConfig) (cod : Code c.dataShards c.parityShards) (size : Nat) (dead : Nat → Bool)
    (d : Dec) : Except RdErr Unit × Dec :=
  if d.total = size then (.error .eof, d)
  else if size < d.total then (.error .overRead, d)
  else
    let rs := killReaders dead d.readers
    let shards := rs.map (rb d.total)
    let rs' := rs.map (Option.map (List.drop c.blockPerShard))
    match cod.recon shards with
    | .error e => (.error (.rs e), { d with readers := rs' })
    | .ok all =>
      let ct := combine size (d.cache, d.total) (all.take c.dataShards)
      let repair := d.repair.mapIdx fun i w => w.map (· ++ all.getD i [])
      (.ok (), ⟨rs', ct.1, ct.2, repair⟩)

/-- `Read`, rs_decoder.go:44-61. -/
def readW (rb : Reading) (c : RsConfig) (cod : Code c.dataShards c.parityShards) (size : Nat) (n : Nat)
    (dead : Nat → Bool) (d : Dec) : Except RdErr Bytes × Dec :=
  if d.cache = [] then
    match getDataW rb c cod size dead d with
    | (.error e, d') => (.error e, d')
    | (.ok (), d') => (.ok (d'.cache.take n), { d' with cache := d'.cache.drop n })
  else (.ok (d.cache.take n), { d with cache := d.cache.drop n })

/-- A client reading with buffers of given sizes, rs_get_stream.go `Read`; `dead` are the servers that fail during that read. -/
def readsW (rb : Reading) (c : RsConfig) (cod : Code c.dataShards c.parityShards) (size : Nat) :
    List (Nat × (Nat → Bool)) → Dec → List (Except RdErr Bytes) × Dec
  | [], d => ([], d)
  | (n, dead) :: rest, d =>
    let r := readW rb c cod size n dead d
    let r' := readsW rb c cod size rest r.2
    (r.1 :: r'.1, r'.2)

/-- The files of the shards: server `i` went through the events `(es i).2` and is asked for the shard `(es i).1`. -/
def after (sync : Bool) (es : List (Str × List (Power.Ev UInt8))) : List (Option Bytes) :=
  es.map fun e => Power.read (Power.run sync {} e.2) e.1

/-! ## Specification -/

/-- Every file is gone or a beginning of the shard. -/
def Cut (files : List Bytes) (rs : List (Option Bytes)) : Prop :=
  rs.length = files.length ∧ ∀ (i : Nat) (x : Bytes), rs[i]? = some (some x) → ∃ f, files[i]? = some f ∧ x <+: f

/-- How many servers have the whole shard and do not fail. -/
def wholeCount (all : Nat → Bool) (files : List Bytes) (rs : List (Option Bytes)) : Nat :=
  (List.range files.length).countP fun i => !all i && decide (rs[i]? = some files[i]?)


/-- The object is read as it should be. -/
def Good (content : Bytes) (enough : Prop) (reqs : List (Nat × (Nat → Bool))) (answers : List (Except RdErr Bytes)) : Prop :=
  received answers <+: content ∧
  (enough → (∀ a ∈ answers, a = .error .eof ∨ ∃ b, a = .ok b) ∧ (.error .eof ∈ answers → received answers = content) ∧
    ((∀ q ∈ reqs, 0 < q.1) → content.length < reqs.length → .error .eof ∈ answers))

/-- The property as stated: whatever files the loss of power has cut. -/
def Statement : Prop :=
  ∀ (c : RsConfig) (cod : Code c.dataShards c.parityShards), 0 < c.dataShards → 0 < c.blockPerShard →
    ∀ (pieces files : List Bytes), upload c cod pieces = some files → ∀ (rs : List (Option Bytes)), Cut files rs →
    ∀ (all : Nat → Bool) (reqs : List (Nat × (Nat → Bool))), (∀ q ∈ reqs, ∀ i, q.2 i = true → all i = true) →
      Good pieces.flatten (c.dataShards ≤ wholeCount all files rs) reqs
        (Dec.reads c cod pieces.flatten.length reqs (.init rs)).1

/-! ## The decoder of the code -/

theorem code_getData (c : RsConfig) (cod : Code c.dataShards c.parityShards) (size : Nat) (dead : Nat → Bool) (d : Dec) :
    getDataW (codeReading c) c cod size dead d = d.getData c cod size dead := rfl

theorem code_read (c : RsConfig) (cod : Code c.dataShards c.parityShards) (size n : Nat) (dead : Nat → Bool) (d : Dec) :
    readW (codeReading c) c cod size n dead d = d.read c cod size n dead := rfl

theorem code_reads (c : RsConfig) (cod : Code c.dataShards c.parityShards) (size : Nat) (reqs : List (Nat × (Nat → Bool))) (d : Dec) :
    readsW (codeReading c) c cod size reqs d = Dec.reads c cod size reqs d := by
  induction reqs generalizing d with
  | nil => rfl
  | cons q reqs ih => simp only [readsW, Dec.reads, code_read, ih]

/-! ## Readings that tell pieces from parts of pieces -/

/-- `Q i bs x`: shard `i` has `x` left while the blocks `bs` are to come.  The reading `rb` gives the piece of the block or nothing, and
nothing only at the end of the file. -/
structure Fits (c : RsConfig) (cod : Code c.dataShards c.parityShards) (size : Nat) (rb : Reading)
    (Q : Nat → List Bytes → Bytes → Prop) : Prop where
  absent : ∀ t, rb t none = none
  empty : ∀ t, rb t (some []) = none
  hit : ∀ b bs i x y, WF c.blockSize (b :: bs) → (b :: bs).flatten.length ≤ size → i < c.allShards → Q i (b :: bs) x →
    rb (size - (b :: bs).flatten.length) (some x) = some y → y = (encodeBlock cod b).getD i []
  miss : ∀ b bs i x, WF c.blockSize (b :: bs) → (b :: bs).flatten.length ≤ size → i < c.allShards → Q i (b :: bs) x →
    rb (size - (b :: bs).flatten.length) (some x) = none → x.drop c.blockPerShard = []
  next : ∀ b bs i x, WF c.blockSize (b :: bs) → i < c.allShards → Q i (b :: bs) x → Q i bs (x.drop c.blockPerShard)
  whole : ∀ b bs i, WF c.blockSize (b :: bs) → (b :: bs).flatten.length ≤ size → i < c.allShards →
    rb (size - (b :: bs).flatten.length) (some (strm cod i (b :: bs))) ≠ none

/-- The decoder is in the middle of `data`, as `DecInv`, with readers that meet `Q`. -/
structure Inv (c : RsConfig) (cod : Code c.dataShards c.parityShards) (Q : Nat → List Bytes → Bytes → Prop) (data done : Bytes)
    (bs : List Bytes) (d : Dec) : Prop where
  wf : WF c.blockSize bs
  data_eq : data = done ++ (d.cache ++ bs.flatten)
  total_eq : d.total = done.length + d.cache.length
  len : d.readers.length = c.allShards
  readers : ∀ (i : Nat) (x : Bytes), d.readers[i]? = some (some x) → Q i bs x

/-- What one call of `getData` does when the pieces are right and enough. -/
theorem getDataW_ok {c : RsConfig} {cod : Code c.dataShards c.parityShards} (hk : 0 < c.dataShards) (rb : Reading)
    {data done : Bytes} {d : Dec} {b : Bytes} {rest : List Bytes} (hw : WF c.blockSize (b :: rest))
    (hd : data = done ++ (d.cache ++ (b :: rest).flatten)) (ht : d.total = done.length + d.cache.length) (hcache : d.cache = [])
    (dead : Nat → Bool) (he : ErasureOf ((killReaders dead d.readers).map (rb d.total)) (encodeBlock cod b))
    (hp : c.dataShards ≤ presentCount ((killReaders dead d.readers).map (rb d.total))) :
    getDataW rb c cod data.length dead d =
      (.ok (), ⟨(killReaders dead d.readers).map (Option.map (List.drop c.blockPerShard)), b,
        d.total + b.length, d.repair.mapIdx fun i w => w.map (· ++ (encodeBlock cod b).getD i [])⟩) := by
  have hb0 : 0 < b.length := hw.1
  have hdl : data.length = done.length + (b.length + rest.flatten.length) := by
    rw [hd, hcache]; simp
  have htd : d.total = done.length := by rw [ht, hcache]; simp
  have hne : ¬ d.total = data.length := by omega
  have hnl : ¬ data.length < d.total := by omega
  have hrec : cod.recon ((killReaders dead d.readers).map (rb d.total)) = .ok (encodeBlock cod b) :=
    cod.recon_ok (splitData c.dataShards b) (perShard c.dataShards b.length) _ (splitData_length _ _)
      (perShard_pos hk hb0) (fun x => splitData_mem hk b) he hp
  unfold getDataW
  simp only [hne, hnl, ↓reduceIte, hrec, take_data]
  rw [combine_spec _ _ _ _ (by omega), splitData_flatten hk]
  have hsz : data.length - d.total = b.length + rest.flatten.length := by omega
  rw [hsz, hcache]
  have hge := perShard_mul_ge hk b.length
  by_cases hrest : rest = []
  · subst hrest
    have hm : min (b ++ List.replicate (perShard c.dataShards b.length * c.dataShards - b.length) 0).length
        (b.length + ([] : List Bytes).flatten.length) = b.length := by
      simp
    simp only [hm]
    simp
  · have hfull := hw.2.2.1 hrest
    have hz : perShard c.dataShards b.length * c.dataShards - b.length = 0 := by
      rw [hfull, RsConfig.blockSize, perShard_block hk]; omega
    rw [hz]
    simp only [List.replicate_zero, List.append_nil, List.nil_append]
    rw [List.take_of_length_le (by omega)]
    have : min b.length (b.length + rest.flatten.length) = b.length := by omega
    rw [this]

theorem kill_get {dead : Nat → Bool} {rs : List (Option Bytes)} {i : Nat} {x : Bytes}
    (h : (killReaders dead rs)[i]? = some (some x)) : rs[i]? = some (some x) := by
  simp only [killReaders, List.getElem?_mapIdx, Option.map_eq_some_iff] at h
  obtain ⟨r, h1, h2⟩ := h
  rw [h1]
  split at h2
  · cases h2
  · rw [h2]

theorem kill_len (dead : Nat → Bool) (rs : List (Option Bytes)) : (killReaders dead rs).length = rs.length := by simp [killReaders]

theorem lt_of_get {rs : List (Option Bytes)} {i : Nat} {x : Option Bytes} (h : rs[i]? = some x) : i < rs.length := by
  rcases Nat.lt_or_ge i rs.length with h' | h'
  · exact h'
  · rw [List.getElem?_eq_none h'] at h; cases h

/-- How many readers have something left. -/
def liveCount (rs : List (Option Bytes)) : Nat := rs.countP fun r => match r with | some (_ :: _) => true | _ => false

theorem live_kill_le (dead : Nat → Bool) (rs : List (Option Bytes)) : liveCount (killReaders dead rs) ≤ liveCount rs := by
  unfold liveCount killReaders
  induction rs generalizing dead with
  | nil => simp
  | cons r rs ih =>
    rw [List.mapIdx_cons, List.countP_cons, List.countP_cons]
    have := ih (fun i => dead (i + 1))
    by_cases hd : dead 0 = true
    · simp only [hd, ↓reduceIte, Bool.false_eq_true]; omega
    · simp only [hd, ↓reduceIte, Bool.false_eq_true]; omega

theorem live_drop_le (n : Nat) (rs : List (Option Bytes)) : liveCount (rs.map (Option.map (List.drop n))) ≤ liveCount rs := by
  unfold liveCount
  rw [List.countP_map]
  apply List.countP_mono_left
  intro r _ h
  cases r with
  | none => simp at h
  | some x => cases x with
    | nil => simp at h
    | cons a x => rfl

theorem present_le_live {rb : Reading} {t : Nat} (h1 : rb t none = none) (h2 : rb t (some []) = none) (rs : List (Option Bytes)) :
    presentCount (rs.map (rb t)) ≤ liveCount rs := by
  unfold liveCount presentCount
  rw [List.countP_map]
  apply List.countP_mono_left
  intro r _ h
  cases r with
  | none => simp [h1] at h
  | some x => cases x with
    | nil => simp [h2] at h
    | cons a x => rfl

/-- Too few readers have something left. -/
structure Ended (c : RsConfig) (size : Nat) (d : Dec) : Prop where
  few : liveCount d.readers < c.dataShards
  cache : d.cache = []
  total : d.total < size

theorem readW_few {c : RsConfig} {cod : Code c.dataShards c.parityShards} {rb : Reading} {size : Nat} {d : Dec} (hc : d.cache = [])
    (ht : d.total < size) (n : Nat) (dead : Nat → Bool) (hp : presentCount ((killReaders dead d.readers).map (rb d.total)) < c.dataShards)
    (hl : liveCount ((killReaders dead d.readers).map (Option.map (List.drop c.blockPerShard))) < c.dataShards) :
    (∃ e, (readW rb c cod size n dead d).1 = .error (.rs e)) ∧ Ended c size (readW rb c cod size n dead d).2 := by
  obtain ⟨e, he⟩ := cod.recon_few _ hp
  have h1 : ¬ d.total = size := by omega
  have h2 : ¬ size < d.total := by omega
  unfold readW
  simp only [hc, ↓reduceIte, getDataW, h1, h2, he]
  exact ⟨⟨e, rfl⟩, hl, rfl, ht⟩

theorem ended_read {c : RsConfig} {cod : Code c.dataShards c.parityShards} {rb : Reading} {size : Nat}
    (h1 : ∀ t, rb t none = none) (h2 : ∀ t, rb t (some []) = none) {d : Dec} (h : Ended c size d) (n : Nat) (dead : Nat → Bool) :
    (∃ e, (readW rb c cod size n dead d).1 = .error (.rs e)) ∧ Ended c size (readW rb c cod size n dead d).2 := by
  have hk := live_kill_le dead d.readers
  have hf := h.few
  refine readW_few h.cache h.total n dead ?_ ?_
  · have := present_le_live (h1 d.total) (h2 d.total) (killReaders dead d.readers); omega
  · have := live_drop_le c.blockPerShard (killReaders dead d.readers); omega

theorem ended_reads {c : RsConfig} {cod : Code c.dataShards c.parityShards} {rb : Reading} {size : Nat}
    (h1 : ∀ t, rb t none = none) (h2 : ∀ t, rb t (some []) = none) (reqs : List (Nat × (Nat → Bool))) (d : Dec) (h : Ended c size d) :
    received (readsW rb c cod size reqs d).1 = [] := by
  induction reqs generalizing d with
  | nil => rfl
  | cons q reqs ih =>
    obtain ⟨⟨e, he⟩, hb⟩ := ended_read (cod := cod) h1 h2 h q.1 q.2
    simp only [readsW, he, received]
    exact ih _ hb

section steps

variable {c : RsConfig} {cod : Code c.dataShards c.parityShards} {rb : Reading} {Q : Nat → List Bytes → Bytes → Prop}
  {data done : Bytes} {bs : List Bytes} {d : Dec}

theorem readW_cached (h : Inv c cod Q data done bs d) (hc : d.cache ≠ []) (size n : Nat) (dead : Nat → Bool) :
    (readW rb c cod size n dead d).1 = .ok (d.cache.take n) ∧
    Inv c cod Q data (done ++ d.cache.take n) bs (readW rb c cod size n dead d).2 ∧
    (readW rb c cod size n dead d).2.readers = d.readers := by
  unfold readW
  rw [if_neg hc]
  refine ⟨rfl, ⟨h.wf, ?_, ?_, h.len, h.readers⟩, rfl⟩
  · simp only [h.data_eq, List.append_assoc]
    rw [← List.append_assoc (List.take n d.cache), List.take_append_drop]
  · simp only [h.total_eq, List.length_append, List.length_take, List.length_drop]
    omega

theorem readW_eof (h : Inv c cod Q data done [] d) (hc : d.cache = []) (n : Nat) (dead : Nat → Bool) :
    readW rb c cod data.length n dead d = (.error .eof, d) ∧ done = data := by
  have hd : done = data := by have := h.data_eq; simp [hc] at this; exact this.symm
  have ht : d.total = data.length := by rw [h.total_eq, hd, hc]; simp
  exact ⟨by simp [readW, hc, getDataW, ht], hd⟩

/-- The pieces are right. -/
theorem pieces_ok {b : Bytes} {rest : List Bytes} (hk : 0 < c.dataShards) (hf : Fits c cod data.length rb Q)
    (h : Inv c cod Q data done (b :: rest) d) (hc : d.cache = []) (dead : Nat → Bool) :
    d.total = data.length - (b :: rest).flatten.length ∧ (b :: rest).flatten.length ≤ data.length ∧
    ErasureOf ((killReaders dead d.readers).map (rb d.total)) (encodeBlock cod b) := by
  have hl := congrArg List.length h.data_eq
  have ht := h.total_eq
  simp only [hc, List.length_append, List.length_nil, List.nil_append] at hl ht
  have hlen := encodeBlock_length hk cod b
  have htot : d.total = data.length - (b :: rest).flatten.length := by omega
  refine ⟨htot, by omega, by simp [kill_len, h.len, hlen, RsConfig.allShards], fun i y hy => ?_⟩
  simp only [List.getElem?_map, Option.map_eq_some_iff] at hy
  obtain ⟨r, h1, h2⟩ := hy
  cases r with
  | none => rw [hf.absent] at h2; cases h2
  | some x =>
    have hx := kill_get h1
    have hi : i < c.allShards := by rw [← h.len]; exact lt_of_get hx
    rw [htot] at h2
    have := hf.hit b rest i x y h.wf (by omega) hi (h.readers i x hx) h2
    rw [this, List.getD_eq_getElem?_getD, List.getElem?_eq_getElem (by rw [hlen]; exact hi)]
    rfl

theorem inv_next {b : Bytes} {rest : List Bytes} (hf : Fits c cod data.length rb Q) (h : Inv c cod Q data done (b :: rest) d)
    (dead : Nat → Bool) (i : Nat) (x : Bytes)
    (hx : ((killReaders dead d.readers).map (Option.map (List.drop c.blockPerShard)))[i]? = some (some x)) : Q i rest x := by
  simp only [List.getElem?_map, Option.map_eq_some_iff] at hx
  obtain ⟨r, h1, h2⟩ := hx
  cases r with
  | none => simp at h2
  | some y =>
    obtain ⟨a, ha, h2⟩ := h2
    cases ha
    have hy := kill_get h1
    rw [← h2]
    exact hf.next b rest i y h.wf (by rw [← h.len]; exact lt_of_get hy) (h.readers i y hy)

theorem readW_block {b : Bytes} {rest : List Bytes} (hk : 0 < c.dataShards) (hf : Fits c cod data.length rb Q)
    (h : Inv c cod Q data done (b :: rest) d) (hc : d.cache = []) (n : Nat) (dead : Nat → Bool)
    (hp : c.dataShards ≤ presentCount ((killReaders dead d.readers).map (rb d.total))) :
    (readW rb c cod data.length n dead d).1 = .ok (b.take n) ∧
    Inv c cod Q data (done ++ b.take n) rest (readW rb c cod data.length n dead d).2 ∧
    (readW rb c cod data.length n dead d).2.readers =
      (killReaders dead d.readers).map (Option.map (List.drop c.blockPerShard)) := by
  obtain ⟨h1, h2, h3⟩ := pieces_ok hk hf h hc dead
  unfold readW
  rw [if_pos hc, getDataW_ok hk rb h.wf h.data_eq h.total_eq hc dead h3 hp]
  refine ⟨rfl, ⟨h.wf.2.2.2, ?_, ?_, by simp [kill_len, h.len], inv_next hf h dead⟩, rfl⟩
  · simp only [h.data_eq, hc, List.append_assoc, List.flatten_cons, List.nil_append]
    rw [← List.append_assoc (List.take n b), List.take_append_drop]
  · simp only [h.total_eq, hc, List.length_append, List.length_take, List.length_drop, List.length_nil]
    omega

theorem live_after {b : Bytes} {rest : List Bytes} (hf : Fits c cod data.length rb Q) (h : Inv c cod Q data done (b :: rest) d)
    (ht : d.total = data.length - (b :: rest).flatten.length) (hle : (b :: rest).flatten.length ≤ data.length) (dead : Nat → Bool) :
    liveCount ((killReaders dead d.readers).map (Option.map (List.drop c.blockPerShard))) ≤
      presentCount ((killReaders dead d.readers).map (rb d.total)) := by
  unfold liveCount presentCount
  rw [List.countP_map, List.countP_map]
  apply List.countP_mono_left
  intro r hr hlive
  obtain ⟨i, hi, he⟩ := List.getElem_of_mem hr
  cases r with
  | none => simp at hlive
  | some x =>
    have hx := kill_get (dead := dead) (rs := d.readers) (i := i) (x := x) (by rw [List.getElem?_eq_getElem hi, he])
    cases hrb : rb d.total (some x) with
    | some _ => simp [hrb]
    | none =>
      rw [ht] at hrb
      have := hf.miss b rest i x h.wf hle (by rw [← h.len]; exact lt_of_get hx) (h.readers i x hx) hrb
      simp [this] at hlive

/-- Whatever happens, a read extends the delivered bytes to a longer beginning of the object. -/
theorem readW_any (hk : 0 < c.dataShards) (hf : Fits c cod data.length rb Q) (h : Inv c cod Q data done bs d) (n : Nat)
    (dead : Nat → Bool) :
    (∃ b bs', (readW rb c cod data.length n dead d).1 = .ok b ∧
      Inv c cod Q data (done ++ b) bs' (readW rb c cod data.length n dead d).2) ∨
    (done = data ∧ readW rb c cod data.length n dead d = (.error .eof, d)) ∨
    ((∃ e, (readW rb c cod data.length n dead d).1 = .error (.rs e)) ∧
      Ended c data.length (readW rb c cod data.length n dead d).2) := by
  by_cases hc : d.cache = []
  · cases bs with
    | nil => exact .inr (.inl ⟨(readW_eof (rb := rb) h hc n dead).2, (readW_eof h hc n dead).1⟩)
    | cons b rest =>
      by_cases hp : c.dataShards ≤ presentCount ((killReaders dead d.readers).map (rb d.total))
      · have := readW_block hk hf h hc n dead hp
        exact .inl ⟨_, _, this.1, this.2.1⟩
      · have hb : 0 < b.length := h.wf.1
        obtain ⟨h1, h2, _⟩ := pieces_ok hk hf h hc dead
        have ht : d.total < data.length := by
          have : (b :: rest).flatten.length = b.length + rest.flatten.length := by simp
          omega
        have := live_after hf h h1 h2 dead
        exact .inr (.inr (readW_few hc ht n dead (by omega) (by omega)))
  · have := readW_cached (rb := rb) h hc data.length n dead
    exact .inl ⟨_, _, this.1, this.2.1⟩

theorem readsW_prefix (hk : 0 < c.dataShards) (hf : Fits c cod data.length rb Q) (reqs : List (Nat × (Nat → Bool))) (d : Dec)
    (done : Bytes) (bs : List Bytes) (h : Inv c cod Q data done bs d) :
    done ++ received (readsW rb c cod data.length reqs d).1 <+: data := by
  induction reqs generalizing d done bs with
  | nil => simp only [readsW, received, List.append_nil]; exact ⟨_, h.data_eq.symm⟩
  | cons q reqs ih =>
    rcases readW_any hk hf h q.1 q.2 with ⟨b, bs', h1, h2⟩ | ⟨h1, h2⟩ | ⟨⟨e, h1⟩, h2⟩
    · simp only [readsW, h1, received]
      rw [← List.append_assoc]
      exact ih _ _ _ h2
    · simp only [readsW, h2, received]
      exact ih _ _ _ h
    · simp only [readsW, h1, received, ended_reads hf.absent hf.empty reqs _ h2, List.append_nil]
      exact ⟨_, h.data_eq.symm⟩

/-- The servers `a` have whole shards. -/
def Whole (cod : Code c.dataShards c.parityShards) (a : Nat → Bool) (bs : List Bytes) (rs : List (Option Bytes)) : Prop :=
  ∀ i, i < c.allShards → a i = true → rs[i]? = some (some (strm cod i bs))

theorem whole_count {a : Nat → Bool} {ss : List (Option Bytes)} (h : ∀ i, i < ss.length → a i = true → ∃ y : Bytes, ss[i]? = some (some y)) :
    (List.range ss.length).countP a ≤ presentCount ss := by
  have hc : Covers ((List.range ss.length).map fun i => if a i then some [] else none) ss := by
    refine ⟨by simp, fun i x hx => ?_⟩
    simp only [List.getElem?_map, Option.map_eq_some_iff] at hx
    obtain ⟨j, h1, h2⟩ := hx
    rw [List.getElem?_eq_some_iff] at h1
    obtain ⟨hj, h1⟩ := h1
    simp at h1 hj
    subst h1
    cases hai : a i with
    | false => simp [hai] at h2
    | true => exact h i hj hai
  refine Nat.le_trans (Nat.le_of_eq ?_) (covers_count hc)
  unfold presentCount
  rw [List.countP_map]
  apply List.countP_congr
  intro i _
  cases h : a i <;> simp [h]

theorem whole_kill {a dead : Nat → Bool} {rs : List (Option Bytes)} (h : Whole cod a bs rs) (hd : ∀ i, dead i = true → a i = false) :
    Whole cod a bs (killReaders dead rs) := by
  intro i hi ha
  simp only [killReaders, List.getElem?_mapIdx, h i hi ha, Option.map_some]
  cases hdi : dead i with
  | false => simp
  | true => rw [hd i hdi] at ha; cases ha

theorem whole_drop {a : Nat → Bool} {b : Bytes} {rs : List (Option Bytes)} (hk : 0 < c.dataShards) (hw : WF c.blockSize (b :: bs))
    (h : Whole cod a (b :: bs) rs) : Whole cod a bs (rs.map (Option.map (List.drop c.blockPerShard))) := by
  intro i hi ha
  simp only [List.getElem?_map, h i hi ha, Option.map_some]
  rw [(shard_take hk cod (bps := c.blockPerShard) hi hw).2.1]

theorem whole_present {a dead : Nat → Bool} {b : Bytes} {rest : List Bytes} (hf : Fits c cod data.length rb Q)
    (h : Inv c cod Q data done (b :: rest) d) (ht : d.total = data.length - (b :: rest).flatten.length)
    (hle : (b :: rest).flatten.length ≤ data.length) (hw : Whole cod a (b :: rest) d.readers) (hd : ∀ i, dead i = true → a i = false)
    (ha : c.dataShards ≤ (List.range c.allShards).countP a) :
    c.dataShards ≤ presentCount ((killReaders dead d.readers).map (rb d.total)) := by
  refine Nat.le_trans ha ?_
  have hlen : ((killReaders dead d.readers).map (rb d.total)).length = c.allShards := by simp [kill_len, h.len]
  rw [← hlen]
  apply whole_count
  intro i hi hai
  rw [hlen] at hi
  have := whole_kill hw hd i hi hai
  simp only [List.getElem?_map, this, Option.map_some]
  have hne := hf.whole b rest i h.wf hle hi
  rw [← ht] at hne
  cases hr : rb d.total (some (strm cod i (b :: rest))) with
  | none => exact absurd hr hne
  | some y => exact ⟨y, rfl⟩

theorem readW_alive (hk : 0 < c.dataShards) (hf : Fits c cod data.length rb Q) (h : Inv c cod Q data done bs d) {a : Nat → Bool}
    (hw : Whole cod a bs d.readers) (ha : c.dataShards ≤ (List.range c.allShards).countP a) (n : Nat) {dead : Nat → Bool}
    (hd : ∀ i, dead i = true → a i = false) :
    (done = data ∧ readW rb c cod data.length n dead d = (.error .eof, d)) ∨
    ∃ b bs', (readW rb c cod data.length n dead d).1 = .ok b ∧ (0 < n → b ≠ []) ∧
      Inv c cod Q data (done ++ b) bs' (readW rb c cod data.length n dead d).2 ∧
      Whole cod a bs' (readW rb c cod data.length n dead d).2.readers := by
  by_cases hc : d.cache = []
  · cases bs with
    | nil => exact .inl ⟨(readW_eof (rb := rb) h hc n dead).2, (readW_eof h hc n dead).1⟩
    | cons b rest =>
      obtain ⟨ht, hle, _⟩ := pieces_ok hk hf h hc dead
      obtain ⟨h1, h2, h3⟩ := readW_block hk hf h hc n dead (whole_present hf h ht hle hw hd ha)
      refine .inr ⟨_, _, h1, fun hn he => ?_, h2, ?_⟩
      · have := h.wf.1
        have h4 : (b.take n).length = 0 := by rw [he]; rfl
        rw [List.length_take] at h4
        omega
      · rw [h3]; exact whole_drop hk h.wf (whole_kill hw hd)
  · obtain ⟨h1, h2, h3⟩ := readW_cached (rb := rb) h hc data.length n dead
    refine .inr ⟨_, _, h1, fun hn he => ?_, h2, by rw [h3]; exact hw⟩
    have h4 : (d.cache.take n).length = 0 := by rw [he]; rfl
    have h5 : 0 < d.cache.length := List.length_pos_iff.2 hc
    rw [List.length_take] at h4
    omega

theorem readsW_eof {size : Nat} (reqs : List (Nat × (Nat → Bool))) (d : Dec) (hc : d.cache = []) (ht : d.total = size) :
    received (readsW rb c cod size reqs d).1 = [] := by
  induction reqs with
  | nil => rfl
  | cons q reqs ih =>
    have : readW rb c cod size q.1 q.2 d = (.error .eof, d) := by simp [readW, hc, getDataW, ht]
    simp only [readsW, this, received]
    exact ih

theorem readsW_alive (hk : 0 < c.dataShards) (hf : Fits c cod data.length rb Q) {a : Nat → Bool}
    (ha : c.dataShards ≤ (List.range c.allShards).countP a) (reqs : List (Nat × (Nat → Bool)))
    (hd : ∀ q ∈ reqs, ∀ i, q.2 i = true → a i = false) (d : Dec) (done : Bytes) (bs : List Bytes)
    (h : Inv c cod Q data done bs d) (hw : Whole cod a bs d.readers) :
    (∀ x ∈ (readsW rb c cod data.length reqs d).1, x = .error .eof ∨ ∃ b, x = .ok b) ∧
    (.error .eof ∈ (readsW rb c cod data.length reqs d).1 →
      done ++ received (readsW rb c cod data.length reqs d).1 = data) ∧
    ((∀ q ∈ reqs, 0 < q.1) → data.length < done.length + reqs.length →
      .error .eof ∈ (readsW rb c cod data.length reqs d).1) := by
  induction reqs generalizing d done bs with
  | nil =>
    refine ⟨by simp [readsW], by simp [readsW], fun _ hl => ?_⟩
    have := congrArg List.length h.data_eq
    simp at this hl
    omega
  | cons q reqs ih =>
    rcases readW_alive hk hf h hw ha q.1 (hd q (by simp)) with ⟨h1, h2⟩ | ⟨b, bs', h1, h2, h3, h4⟩
    · have hnone : d.cache = [] ∧ d.total = data.length := by
        have hl := congrArg List.length h.data_eq
        rw [← h1] at hl
        simp at hl
        have hc : d.cache = [] := hl.1
        exact ⟨hc, by rw [h.total_eq, hc, h1]; simp⟩
      have hr := readsW_eof (cod := cod) (rb := rb) reqs d hnone.1 hnone.2
      obtain ⟨i1, _, _⟩ := ih (fun q hq => hd q (by simp [hq])) d done bs h hw
      simp only [readsW, h2, received, List.mem_cons, true_or, forall_eq_or_imp, hr, List.append_nil,
        h1, implies_true, and_true, true_and]
      exact i1
    · obtain ⟨i1, i2, i3⟩ := ih (fun q hq => hd q (by simp [hq])) _ _ _ h3 h4
      simp only [readsW, h1, received, List.mem_cons, forall_eq_or_imp, reduceCtorEq, false_or]
      refine ⟨⟨⟨b, rfl⟩, i1⟩, fun he => ?_, fun hpos hl => i3 hpos.2 ?_⟩
      · rw [← List.append_assoc]; exact i2 he
      · have := List.length_pos_iff.2 (h2 hpos.1)
        rw [List.length_append]
        simp at hl
        omega

end steps

/-! ## The two readings -/

/-- The file is whole, or ends at the end of a block. -/
def AtBlock (c : RsConfig) (cod : Code c.dataShards c.parityShards) (i : Nat) (bs : List Bytes) (x : Bytes) : Prop :=
  x = strm cod i bs ∨ (x <+: strm cod i bs ∧ c.blockPerShard ∣ x.length)

def Prefix (c : RsConfig) (cod : Code c.dataShards c.parityShards) (i : Nat) (bs : List Bytes) (x : Bytes) : Prop :=
  x <+: strm cod i bs

theorem take_prefix {x y : Bytes} (h : x <+: y) : x = y.take x.length := by
  obtain ⟨t, rfl⟩ := h; simp

theorem drop_prefix {x y : Bytes} (n : Nat) (h : x <+: y) : x.drop n <+: y.drop n := by
  obtain ⟨t, rfl⟩ := h
  rw [List.drop_append]
  exact List.prefix_append ..

theorem block_len {c : RsConfig} {cod : Code c.dataShards c.parityShards} (hk : 0 < c.dataShards) (b : Bytes) {i : Nat}
    (hi : i < c.allShards) : ((encodeBlock cod b).getD i []).length = perShard c.dataShards b.length := by
  have hlen := encodeBlock_length hk cod b
  rw [List.getD_eq_getElem?_getD, List.getElem?_eq_getElem (by rw [hlen]; exact hi)]
  exact encodeBlock_mem hk cod b (List.getElem_mem _)

theorem code_fits (c : RsConfig) (cod : Code c.dataShards c.parityShards) (hk : 0 < c.dataShards) (hb : 0 < c.blockPerShard) (size : Nat) :
    Fits c cod size (codeReading c) (AtBlock c cod) where
  absent _ := rfl
  empty _ := by simp [codeReading, readBlock]
  hit b bs i x y hw _ hi hq hy := by
    have hs := shard_take hk cod (bps := c.blockPerShard) hi hw
    simp only [codeReading, readBlock] at hy
    split at hy
    · cases hy
    · rename_i hne
      cases hy
      rcases hq with rfl | ⟨hp, hdvd⟩
      · exact hs.1
      · have hx : x ≠ [] := by rintro rfl; simp at hne
        have hle := Nat.le_of_dvd (List.length_pos_iff.2 hx) hdvd
        rw [← hs.1]
        obtain ⟨t, ht⟩ := hp
        rw [← ht, List.take_append_of_le_length hle]
  miss b bs i x hw _ hi hq hy := by
    simp only [codeReading, readBlock] at hy
    split at hy
    · rename_i he
      have : x = [] := by
        cases x with
        | nil => rfl
        | cons a x =>
          have := congrArg List.length he
          rw [List.length_take] at this
          simp only [List.length_cons, List.length_nil] at this
          omega
      rw [this]; simp
    · cases hy
  next b bs i x hw hi hq := by
    have hs := shard_take hk cod (bps := c.blockPerShard) hi hw
    rcases hq with rfl | ⟨hp, hdvd⟩
    · exact .inl hs.2.1
    · refine .inr ⟨by rw [← hs.2.1]; exact drop_prefix _ hp, ?_⟩
      rw [List.length_drop]
      exact Nat.dvd_sub hdvd (Nat.dvd_refl _)
  whole b bs i hw _ hi := by
    have hs := shard_take hk cod (bps := c.blockPerShard) hi hw
    simp only [codeReading, readBlock, hs.1]
    rw [if_neg hs.2.2]
    simp

theorem strict_want {c : RsConfig} (_hk : 0 < c.dataShards) {size : Nat} {b : Bytes} {bs : List Bytes} (hw : WF c.blockSize (b :: bs))
    (hs : (b :: bs).flatten.length ≤ size) : min c.blockSize (size - (size - (b :: bs).flatten.length)) = b.length := by
  obtain ⟨h1, h2, h3, h4⟩ := hw
  have : (b :: bs).flatten.length = b.length + bs.flatten.length := by simp
  rw [this] at hs ⊢
  by_cases hbs : bs = []
  · have h0 : bs.flatten.length = 0 := by rw [hbs]; rfl
    omega
  · have := h3 hbs; omega

theorem strict_fits (c : RsConfig) (cod : Code c.dataShards c.parityShards) (hk : 0 < c.dataShards) (size : Nat) :
    Fits c cod size (strictReading c size) (Prefix c cod) where
  absent _ := rfl
  empty _ := by simp [strictReading, readWhole]; omega
  hit b bs i x y hw hsz hi hq hy := by
    have hs := shard_take hk cod (bps := c.blockPerShard) hi hw
    have hl := block_len (cod := cod) hk b hi
    simp only [strictReading, strict_want hk hw hsz, readWhole] at hy
    split at hy
    · rename_i hlen
      cases hy
      rw [← hs.1]
      obtain ⟨t, ht⟩ := hq
      have h2 : ((x ++ t).take c.blockPerShard).length = perShard c.dataShards b.length := by rw [ht, hs.1, hl]
      have h3 := hlen.1
      rw [← ht]
      rw [List.length_take] at h2 h3
      rw [List.length_append] at h2
      rcases Nat.lt_or_ge x.length c.blockPerShard with h | h
      · have : t.length = 0 := by omega
        rw [List.length_eq_zero_iff.1 this, List.append_nil]
      · rw [List.take_append_of_le_length h]
    · cases hy
  miss b bs i x hw hsz hi hq hy := by
    have hs := shard_take hk cod (bps := c.blockPerShard) hi hw
    have hl := block_len (cod := cod) hk b hi
    have hpos := perShard_pos hk hw.1
    simp only [strictReading, strict_want hk hw hsz, readWhole] at hy
    split at hy
    · cases hy
    · rename_i hne
      apply List.drop_of_length_le
      rcases Nat.lt_or_ge c.blockPerShard x.length with h | h
      · exfalso
        apply hne
        refine ⟨?_, hpos⟩
        obtain ⟨t, ht⟩ := hq
        rw [← hl, ← hs.1, ← ht, List.take_append_of_le_length (by omega)]
      · exact h
  next b bs i x hw hi hq := by
    have hs := shard_take hk cod (bps := c.blockPerShard) hi hw
    unfold Prefix
    rw [← hs.2.1]
    exact drop_prefix _ hq
  whole b bs i hw hsz hi := by
    have hs := shard_take hk cod (bps := c.blockPerShard) hi hw
    have hl := block_len (cod := cod) hk b hi
    have hpos := perShard_pos hk hw.1
    simp only [strictReading, strict_want hk hw hsz, readWhole, hs.1, hl, hpos, and_self, ↓reduceIte]
    simp

/-! ## From a reading to the object -/

theorem encOut_get {k m : Nat} (cod : Code k m) (blocks : List Bytes) (i : Nat) (f : Bytes) (h : (encOut cod blocks)[i]? = some f) :
    i < k + m ∧ f = strm cod i blocks := by
  simp only [encOut, List.getElem?_map, Option.map_eq_some_iff] at h
  obtain ⟨j, h1, h2⟩ := h
  rw [List.getElem?_eq_some_iff] at h1
  obtain ⟨hj, h1⟩ := h1
  simp at h1 hj
  subst h1
  exact ⟨hj, h2.symm⟩

theorem good_of_fits (c : RsConfig) (cod : Code c.dataShards c.parityShards) (hk : 0 < c.dataShards) (hb : 0 < c.blockPerShard)
    (pieces files : List Bytes) (hf : upload c cod pieces = some files) (rs : List (Option Bytes)) (hlen : rs.length = files.length)
    (rb : Reading) (Q : Nat → List Bytes → Bytes → Prop) (hfit : Fits c cod pieces.flatten.length rb Q)
    (hq : ∀ blocks, files = encOut cod blocks → ∀ (i : Nat) (x : Bytes), rs[i]? = some (some x) → Q i blocks x)
    (all : Nat → Bool) (reqs : List (Nat × (Nat → Bool))) (hd : ∀ q ∈ reqs, ∀ i, q.2 i = true → all i = true) :
    Good pieces.flatten (c.dataShards ≤ wholeCount all files rs) reqs (readsW rb c cod pieces.flatten.length reqs (.init rs)).1 := by
  obtain ⟨blocks, h1, h2, h3⟩ := upload_blocks c cod hk hb pieces
  rw [h3] at hf
  cases hf
  have hlen' : rs.length = c.allShards := by simpa [encOut, RsConfig.allShards] using hlen
  have hinv : Inv c cod Q pieces.flatten [] blocks (.init rs) :=
    ⟨h1, by simp [Dec.init, h2], by simp [Dec.init], hlen', hq blocks rfl⟩
  refine ⟨by simpa using readsW_prefix hk hfit reqs _ _ _ hinv, fun henough => ?_⟩
  have hwl : Whole cod (fun i => !all i && decide (rs[i]? = some (encOut cod blocks)[i]?)) blocks (Dec.init rs).readers := by
    intro i hi ha
    simp only [Bool.and_eq_true, decide_eq_true_eq] at ha
    change rs[i]? = _
    rw [ha.2]
    simp only [encOut, List.getElem?_map, Option.some.injEq]
    rw [List.getElem?_range (show i < c.dataShards + c.parityShards from hi)]
    rfl
  have hel : (encOut cod blocks).length = c.allShards := by simp [encOut, RsConfig.allShards]
  have := readsW_alive hk hfit (by rw [← hel]; exact henough) reqs
    (fun q hq i hi => by simp [hd q hq i hi]) _ _ _ hinv hwl
  simpa using this

/-- **C136, partial** If every file that the loss of power has cut ends at the end of a block, the object is read as it should be.
Missing: files that end within a block (`C136_short_fails`, `C136_wrong_bytes`).  A block of a shard has `block-per-shard` bytes, the
kernel writes back pages. -/
theorem C136_blocks_partial (c : RsConfig) (cod : Code c.dataShards c.parityShards) (hk : 0 < c.dataShards) (hb : 0 < c.blockPerShard)
    (pieces files : List Bytes) (hf : upload c cod pieces = some files) (rs : List (Option Bytes)) (hcut : Cut files rs)
    (hblock : ∀ (i : Nat) (x : Bytes), rs[i]? = some (some x) → files[i]? = some x ∨ c.blockPerShard ∣ x.length)
    (all : Nat → Bool) (reqs : List (Nat × (Nat → Bool))) (hd : ∀ q ∈ reqs, ∀ i, q.2 i = true → all i = true) :
    Good pieces.flatten (c.dataShards ≤ wholeCount all files rs) reqs (Dec.reads c cod pieces.flatten.length reqs (.init rs)).1 := by
  rw [← code_reads]
  refine good_of_fits c cod hk hb pieces files hf rs hcut.1 _ _ (code_fits c cod hk hb _) ?_ all reqs hd
  rintro blocks rfl i x hx
  rcases hblock i x hx with h | h
  · exact .inl (encOut_get cod blocks i x h).2
  · obtain ⟨f, h1, h2⟩ := hcut.2 i x hx
    rw [(encOut_get cod blocks i f h1).2] at h2
    exact .inr ⟨h2, h⟩

/-- **C136** With a decoder that takes a piece of the wrong size for missing, the property holds for every cut. -/
theorem C136_repair (c : RsConfig) (cod : Code c.dataShards c.parityShards) (hk : 0 < c.dataShards) (hb : 0 < c.blockPerShard)
    (pieces files : List Bytes) (hf : upload c cod pieces = some files) (rs : List (Option Bytes)) (hcut : Cut files rs)
    (all : Nat → Bool) (reqs : List (Nat × (Nat → Bool))) (hd : ∀ q ∈ reqs, ∀ i, q.2 i = true → all i = true) :
    Good pieces.flatten (c.dataShards ≤ wholeCount all files rs) reqs
      (readsW (strictReading c pieces.flatten.length) c cod pieces.flatten.length reqs (.init rs)).1 := by
  refine good_of_fits c cod hk hb pieces files hf rs hcut.1 _ _ (strict_fits c cod hk _) ?_ all reqs hd
  rintro blocks rfl i x hx
  obtain ⟨f, h1, h2⟩ := hcut.2 i x hx
  rw [(encOut_get cod blocks i f h1).2] at h2
  exact h2

/-! ## One file that ends within a block -/

/-- All readers deliver what is left of their shards; `i0` ends after `L` more bytes. -/
structure Short (c : RsConfig) (cod : Code c.dataShards c.parityShards) (i0 i1 L : Nat) (bs : List Bytes)
    (rs : List (Option Bytes)) : Prop where
  len : rs.length = c.allShards
  others : ∀ (i : Nat) (x : Bytes), i ≠ i0 → rs[i]? = some (some x) → x = strm cod i bs
  short : rs[i0]? = some (some ((strm cod i0 bs).take L))
  other : rs[i1]? = some (some (strm cod i1 bs))
  ne : i1 ≠ i0
  lt : L < (strm cod i0 bs).length

theorem kill_none (rs : List (Option Bytes)) : killReaders (fun _ => false) rs = rs := by
  apply List.ext_getElem?
  intro i
  rw [killReaders, List.getElem?_mapIdx]
  cases rs[i]? <;> simp

theorem short_lt {c : RsConfig} {cod : Code c.dataShards c.parityShards} {i0 i1 L : Nat} {bs : List Bytes} {rs : List (Option Bytes)}
    (h : Short c cod i0 i1 L bs rs) : i0 < c.allShards ∧ i1 < c.allShards := by
  rw [← h.len]
  exact ⟨lt_of_get h.short, lt_of_get h.other⟩

/-- The block in which the file ends cannot be put together. -/
theorem short_end {c : RsConfig} {cod : Code c.dataShards c.parityShards} (hk : 0 < c.dataShards) {i0 i1 L : Nat} {b : Bytes}
    {bs : List Bytes} (hw : WF c.blockSize (b :: bs)) {rs : List (Option Bytes)} (h : Short c cod i0 i1 L (b :: bs) rs)
    (hL : 0 < L) (hL2 : L < c.blockPerShard) : ∃ e, cod.recon (rs.map (readBlock c.blockPerShard)) = .error e := by
  obtain ⟨hi0, hi1⟩ := short_lt h
  have hs0 := shard_take hk cod (bps := c.blockPerShard) hi0 hw
  have hs1 := shard_take hk cod (bps := c.blockPerShard) hi1 hw
  have hl0 := block_len (cod := cod) hk b hi0
  have hl1 := block_len (cod := cod) hk b hi1
  have hpos := perShard_pos hk hw.1
  have hlt := h.lt
  have h0 : ((strm cod i0 (b :: bs)).take L).take c.blockPerShard = (strm cod i0 (b :: bs)).take L := by
    apply List.take_of_length_le; rw [List.length_take]; omega
  have hL3 : L < perShard c.dataShards b.length := by
    rw [← hl0, ← hs0.1, List.length_take]; omega
  refine cod.recon_sizes _ ((strm cod i0 (b :: bs)).take L) ((encodeBlock cod b).getD i1 []) ?_ ?_ ?_
  · refine List.mem_map.2 ⟨_, List.mem_of_getElem? h.short, ?_⟩
    simp only [readBlock, h0]
    rw [if_neg]
    intro he
    have := congrArg List.length he
    rw [List.length_take, List.length_nil] at this
    omega
  · refine List.mem_map.2 ⟨_, List.mem_of_getElem? h.other, ?_⟩
    simp only [readBlock, hs1.1]
    rw [if_neg hs1.2.2]
  · rw [List.length_take, hl1]; omega

theorem short_next {c : RsConfig} {cod : Code c.dataShards c.parityShards} (hk : 0 < c.dataShards) {i0 i1 L : Nat} {b : Bytes}
    {bs : List Bytes} (hw : WF c.blockSize (b :: bs)) {rs : List (Option Bytes)} (h : Short c cod i0 i1 L (b :: bs) rs)
    (hL : c.blockPerShard < L) : ErasureOf (rs.map (readBlock c.blockPerShard)) (encodeBlock cod b) ∧
      presentCount (rs.map (readBlock c.blockPerShard)) = presentCount rs ∧
      Short c cod i0 i1 (L - c.blockPerShard) bs (rs.map (Option.map (List.drop c.blockPerShard))) := by
  obtain ⟨hi0, hi1⟩ := short_lt h
  have hlen := encodeBlock_length hk cod b
  have hs := fun i (hi : i < c.allShards) => shard_take hk cod (bps := c.blockPerShard) hi hw
  have hpiece : ∀ (i : Nat) (x : Bytes), rs[i]? = some (some x) → x.take c.blockPerShard = (encodeBlock cod b).getD i [] := by
    intro i x hx
    by_cases hi : i = i0
    · subst hi
      rw [h.short] at hx
      cases hx
      rw [List.take_take, Nat.min_eq_left (by omega)]
      exact (hs i hi0).1
    · rw [h.others i x hi hx]
      exact (hs i (by rw [← h.len]; exact lt_of_get hx)).1
  refine ⟨⟨by simp [h.len, hlen, RsConfig.allShards], fun i y hy => ?_⟩, ?_, ?_⟩
  · simp only [List.getElem?_map, Option.map_eq_some_iff] at hy
    obtain ⟨r, h1, h2⟩ := hy
    cases r with
    | none => simp [readBlock] at h2
    | some x =>
      have hi : i < c.allShards := by rw [← h.len]; exact lt_of_get h1
      simp only [readBlock] at h2
      split at h2
      · cases h2
      · cases h2
        rw [hpiece i x h1, List.getD_eq_getElem?_getD, List.getElem?_eq_getElem (by rw [hlen]; exact hi)]
        rfl
  · unfold presentCount
    rw [List.countP_map]
    apply List.countP_congr
    intro r hr
    obtain ⟨i, hi, rfl⟩ := List.getElem_of_mem hr
    cases hri : rs[i] with
    | none => simp [readBlock]
    | some y =>
      have hy := hpiece i y (by rw [List.getElem?_eq_getElem hi, hri])
      have hne := (hs i (by rw [← h.len]; exact hi)).2.2
      have : y.take c.blockPerShard ≠ [] := by rw [hy]; exact hne
      simp [readBlock, this]
  · refine ⟨by simp [h.len], fun i x hi hx => ?_, ?_, ?_, h.ne, ?_⟩
    · simp only [List.getElem?_map, Option.map_eq_some_iff] at hx
      obtain ⟨r, h1, h2⟩ := hx
      obtain ⟨y, rfl, rfl⟩ := h2
      rw [h.others i y hi h1]
      exact (hs i (by rw [← h.len]; exact lt_of_get h1)).2.1
    · simp only [List.getElem?_map, h.short, Option.map_some, ← (hs i0 hi0).2.1]
      rw [List.drop_take]
    · simp only [List.getElem?_map, h.other, Option.map_some, (hs i1 hi1).2.1]
    · have := h.lt
      rw [← (hs i0 hi0).2.1, List.length_drop]
      omega

theorem short_reads {c : RsConfig} {cod : Code c.dataShards c.parityShards} (hk : 0 < c.dataShards) {i0 i1 : Nat}
    (sizes : List Nat) : ∀ (data done : Bytes) (bs : List Bytes) (d : Dec) (L j : Nat), WF c.blockSize bs →
    data = done ++ (d.cache ++ bs.flatten) → d.total = done.length + d.cache.length → Short c cod i0 i1 L bs d.readers →
    c.dataShards ≤ presentCount d.readers → j * c.blockPerShard < L → L < (j + 1) * c.blockPerShard →
    (∀ a ∈ (Dec.reads c cod data.length (sizes.map fun n => (n, fun _ => false)) d).1, ∀ e, a ≠ .error (.rs e)) →
    received (Dec.reads c cod data.length (sizes.map fun n => (n, fun _ => false)) d).1 <+: d.cache ++ bs.flatten.take (j * c.blockSize) := by
  induction sizes with
  | nil => intros; exact List.nil_prefix
  | cons n sizes ih =>
    intro data done bs d L j hw hd ht hsh hp hj hj2 hok
    by_cases hc : d.cache = []
    · cases bs with
      | nil => have := hsh.lt; simp [strm] at this
      | cons b rest =>
        have hb0 := hw.1
        have hl := congrArg List.length hd
        simp only [hc, List.length_append, List.length_nil, List.nil_append, List.flatten_cons] at hl ht
        cases j with
        | zero =>
          exfalso
          obtain ⟨e, he⟩ := short_end hk hw hsh (by omega) (by omega)
          refine hok (.error (.rs e)) ?_ e rfl
          have h1 : ¬ d.total = data.length := by omega
          have h2 : ¬ data.length < d.total := by omega
          simp only [List.map_cons, Dec.reads, Dec.read, hc, ↓reduceIte, Dec.getData, h1, h2, kill_none, he, List.mem_cons, true_or]
        | succ j =>
          have hbps : c.blockPerShard < L := by
            have : (j + 1) * c.blockPerShard = j * c.blockPerShard + c.blockPerShard := Nat.succ_mul ..
            omega
          obtain ⟨h1, h2, h3⟩ := short_next hk hw hsh hbps
          have hg := getDataW_ok hk (codeReading c) hw hd (by rw [ht, hc]; rfl) hc (fun _ => false)
            (by rw [kill_none]; exact h1) (by rw [kill_none]; change _ ≤ presentCount (d.readers.map (readBlock _)); rw [h2]; exact hp)
          rw [code_getData, kill_none] at hg
          have hlen : b.length ≤ c.blockSize := hw.2.1
          have hr : d.read c cod data.length n (fun _ => false) = (.ok (b.take n),
              ⟨d.readers.map (Option.map (List.drop c.blockPerShard)), b.drop n, d.total + b.length,
                d.repair.mapIdx fun i w => w.map (· ++ (encodeBlock cod b).getD i [])⟩) := by
            unfold Dec.read
            rw [if_pos hc, hg]
          have hrest : rest ≠ [] := by
            rintro rfl
            have := h3.lt
            simp [strm] at this
          have hfull := hw.2.2.1 hrest
          simp only [List.map_cons, Dec.reads, hr, received, List.mem_cons, forall_eq_or_imp] at hok ⊢
          have := ih data (done ++ b.take n) rest _ (L - c.blockPerShard) j hw.2.2.2
            (by simp only [hd, hc, List.append_assoc, List.flatten_cons, List.nil_append]
                rw [← List.append_assoc (List.take n b), List.take_append_drop])
            (by simp only [ht, List.length_append, List.length_take, List.length_drop]; omega) h3
            (by rw [present_map_drop]; exact hp)
            (by have : (j + 1) * c.blockPerShard = j * c.blockPerShard + c.blockPerShard := Nat.succ_mul ..
                omega)
            (by have : (j + 1 + 1) * c.blockPerShard = (j + 1) * c.blockPerShard + c.blockPerShard := Nat.succ_mul ..
                omega) hok.2
          obtain ⟨t, ht⟩ := this
          refine ⟨t, ?_⟩
          have hm : (j + 1) * c.blockSize = b.length + j * c.blockSize := by rw [Nat.succ_mul, hfull]; omega
          rw [List.append_assoc, ht, hc, hm, List.nil_append, List.flatten_cons, List.take_length_add_append, ← List.append_assoc,
            List.take_append_drop]
    · have hr : d.read c cod data.length n (fun _ => false) = (.ok (d.cache.take n), { d with cache := d.cache.drop n }) := by
        unfold Dec.read
        rw [if_neg hc]
      simp only [List.map_cons, Dec.reads, hr, received, List.mem_cons, forall_eq_or_imp] at hok ⊢
      have := ih data (done ++ d.cache.take n) bs { d with cache := d.cache.drop n } L j hw
        (by rw [hd, List.append_assoc, ← List.append_assoc (List.take n d.cache), List.take_append_drop])
        (by simp only [ht, List.length_append, List.length_take, List.length_drop]; omega) hsh hp hj hj2 hok.2
      obtain ⟨t, ht⟩ := this
      refine ⟨t, ?_⟩
      rw [List.append_assoc, ht]
      dsimp only
      rw [← List.append_assoc, List.take_append_drop]

/-- **C136** One file that ends within a block is enough: for every code, however many parity shards there are, with all other files
whole and all servers answering, nothing behind the blocks that the file holds whole is delivered before reading fails. -/
theorem C136_short_fails (c : RsConfig) (cod : Code c.dataShards c.parityShards) (hk : 0 < c.dataShards) (hb : 0 < c.blockPerShard)
    (hm : 0 < c.parityShards) (pieces files : List Bytes) (hf : upload c cod pieces = some files) (i : Nat) (f : Bytes)
    (hi : files[i]? = some f) (j L : Nat) (hL : L < f.length) (h1 : j * c.blockPerShard < L) (h2 : L < (j + 1) * c.blockPerShard)
    (sizes : List Nat) :
    let answers := (Dec.reads c cod pieces.flatten.length (sizes.map fun n => (n, fun _ => false))
      (.init ((files.map some).set i (some (f.take L))))).1
    (∀ a ∈ answers, ∀ e, a ≠ .error (.rs e)) → received answers <+: pieces.flatten.take (j * c.blockSize) := by
  intro answers hok
  obtain ⟨blocks, hw, hbl, h3⟩ := upload_blocks c cod hk hb pieces
  rw [h3] at hf
  cases hf
  obtain ⟨hil, hif⟩ := encOut_get cod blocks i f hi
  have hlen : (encOut cod blocks).length = c.allShards := by simp [encOut, RsConfig.allShards]
  have hget : ∀ x, x < c.allShards → (encOut cod blocks)[x]? = some (strm cod x blocks) := by
    intro x hx
    simp only [encOut, List.getElem?_map]
    rw [List.getElem?_range (show x < c.dataShards + c.parityShards from hx)]
    rfl
  have hall : 1 < c.allShards := by unfold RsConfig.allShards; omega
  have hother : ∃ i1, i1 < c.allShards ∧ i1 ≠ i := by
    by_cases h : i = 0
    · exact ⟨1, hall, by omega⟩
    · exact ⟨0, by omega, by omega⟩
  obtain ⟨i1, hi1, hne⟩ := hother
  have hsh : Short c cod i i1 L blocks (((encOut cod blocks).map some).set i (some (f.take L))) := by
    refine ⟨by simp [hlen], fun x y hx hy => ?_, ?_, ?_, hne, by rw [← hif]; exact hL⟩
    · rw [List.getElem?_set_ne (by omega)] at hy
      simp only [List.getElem?_map, Option.map_eq_some_iff, Option.some.injEq] at hy
      obtain ⟨z, hz, rfl⟩ := hy
      exact (encOut_get cod blocks x z hz).2
    · rw [List.getElem?_set_self (by rw [List.length_map, hlen]; exact hil), hif]
    · rw [List.getElem?_set_ne (by omega)]
      simp [hget i1 hi1]
  have hpc : presentCount (((encOut cod blocks).map some).set i (some (f.take L))) = c.allShards := by
    unfold presentCount
    rw [List.countP_eq_length.2]
    · simp [hlen]
    · intro a ha
      rcases List.mem_or_eq_of_mem_set ha with h | rfl
      · obtain ⟨z, _, rfl⟩ := List.mem_map.1 h; rfl
      · rfl
  have := short_reads hk sizes blocks.flatten [] blocks
    (.init (((encOut cod blocks).map some).set i (some (f.take L)))) L j hw (by simp [Dec.init]) (by simp [Dec.init]) hsh
    (by change _ ≤ presentCount (((encOut cod blocks).map some).set i (some (f.take L))); rw [hpc]; exact Nat.le_add_right ..) h1 h2
  rw [hbl] at this
  exact this hok

/-! ## The files after a loss of power -/

open Power in
/-- What can be read of a shard, now or after a loss of power, is a beginning of its content. -/
structure Begin (content : Str → Bytes) (s : Power.St UInt8) : Prop where
  live : ∀ n i, s.live (.obj n) = some i → (s.ino i).data <+: content n
  disk : ∀ n i, s.disk (.obj n) = some i → (s.ino i).data <+: content n
  sub : ∀ i, (s.ino i).disk <+: (s.ino i).data
  apart : ∀ x ∈ s.infos, ∀ i, s.live (.tmp x.1) = some i → ∀ n, s.live (.obj n) ≠ some i ∧ s.disk (.obj n) ≠ some i
  tmps : ∀ x ∈ s.infos, ∀ y ∈ s.infos, ∀ i, s.live (.tmp x.1) = some i → s.live (.tmp y.1) = some i → x.1 = y.1
  ws : s.writers = []

theorem begin_init (content : Str → Bytes) : Begin content {} := by
  constructor <;> intros <;> simp_all

theorem prefix_trans' {a b c : Bytes} (h : a <+: b) (h' : b <+: c) : a <+: c := h.trans h'

theorem begin_step {content : Str → Bytes} {s : Power.St UInt8} (hw : Power.Wf s) (h : Begin content s) (e : Power.Ev UInt8)
    (hv : Power.ViaTemp e) (hc : ∀ n c, (n, c) ∈ (Power.step false s e).acked → c = content n) :
    Begin content (Power.step false s e) := by
  obtain ⟨w1, w2, w3, w4, w5, w6⟩ := hw
  obtain ⟨h1, h2, h3, h4, h5, h6⟩ := h
  cases e with
  | post n =>
    unfold Power.step
    dsimp only
    refine ⟨h1, h2, h3, ?_, ?_, h6⟩
    · intro x hx i hi n
      rcases List.mem_append.1 hx with hx | hx
      · exact h4 x hx i hi n
      · simp at hx; subst hx
        rw [w4 _ (Nat.le_refl _)] at hi; cases hi
    · intro x hx y hy i hi hj
      rcases List.mem_append.1 hx with hx | hx
      · rcases List.mem_append.1 hy with hy | hy
        · exact h5 x hx y hy i hi hj
        · simp at hy; subst hy
          rw [w4 _ (Nat.le_refl _)] at hj; cases hj
      · simp at hx; subst hx
        rw [w4 _ (Nat.le_refl _)] at hi; cases hi
  | patch id chunk =>
    unfold Power.step
    dsimp only
    split
    · rename_i ha
      obtain ⟨x, hx, hx'⟩ := List.any_eq_true.1 ha
      have hx2 : x.1 = id := by simpa using hx'
      split
      · rename_i i hi
        have hap := h4 x hx i (by rw [hx2]; exact hi)
        refine ⟨?_, ?_, ?_, h4, h5, h6⟩ <;> simp only [Power.append, Power.upd]
        · intro n j hj
          have := (hap n).1
          rw [if_neg (by rintro rfl; exact this hj)]
          exact h1 n j hj
        · intro n j hj
          have := (hap n).2
          rw [if_neg (by rintro rfl; exact this hj)]
          exact h2 n j hj
        · intro j
          split
          · rename_i he; subst he; exact (h3 j).trans (List.prefix_append ..)
          · exact h3 j
      · rename_i hi
        refine ⟨?_, ?_, ?_, ?_, ?_, h6⟩ <;> simp only [Power.append, Power.create, Power.upd]
        · intro n j hj
          simp only [reduceCtorEq, ↓reduceIte] at hj
          have := w1 _ _ hj
          rw [if_neg (by omega), if_neg (by omega)]
          exact h1 n j hj
        · intro n j hj
          have := w2 _ _ hj
          rw [if_neg (by omega), if_neg (by omega)]
          exact h2 n j hj
        · intro j
          split
          · simp
          · exact h3 j
        · intro y hy i hyi n
          simp only [reduceCtorEq, ↓reduceIte]
          split at hyi
          · cases hyi
            refine ⟨fun hh => ?_, fun hh => ?_⟩
            · have := w1 _ _ hh; omega
            · have := w2 _ _ hh; omega
          · exact h4 y hy i hyi n
        · intro y hy z hz i hyi hzi
          split at hyi <;> split at hzi
          · rename_i e1 e2; simp at e1 e2; omega
          · cases hyi; have := w1 _ _ hzi; omega
          · cases hzi; have := w1 _ _ hyi; omega
          · exact h5 y hy z hz i hyi hzi
    · exact ⟨h1, h2, h3, h4, h5, h6⟩
  | commit id =>
    revert hc
    unfold Power.step
    dsimp only
    split
    · intro _; exact ⟨h1, h2, h3, h4, h5, h6⟩
    · rename_i x n hf
      have hx := List.mem_of_find?_eq_some hf
      have hx2 : x = id := by simpa using List.find?_some hf
      have hfil : ∀ y ∈ s.infos.filter (·.1 != id), y ∈ s.infos ∧ y.1 ≠ id := by
        intro y hy; simpa using List.mem_filter.1 hy
      split
      · intro _; exact ⟨h1, h2, h3, fun y hy => h4 y (hfil y hy).1, fun y hy z hz => h5 y (hfil y hy).1 z (hfil z hz).1, h6⟩
      · intro _; exact ⟨h1, h2, h3, fun y hy => h4 y (hfil y hy).1, fun y hy z hz => h5 y (hfil y hy).1 z (hfil z hz).1, h6⟩
      · intro _; exact ⟨h1, h2, h3, h4, h5, h6⟩
      · rename_i i ho ht
        intro hc
        have hci := hc n (s.ino i).data (by simp)
        simp only [Power.rename, Bool.false_eq_true, ↓reduceIte]
        refine ⟨?_, h2, h3, ?_, ?_, h6⟩ <;> simp only [Power.upd]
        · intro m j hj
          rw [if_neg (by simp)] at hj
          split at hj
          · rename_i he
            cases he
            rw [ht] at hj
            cases hj
            rw [hci]
            exact List.prefix_refl _
          · exact h1 m j hj
        · intro y hy j hyj m
          obtain ⟨hy1, hy2⟩ := hfil y hy
          rw [if_neg (by simpa using hy2), if_neg (by simp)] at hyj
          have hap := h4 y hy1 j hyj
          refine ⟨?_, (hap m).2⟩
          rw [if_neg (by simp)]
          split
          · rw [ht]
            intro he
            have hji := Option.some.inj he
            exact hy2 (h5 y hy1 _ hx j hyj (by rw [hx2, ← hji]; exact ht) |>.trans hx2)
          · exact (hap m).1
        · intro y hy z hz j hyj hzj
          obtain ⟨hy1, hy2⟩ := hfil y hy
          obtain ⟨hz1, hz2⟩ := hfil z hz
          rw [if_neg (by simpa using hy2), if_neg (by simp)] at hyj
          rw [if_neg (by simpa using hz2), if_neg (by simp)] at hzj
          exact h5 y hy1 z hz1 j hyj hzj
  | putStart n c => exact absurd hv id
  | putWrite j k => unfold Power.step; dsimp only; rw [h6]; exact ⟨h1, h2, h3, h4, h5, h6⟩
  | putEnd j => unfold Power.step; dsimp only; rw [h6]; exact ⟨h1, h2, h3, h4, h5, h6⟩
  | offer n c =>
    unfold Power.step
    dsimp only
    split <;> exact ⟨h1, h2, h3, h4, h5, h6⟩
  | del n =>
    unfold Power.step
    refine ⟨?_, h2, h3, ?_, ?_, h6⟩ <;> simp only [Power.upd]
    · intro m i hi
      split at hi
      · cases hi
      · exact h1 m i hi
    · intro x hx i hi m
      rw [if_neg (by simp)] at hi
      have := h4 x hx i hi m
      refine ⟨?_, this.2⟩
      split
      · simp
      · exact this.1
    · intro x hx y hy i hi hj
      rw [if_neg (by simp)] at hi hj
      exact h5 x hx y hy i hi hj
  | kill => exact ⟨h1, h2, h3, by simp [Power.step], by simp [Power.step], rfl⟩
  | kdata i k =>
    unfold Power.step
    have hd : ∀ j, (Power.upd s.ino i ((s.ino i).back k) j).data = (s.ino j).data := by
      intro j
      simp only [Power.upd, Power.Ino.back]
      split
      · rename_i he; subst he; rfl
      · rfl
    refine ⟨fun n j hj => by rw [hd]; exact h1 n j hj, fun n j hj => by rw [hd]; exact h2 n j hj, fun j => ?_, h4, h5, h6⟩
    simp only [Power.upd, Power.Ino.back]
    split
    · exact List.take_prefix ..
    · exact h3 j
  | kentry m =>
    unfold Power.step
    refine ⟨h1, ?_, h3, ?_, h5, h6⟩ <;> simp only [Power.upd]
    · intro n i hi
      split at hi
      · rename_i he; rw [← he] at hi; exact h1 n i hi
      · exact h2 n i hi
    · intro x hx i hi n
      have := h4 x hx i hi n
      refine ⟨this.1, ?_⟩
      split
      · rename_i he; rw [← he]; exact this.1
      · exact this.2
  | kdir => exact ⟨h1, h1, h3, fun x hx i hi n => ⟨(h4 x hx i hi n).1, (h4 x hx i hi n).1⟩, h5, h6⟩
  | kall => exact ⟨h1, h1, fun i => List.prefix_refl _, fun x hx i hi n => ⟨(h4 x hx i hi n).1, (h4 x hx i hi n).1⟩, h5, h6⟩
  | power =>
    exact ⟨fun n i hi => (h3 i).trans (h2 n i hi), fun n i hi => (h3 i).trans (h2 n i hi), fun i => List.prefix_refl _,
      by simp [Power.step], by simp [Power.step], rfl⟩

theorem begin_run {content : Str → Bytes} (es : List (Power.Ev UInt8)) : ∀ {s : Power.St UInt8}, Power.Wf s → Begin content s →
    (∀ e ∈ es, Power.ViaTemp e) → Power.Honest false content s es → Begin content (Power.run false s es) := by
  induction es with
  | nil => intro s _ h _ _; exact h
  | cons e es ih =>
    intro s hw h hv ho
    exact ih (Power.wf_step false hw e) (begin_step hw h e (hv e (by simp)) ho.head) (fun x hx => hv x (by simp [hx])) ho.tail

/-- **C136** Whatever the kernels of the data servers write back when, and whenever they lose power, each of them has the shard, a
beginning of it, or nothing. -/
theorem C136_cut (files : List Bytes) (es : List (Str × List (Power.Ev UInt8))) (content : Nat → Str → Bytes)
    (hlen : es.length = files.length) (hv : ∀ x ∈ es, ∀ e ∈ x.2, Power.ViaTemp e)
    (ho : ∀ (i : Nat) (x : Str × List (Power.Ev UInt8)), es[i]? = some x → Power.Honest false (content i) {} x.2 ∧
      files[i]? = some (content i x.1)) : Cut files (after false es) := by
  refine ⟨by simp [after, hlen], fun i y hy => ?_⟩
  simp only [after, List.getElem?_map, Option.map_eq_some_iff] at hy
  obtain ⟨x, hx, hr⟩ := hy
  obtain ⟨h1, h2⟩ := ho i x hx
  refine ⟨_, h2, ?_⟩
  unfold Power.read at hr
  obtain ⟨j, hj, rfl⟩ := Option.map_eq_some_iff.1 hr
  exact (begin_run x.2 Power.wf_init (begin_init _) (hv x (List.mem_of_getElem? hx)) h1).live _ _ hj

/-- **C136, partial** If the kernels write everything back in order, so that no file is cut (C132), the decoder of the code reads the
object from any `dataShards` servers that have kept their shards.  Missing: kernels that do not. -/
theorem C136_in_order_partial (c : RsConfig) (cod : Code c.dataShards c.parityShards) (hk : 0 < c.dataShards) (hb : 0 < c.blockPerShard)
    (pieces files : List Bytes) (hf : upload c cod pieces = some files) (es : List (Str × List (Power.Ev UInt8)))
    (content : Nat → Str → Bytes) (hlen : es.length = files.length)
    (hv : ∀ x ∈ es, ∀ e ∈ x.2, Power.ViaTemp e ∧ Power.InOrder e)
    (ho : ∀ (i : Nat) (x : Str × List (Power.Ev UInt8)), es[i]? = some x → Power.Honest false (content i) {} x.2 ∧
      files[i]? = some (content i x.1))
    (all : Nat → Bool) (reqs : List (Nat × (Nat → Bool))) (hd : ∀ q ∈ reqs, ∀ i, q.2 i = true → all i = true) :
    Good pieces.flatten (c.dataShards ≤ wholeCount all files (after false es)) reqs
      (Dec.reads c cod pieces.flatten.length reqs (.init (after false es))).1 := by
  refine C136_blocks_partial c cod hk hb pieces files hf _
    (C136_cut files es content hlen (fun x hx e he => (hv x hx e he).1) ho) ?_ all reqs hd
  intro i y hy
  simp only [after, List.getElem?_map, Option.map_eq_some_iff] at hy
  obtain ⟨x, hx, hr⟩ := hy
  obtain ⟨h1, h2⟩ := ho i x hx
  rw [Power.C132_in_order_partial (content i) x.2 (hv x (List.mem_of_getElem? hx)) h1 x.1 y hr]
  exact .inl h2

/-- **C136** With the strict reading, whatever the kernels do. -/
theorem C136_power_repair (c : RsConfig) (cod : Code c.dataShards c.parityShards) (hk : 0 < c.dataShards) (hb : 0 < c.blockPerShard)
    (pieces files : List Bytes) (hf : upload c cod pieces = some files) (es : List (Str × List (Power.Ev UInt8)))
    (content : Nat → Str → Bytes) (hlen : es.length = files.length) (hv : ∀ x ∈ es, ∀ e ∈ x.2, Power.ViaTemp e)
    (ho : ∀ (i : Nat) (x : Str × List (Power.Ev UInt8)), es[i]? = some x → Power.Honest false (content i) {} x.2 ∧
      files[i]? = some (content i x.1))
    (all : Nat → Bool) (reqs : List (Nat × (Nat → Bool))) (hd : ∀ q ∈ reqs, ∀ i, q.2 i = true → all i = true) :
    Good pieces.flatten (c.dataShards ≤ wholeCount all files (after false es)) reqs
      (readsW (strictReading c pieces.flatten.length) c cod pieces.flatten.length reqs (.init (after false es))).1 :=
  C136_repair c cod hk hb pieces files hf _ (C136_cut files es content hlen hv ho) all reqs hd

/-! ## What the code does -/

/-- The upload of one shard to one server, written back up to `k` bytes when the power is lost. -/
def lose (shard : Bytes) (k : Nat) : Str × List (Power.Ev UInt8) :=
  ("h".toList, [.post "h".toList, .patch 0 shard, .commit 0, .kdata 0 k, .kdir, .power])

def cfg : RsConfig := ⟨2, 1, 4⟩
def object : Bytes := [1, 2, 3, 4, 5, 6, 7, 8, 9]
def shards : List Bytes := [[1, 2, 3, 4, 9], [5, 6, 7, 8, 0], [4, 4, 4, 12, 9]]

example : upload cfg xorCode [object] = some shards := by decide

/-- **C136** One server of three loses power and keeps half a block: nothing of the object is delivered, although the two other shards
are enough. -/
theorem C136_one_server :
    after false [lose [1, 2, 3, 4, 9] 2, lose [5, 6, 7, 8, 0] 9, lose [4, 4, 4, 12, 9] 9] =
      [some [1, 2], some [5, 6, 7, 8, 0], some [4, 4, 4, 12, 9]] ∧
    (Dec.reads cfg xorCode 9 [(9, fun _ => false)]
      (.init [some [1, 2], some [5, 6, 7, 8, 0], some [4, 4, 4, 12, 9]])).1 = [.error (.rs .shardSize)] := by
  constructor <;> rfl

/-- **C136** All servers lose power and keep the same half of a block, as a kernel does that writes back page by page: bytes are
delivered that the object does not begin with. -/
theorem C136_wrong_bytes :
    after false [lose [1, 2, 3, 4, 9] 2, lose [5, 6, 7, 8, 0] 2, lose [4, 4, 4, 12, 9] 2] = [some [1, 2], some [5, 6], some [4, 4]] ∧
    (Dec.reads cfg xorCode 9 [(9, fun _ => false)] (.init [some [1, 2], some [5, 6], some [4, 4]])).1 = [.ok [1, 2, 5, 6]] := by
  constructor <;> rfl

theorem cut_sample : Cut shards [some [1, 2], some [5, 6, 7, 8, 0], some [4, 4, 4, 12, 9]] := by
  refine ⟨rfl, fun i x hx => ?_⟩
  match i with
  | 0 => cases hx; exact ⟨_, rfl, ⟨[3, 4, 9], rfl⟩⟩
  | 1 => cases hx; exact ⟨_, rfl, List.prefix_refl _⟩
  | 2 => cases hx; exact ⟨_, rfl, List.prefix_refl _⟩
  | i + 3 => simp at hx

theorem C136_statement_fails : ¬ Statement := by
  intro h
  have := (h cfg xorCode (by decide) (by decide) [object] shards (by decide) _ cut_sample (fun _ => false) [(9, fun _ => false)]
    (by simp)).2 (by decide)
  have h1 := this.1 (.error (.rs .shardSize)) (by rw [show ([object] : List Bytes).flatten.length = 9 from rfl, C136_one_server.2]; simp)
  rcases h1 with h1 | ⟨b, h1⟩ <;> cases h1

/-! ## Non-vacuity -/

/-- With the strict reading the object is read from the two whole shards. -/
example : (readsW (strictReading cfg 9) cfg xorCode 9 [(9, fun _ => false), (9, fun _ => false), (9, fun _ => false)]
    (.init [some [1, 2], some [5, 6, 7, 8, 0], some [4, 4, 4, 12, 9]])).1 = [.ok [1, 2, 3, 4, 5, 6, 7, 8], .ok [9], .error .eof] := by rfl

/-- The hypotheses of `C136_repair` hold for the sample, and enough shards are whole. -/
example : received (readsW (strictReading cfg 9) cfg xorCode 9 (List.replicate 10 (1, fun _ => false))
    (.init [some [1, 2], some [5, 6, 7, 8, 0], some [4, 4, 4, 12, 9]])).1 = object := by
  have := (C136_repair cfg xorCode (by decide) (by decide) [object] shards (by decide) _ cut_sample (fun _ => false)
    (List.replicate 10 (1, fun _ => false)) (by intro q hq; rw [List.eq_of_mem_replicate hq]; simp)).2 (by decide)
  exact this.2.1 (this.2.2 (by intro q hq; rw [List.eq_of_mem_replicate hq]; decide) (by decide))

/-- A file that ends at the end of its first block: the code reads the object (`C136_blocks_partial`). -/
example : (Dec.reads cfg xorCode 9 [(9, fun _ => false), (9, fun _ => false), (9, fun _ => false)]
    (.init [some [1, 2, 3, 4], some [5, 6, 7, 8, 0], some [4, 4, 4, 12, 9]])).1 =
      [.ok [1, 2, 3, 4, 5, 6, 7, 8], .ok [9], .error .eof] := by rfl

/-- The hypotheses of `C136_short_fails`: the second shard ends within its second block of blocks of two. -/
example : ∀ sizes : List Nat, (∀ a ∈ (Dec.reads ⟨2, 1, 2⟩ xorCode 9 (sizes.map fun n => (n, fun _ => false))
      (.init [some [1, 2, 5, 6, 9], some [3, 4, 7], some [2, 6, 2, 14, 9]])).1, ∀ e, a ≠ .error (.rs e)) →
    received (Dec.reads ⟨2, 1, 2⟩ xorCode 9 (sizes.map fun n => (n, fun _ => false))
      (.init [some [1, 2, 5, 6, 9], some [3, 4, 7], some [2, 6, 2, 14, 9]])).1 <+: [1, 2, 3, 4] := fun sizes =>
  C136_short_fails ⟨2, 1, 2⟩ xorCode (by decide) (by decide) (by decide) [object]
    [[1, 2, 5, 6, 9], [3, 4, 7, 8, 0], [2, 6, 2, 14, 9]] (by decide) 1 [3, 4, 7, 8, 0] rfl 1 3 (by decide) (by decide) (by decide) sizes

/-- and the first block is delivered before reading fails. -/
example : (Dec.reads ⟨2, 1, 2⟩ xorCode 9 [(9, fun _ => false), (9, fun _ => false)]
      (.init [some [1, 2, 5, 6, 9], some [3, 4, 7], some [2, 6, 2, 14, 9]])).1 = [.ok [1, 2, 3, 4], .error (.rs .shardSize)] := by rfl

theorem lose_honest (shard : Bytes) (k : Nat) : Power.Honest false (fun _ => shard) {} (lose shard k).2 := by
  intro es' hp n c hc
  obtain ⟨t, ht⟩ := hp
  have : es' = (lose shard k).2.take es'.length := by rw [← ht]; simp
  have hacked : ∀ m : Nat, ∀ x ∈ (Power.run false {} ((lose shard k).2.take m)).acked, x.2 = shard := by
    intro m
    match m with
    | 0 => intro x hx; cases hx
    | 1 => intro x hx; cases hx
    | 2 => intro x hx; cases hx
    | 3 => intro x hx; cases hx with | head => rfl | tail _ h => cases h
    | 4 => intro x hx; cases hx with | head => rfl | tail _ h => cases h
    | 5 => intro x hx; cases hx with | head => rfl | tail _ h => cases h
    | m + 6 =>
      rw [List.take_of_length_le (by simp [lose])]
      intro x hx; cases hx with | head => rfl | tail _ h => cases h
  rw [this] at hc
  exact hacked _ _ hc

/-- The hypotheses of `C136_cut` and `C136_power_repair` hold for three servers that lose power after what they have written back. -/
example (k0 k1 k2 : Nat) :
    received (readsW (strictReading cfg 9) cfg xorCode 9 [(9, fun _ => false)]
      (.init (after false [lose [1, 2, 3, 4, 9] k0, lose [5, 6, 7, 8, 0] k1, lose [4, 4, 4, 12, 9] k2]))).1 <+: object := by
  refine (C136_power_repair cfg xorCode (by decide) (by decide) [object] shards (by decide) _
    (fun i _ => shards.getD i []) rfl ?_ ?_ (fun _ => false) _ (by simp)).1
  · intro x hx e he
    simp only [List.mem_cons, List.not_mem_nil, or_false] at hx
    rcases hx with rfl | rfl | rfl <;> (simp only [lose, List.mem_cons, List.not_mem_nil, or_false] at he) <;>
      (rcases he with rfl | rfl | rfl | rfl | rfl | rfl <;> trivial)
  · intro i x hx
    match i with
    | 0 => cases hx; exact ⟨lose_honest _ _, rfl⟩
    | 1 => cases hx; exact ⟨lose_honest _ _, rfl⟩
    | 2 => cases hx; exact ⟨lose_honest _ _, rfl⟩
    | i + 3 => simp at hx

end Verif.Object.PowerCode
