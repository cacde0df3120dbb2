import Verif.Object.RSLemmas

/-!
# Erasure coded streams: C33, C34, C35, C36

Every theorem holds for every code that meets the contract of the library, every configuration with at
least one data shard and a non-zero block size, every division of the upload into pieces, every
sequence of read buffer sizes and every set of unavailable servers.
-/

namespace Verif.Object

/-! ## Steps of the reader -/

theorem read_cached {c : RsConfig} {cod : Code c.dataShards c.parityShards} {data done : Bytes}
    {bs : List Bytes} {d : Dec} (h : DecInv c cod data done bs d) (hc : d.cache ≠ []) (size n : Nat)
    (dead : Nat → Bool) :
    (d.read c cod size n dead).1 = .ok (d.cache.take n) ∧
    DecInv c cod data (done ++ d.cache.take n) bs (d.read c cod size n dead).2 ∧
    (d.read c cod size n dead).2.readers = d.readers := by
  unfold Dec.read
  rw [if_neg hc]
  refine ⟨rfl, ⟨h.wf, ?_, ?_, h.readers⟩, rfl⟩
  · simp only [h.data_eq, List.append_assoc]
    rw [← List.append_assoc (List.take n d.cache), List.take_append_drop]
  · simp only [h.total_eq, List.length_append, List.length_take, List.length_drop]
    omega

theorem read_eof {c : RsConfig} {cod : Code c.dataShards c.parityShards} {data done : Bytes}
    {d : Dec} (h : DecInv c cod data done [] d) (hc : d.cache = []) (n : Nat) (dead : Nat → Bool) :
    d.read c cod data.length n dead = (.error .eof, d) ∧ done = data := by
  have hd : done = data := by have := h.data_eq; simp [hc] at this; exact this.symm
  have ht : d.total = data.length := by rw [h.total_eq, hd, hc]; simp
  exact ⟨by simp [Dec.read, hc, Dec.getData, ht], hd⟩

theorem read_block {c : RsConfig} {cod : Code c.dataShards c.parityShards} (hk : 0 < c.dataShards)
    {data done : Bytes} {b : Bytes} {rest : List Bytes} {d : Dec}
    (h : DecInv c cod data done (b :: rest) d) (hc : d.cache = []) (n : Nat) (dead : Nat → Bool)
    (hp : c.dataShards ≤ presentCount (killReaders dead d.readers)) :
    (d.read c cod data.length n dead).1 = .ok (b.take n) ∧
    DecInv c cod data (done ++ b.take n) rest (d.read c cod data.length n dead).2 ∧
    (d.read c cod data.length n dead).2.readers =
      (killReaders dead d.readers).map (Option.map (List.drop c.blockPerShard)) := by
  unfold Dec.read
  rw [if_pos hc, getData_ok hk h hc dead hp]
  refine ⟨rfl, ⟨h.wf.2.2.2, ?_, ?_, advance_readers hk cod h.wf (kill_readers cod dead h.readers)⟩, rfl⟩
  · simp only [h.data_eq, hc, List.append_assoc, List.flatten_cons, List.nil_append]
    rw [← List.append_assoc (List.take n b), List.take_append_drop]
  · simp only [h.total_eq, hc, List.length_append, List.length_take, List.length_drop, List.length_nil]
    omega

/-- Too few readers are left. -/
structure Broken (c : RsConfig) (size : Nat) (d : Dec) : Prop where
  few : presentCount d.readers < c.dataShards
  cache : d.cache = []
  total : d.total < size

theorem present_kill_le (dead : Nat → Bool) (rs : List (Option Bytes)) :
    presentCount (killReaders dead rs) ≤ presentCount rs := by
  unfold presentCount killReaders
  induction rs generalizing dead with
  | nil => simp
  | cons r rs ih =>
    rw [List.mapIdx_cons, List.countP_cons, List.countP_cons]
    have := ih (fun i => dead (i + 1))
    by_cases hd : dead 0 = true <;> cases r <;> simp [hd] <;> omega

theorem present_map_drop (n : Nat) (rs : List (Option Bytes)) :
    presentCount (rs.map (Option.map (List.drop n))) = presentCount rs := by
  unfold presentCount
  rw [List.countP_map]
  apply List.countP_congr
  intro r _
  cases r <;> simp

theorem present_map_readBlock (n : Nat) (rs : List (Option Bytes)) :
    presentCount (rs.map (readBlock n)) ≤ presentCount rs := by
  unfold presentCount
  rw [List.countP_map]
  apply List.countP_mono_left
  intro r _ h
  cases r with
  | none => simp [readBlock] at h
  | some _ => rfl

theorem read_few {c : RsConfig} {cod : Code c.dataShards c.parityShards} {size : Nat} {d : Dec}
    (hc : d.cache = []) (ht : d.total < size) (n : Nat) (dead : Nat → Bool)
    (hp : presentCount (killReaders dead d.readers) < c.dataShards) :
    (∃ e, (d.read c cod size n dead).1 = .error (.rs e)) ∧
    Broken c size (d.read c cod size n dead).2 := by
  have hs := present_map_readBlock c.blockPerShard (killReaders dead d.readers)
  obtain ⟨e, he⟩ := cod.recon_few _ (Nat.lt_of_le_of_lt hs hp)
  have h1 : ¬ d.total = size := by omega
  have h2 : ¬ size < d.total := by omega
  unfold Dec.read
  simp only [hc, ↓reduceIte, Dec.getData, h1, h2, he]
  exact ⟨⟨e, rfl⟩, by simpa [present_map_drop] using hp, rfl, ht⟩

theorem broken_read {c : RsConfig} {cod : Code c.dataShards c.parityShards} {size : Nat} {d : Dec}
    (h : Broken c size d) (n : Nat) (dead : Nat → Bool) :
    (∃ e, (d.read c cod size n dead).1 = .error (.rs e)) ∧
    Broken c size (d.read c cod size n dead).2 :=
  read_few h.cache h.total n dead (Nat.lt_of_le_of_lt (present_kill_le ..) h.few)

/-- Whatever happens, a read extends the delivered bytes to a longer prefix. -/
theorem read_any {c : RsConfig} {cod : Code c.dataShards c.parityShards} (hk : 0 < c.dataShards)
    {data done : Bytes} {bs : List Bytes} {d : Dec} (h : DecInv c cod data done bs d) (n : Nat)
    (dead : Nat → Bool) :
    (∃ b bs', (d.read c cod data.length n dead).1 = .ok b ∧
      DecInv c cod data (done ++ b) bs' (d.read c cod data.length n dead).2) ∨
    (done = data ∧ d.read c cod data.length n dead = (.error .eof, d)) ∨
    ((∃ e, (d.read c cod data.length n dead).1 = .error (.rs e)) ∧
      Broken c data.length (d.read c cod data.length n dead).2) := by
  by_cases hc : d.cache = []
  · cases bs with
    | nil => exact .inr (.inl ⟨(read_eof h hc n dead).2, (read_eof h hc n dead).1⟩)
    | cons b rest =>
      by_cases hp : c.dataShards ≤ presentCount (killReaders dead d.readers)
      · have := read_block hk h hc n dead hp
        exact .inl ⟨_, _, this.1, this.2.1⟩
      · have hb : 0 < b.length := h.wf.1
        have ht : d.total < data.length := by
          rw [h.total_eq, h.data_eq, hc]; simp; omega
        exact .inr (.inr (read_few hc ht n dead (by omega)))
  · have := read_cached h hc data.length n dead
    exact .inl ⟨_, _, this.1, this.2.1⟩

theorem decInv_init {c : RsConfig} {cod : Code c.dataShards c.parityShards}
    {blocks : List Bytes} (hw : WF c.blockSize blocks) {rs : List (Option Bytes)}
    (hr : ErasureOf rs (encOut cod blocks)) :
    DecInv c cod blocks.flatten [] blocks (.init rs) := by
  refine ⟨hw, by simp [Dec.init], by simp [Dec.init], ⟨by simpa [encOut, Dec.init] using hr.1, ?_⟩⟩
  intro i x hx
  have := hr.2 i x hx
  simp only [encOut, List.getElem?_map, Option.map_eq_some_iff] at this
  obtain ⟨j, h1, h2⟩ := this
  have : j = i := by
    rw [List.getElem?_eq_some_iff] at h1
    obtain ⟨_, h1⟩ := h1
    simpa using h1.symm
  rw [← h2, this]

/-! ## Lists of reads -/

theorem reads_broken {c : RsConfig} {cod : Code c.dataShards c.parityShards} {size : Nat}
    (reqs : List (Nat × (Nat → Bool))) (d : Dec) (h : Broken c size d) :
    received (Dec.reads c cod size reqs d).1 = [] := by
  induction reqs generalizing d with
  | nil => rfl
  | cons q reqs ih =>
    obtain ⟨⟨e, he⟩, hb⟩ := broken_read (cod := cod) h q.1 q.2
    simp only [Dec.reads, he, received]
    exact ih _ hb

theorem reads_eof {c : RsConfig} {cod : Code c.dataShards c.parityShards} {size : Nat}
    (reqs : List (Nat × (Nat → Bool))) (d : Dec) (hc : d.cache = []) (ht : d.total = size) :
    received (Dec.reads c cod size reqs d).1 = [] := by
  induction reqs with
  | nil => rfl
  | cons q reqs ih =>
    have : d.read c cod size q.1 q.2 = (.error .eof, d) := by simp [Dec.read, hc, Dec.getData, ht]
    simp only [Dec.reads, this, received]
    exact ih

theorem reads_prefix {c : RsConfig} {cod : Code c.dataShards c.parityShards} (hk : 0 < c.dataShards)
    {data : Bytes} (reqs : List (Nat × (Nat → Bool))) (d : Dec) (done : Bytes) (bs : List Bytes)
    (h : DecInv c cod data done bs d) :
    done ++ received (Dec.reads c cod data.length reqs d).1 <+: data := by
  induction reqs generalizing d done bs with
  | nil => simp only [Dec.reads, received, List.append_nil]; exact ⟨_, h.data_eq.symm⟩
  | cons q reqs ih =>
    rcases read_any hk h q.1 q.2 with ⟨b, bs', h1, h2⟩ | ⟨h1, h2⟩ | ⟨⟨e, h1⟩, h2⟩
    · simp only [Dec.reads, h1, received]
      rw [← List.append_assoc]
      exact ih _ _ _ h2
    · simp only [Dec.reads, h2, received]
      exact ih _ _ _ h
    · simp only [Dec.reads, h1, received, reads_broken reqs _ h2, List.append_nil]
      exact ⟨_, h.data_eq.symm⟩

/-- `b` has a shard wherever `a` has one. -/
def Covers (a b : List (Option Bytes)) : Prop :=
  a.length = b.length ∧ ∀ (i : Nat) (x : Bytes), a[i]? = some (some x) → ∃ y : Bytes, b[i]? = some (some y)

theorem covers_count {a b : List (Option Bytes)} (h : Covers a b) : presentCount a ≤ presentCount b := by
  unfold presentCount
  induction a generalizing b with
  | nil => simp
  | cons x a ih =>
    cases b with
    | nil => have := h.1; simp at this
    | cons y b =>
      rw [List.countP_cons, List.countP_cons]
      have h1 := ih (b := b) ⟨by simpa using h.1, fun i z hz => by
        obtain ⟨w, hw⟩ := h.2 (i + 1) z (by simpa using hz)
        exact ⟨w, by simpa using hw⟩⟩
      cases x with
      | none => simp; omega
      | some x =>
        obtain ⟨w, hw⟩ := h.2 0 x (by simp)
        simp at hw
        subst hw
        simp; omega

theorem covers_kill {a b : List (Option Bytes)} {dead all : Nat → Bool}
    (hd : ∀ i, dead i = true → all i = true) (h : Covers (killReaders all a) b) :
    Covers (killReaders all a) (killReaders dead b) := by
  refine ⟨by simpa [killReaders] using h.1, fun i x hx => ?_⟩
  obtain ⟨y, hy⟩ := h.2 i x hx
  refine ⟨y, ?_⟩
  simp only [killReaders, List.getElem?_mapIdx, hy, Option.map_some]
  simp only [killReaders, List.getElem?_mapIdx, Option.map_eq_some_iff] at hx
  obtain ⟨r, _, h2⟩ := hx
  cases hdi : dead i with
  | false => simp
  | true => simp [hd i hdi] at h2

theorem covers_drop {a b : List (Option Bytes)} (n : Nat) (h : Covers a b) :
    Covers a (b.map (Option.map (List.drop n))) := by
  refine ⟨by simpa using h.1, fun i x hx => ?_⟩
  obtain ⟨y, hy⟩ := h.2 i x hx
  exact ⟨y.drop n, by simp [hy]⟩

theorem covers_refl_kill (all : Nat → Bool) (a : List (Option Bytes)) :
    Covers (killReaders all a) a := by
  refine ⟨by simp [killReaders], fun i x hx => ?_⟩
  simp only [killReaders, List.getElem?_mapIdx, Option.map_eq_some_iff] at hx
  obtain ⟨r, h1, h2⟩ := hx
  split at h2
  · cases h2
  · exact ⟨x, by rw [h1, h2]⟩

/-- One read while enough servers survive. -/
theorem read_alive {c : RsConfig} {cod : Code c.dataShards c.parityShards} (hk : 0 < c.dataShards)
    {data done : Bytes} {bs : List Bytes} {d : Dec} (h : DecInv c cod data done bs d)
    {rs : List (Option Bytes)} {all : Nat → Bool} (hcov : Covers (killReaders all rs) d.readers)
    (hp : c.dataShards ≤ presentCount (killReaders all rs)) (n : Nat) {dead : Nat → Bool}
    (hd : ∀ i, dead i = true → all i = true) :
    (done = data ∧ d.read c cod data.length n dead = (.error .eof, d)) ∨
    ∃ b bs', (d.read c cod data.length n dead).1 = .ok b ∧ (0 < n → b ≠ []) ∧
      DecInv c cod data (done ++ b) bs' (d.read c cod data.length n dead).2 ∧
      Covers (killReaders all rs) (d.read c cod data.length n dead).2.readers := by
  by_cases hc : d.cache = []
  · cases bs with
    | nil => exact .inl ⟨(read_eof h hc n dead).2, (read_eof h hc n dead).1⟩
    | cons b rest =>
      have hck := covers_kill hd hcov
      obtain ⟨h1, h2, h3⟩ := read_block hk h hc n dead (Nat.le_trans hp (covers_count hck))
      refine .inr ⟨_, _, h1, fun hn he => ?_, h2, ?_⟩
      · have := h.wf.1
        have h4 : (b.take n).length = 0 := by rw [he]; rfl
        rw [List.length_take] at h4
        omega
      · rw [h3]; exact covers_drop _ hck
  · obtain ⟨h1, h2, h3⟩ := read_cached h hc data.length n dead
    refine .inr ⟨_, _, h1, fun hn he => ?_, h2, by rw [h3]; exact hcov⟩
    have h4 : (d.cache.take n).length = 0 := by rw [he]; rfl
    have h5 : 0 < d.cache.length := List.length_pos_iff.2 hc
    rw [List.length_take] at h4
    omega

theorem reads_alive {c : RsConfig} {cod : Code c.dataShards c.parityShards} (hk : 0 < c.dataShards)
    {data : Bytes} {rs : List (Option Bytes)} {all : Nat → Bool}
    (hp : c.dataShards ≤ presentCount (killReaders all rs)) (reqs : List (Nat × (Nat → Bool)))
    (hd : ∀ q ∈ reqs, ∀ i, q.2 i = true → all i = true) (d : Dec) (done : Bytes) (bs : List Bytes)
    (h : DecInv c cod data done bs d) (hcov : Covers (killReaders all rs) d.readers) :
    (∀ a ∈ (Dec.reads c cod data.length reqs d).1, a = .error .eof ∨ ∃ b, a = .ok b) ∧
    (.error .eof ∈ (Dec.reads c cod data.length reqs d).1 →
      done ++ received (Dec.reads c cod data.length reqs d).1 = data) ∧
    ((∀ q ∈ reqs, 0 < q.1) → data.length < done.length + reqs.length →
      .error .eof ∈ (Dec.reads c cod data.length reqs d).1) := by
  induction reqs generalizing d done bs with
  | nil =>
    refine ⟨by simp [Dec.reads], by simp [Dec.reads], fun _ hl => ?_⟩
    have := congrArg List.length h.data_eq
    simp at this hl
    omega
  | cons q reqs ih =>
    rcases read_alive hk h hcov hp q.1 (hd q (by simp)) with ⟨h1, h2⟩ | ⟨b, bs', h1, h2, h3, h4⟩
    · have hnone : d.cache = [] ∧ d.total = data.length := by
        have hl := congrArg List.length h.data_eq
        rw [← h1] at hl
        simp at hl
        have hc : d.cache = [] := hl.1
        exact ⟨hc, by rw [h.total_eq, hc, h1]; simp⟩
      have hr := reads_eof (cod := cod) reqs d hnone.1 hnone.2
      obtain ⟨i1, _, _⟩ := ih (fun q hq => hd q (by simp [hq])) d done bs h hcov
      simp only [Dec.reads, h2, received, List.mem_cons, true_or, forall_eq_or_imp, hr, List.append_nil,
        h1, implies_true, and_true, true_and]
      exact i1
    · obtain ⟨i1, i2, i3⟩ := ih (fun q hq => hd q (by simp [hq])) _ _ _ h3 h4
      simp only [Dec.reads, h1, received, List.mem_cons, forall_eq_or_imp, reduceCtorEq, false_or]
      refine ⟨⟨⟨b, rfl⟩, i1⟩, fun he => ?_, fun hpos hl => i3 hpos.2 ?_⟩
      · rw [← List.append_assoc]; exact i2 he
      · have := List.length_pos_iff.2 (h2 hpos.1)
        rw [List.length_append]
        simp at hl
        omega

/-! ## The properties -/

/-- **C35** Every shard file has the announced size (`perShard := rsCfg.ShardSize(opt.Size)`,
rs_put_stream.go:18, 26), however the upload is cut into pieces. -/
theorem C35_shard_size (c : RsConfig) (cod : Code c.dataShards c.parityShards) (hk : 0 < c.dataShards)
    (hb : 0 < c.blockPerShard) (pieces : List Bytes) :
    ∃ files, upload c cod pieces = some files ∧ files.length = c.allShards ∧
      ∀ f ∈ files, f.length = c.shardSize pieces.flatten.length := by
  obtain ⟨blocks, h1, h2, h3⟩ := upload_blocks c cod hk hb pieces
  refine ⟨_, h3, by simp [encOut, RsConfig.allShards], fun f hf => ?_⟩
  simp only [encOut, List.mem_map, List.mem_range] at hf
  obtain ⟨i, hi, rfl⟩ := hf
  rw [strm_length hk cod hi blocks h1, h2]
  rfl

/-- **C33** The division of an upload into pieces does not matter. -/
theorem C33_pieces_irrelevant (c : RsConfig) (cod : Code c.dataShards c.parityShards)
    (hk : 0 < c.dataShards) (hb : 0 < c.blockPerShard) (p q : List Bytes) (h : p.flatten = q.flatten) :
    upload c cod p = upload c cod q := by
  have uniq : ∀ (a b : List Bytes), WF c.blockSize a → WF c.blockSize b → a.flatten = b.flatten → a = b := by
    intro a
    induction a with
    | nil =>
      intro b _ hb he
      cases b with
      | nil => rfl
      | cons x b =>
        have := congrArg List.length he
        have h0 := hb.1
        rw [List.flatten_cons, List.length_append] at this
        simp only [List.flatten_nil, List.length_nil] at this
        omega
    | cons x a ih =>
      intro b ha hb he
      cases b with
      | nil =>
        have := congrArg List.length he
        have h0 := ha.1
        rw [List.flatten_cons, List.length_append] at this
        simp only [List.flatten_nil, List.length_nil] at this
        omega
      | cons y b =>
        have hl := congrArg List.length he
        simp only [List.flatten_cons, List.length_append] at hl
        have hxy : x.length = y.length := by
          by_cases h1 : a = []
          · by_cases h2 : b = []
            · subst h1 h2; simpa using hl
            · have hy := hb.2.2.1 h2
              have hx := ha.2.1
              subst h1
              simp at hl
              omega
          · have hx := ha.2.2.1 h1
            by_cases h2 : b = []
            · have hy := hb.2.1
              subst h2
              simp at hl
              omega
            · have hy := hb.2.2.1 h2
              omega
        simp only [List.flatten_cons] at he
        obtain ⟨e1, e2⟩ := List.append_inj he hxy
        rw [e1, ih b ha.2.2.2 hb.2.2.2 e2]
  obtain ⟨b1, h1, h2, h3⟩ := upload_blocks c cod hk hb p
  obtain ⟨b2, h4, h5, h6⟩ := upload_blocks c cod hk hb q
  rw [h3, h6, uniq b1 b2 h1 h4 (by rw [h2, h5, h])]

/-- **C34** With at most `parityShards` servers unavailable — when reading starts or later (`all`) — every
read succeeds until the end, the end is reported only after exactly the uploaded bytes were delivered,
and it is reported after finitely many reads. -/
theorem C34_survives (c : RsConfig) (cod : Code c.dataShards c.parityShards) (hk : 0 < c.dataShards)
    (hb : 0 < c.blockPerShard) (pieces files : List Bytes) (hf : upload c cod pieces = some files)
    (rs : List (Option Bytes)) (hrs : ErasureOf rs files) (all : Nat → Bool)
    (hp : c.dataShards ≤ presentCount (killReaders all rs)) (reqs : List (Nat × (Nat → Bool)))
    (hd : ∀ q ∈ reqs, ∀ i, q.2 i = true → all i = true) :
    let answers := (Dec.reads c cod pieces.flatten.length reqs (.init rs)).1
    (∀ a ∈ answers, a = .error .eof ∨ ∃ b, a = .ok b) ∧
    (.error .eof ∈ answers → received answers = pieces.flatten) ∧
    ((∀ q ∈ reqs, 0 < q.1) → pieces.flatten.length < reqs.length → .error .eof ∈ answers) := by
  obtain ⟨blocks, h1, h2, h3⟩ := upload_blocks c cod hk hb pieces
  rw [h3] at hf
  cases hf
  rw [← h2]
  have := reads_alive hk hp reqs hd (.init rs) [] blocks (decInv_init h1 hrs) (covers_refl_kill all rs)
  simpa using this

/-- **C34** Whatever fails and whenever: the bytes delivered are a prefix of the object. -/
theorem C34_never_wrong (c : RsConfig) (cod : Code c.dataShards c.parityShards) (hk : 0 < c.dataShards)
    (hb : 0 < c.blockPerShard) (pieces files : List Bytes) (hf : upload c cod pieces = some files)
    (rs : List (Option Bytes)) (hrs : ErasureOf rs files) (reqs : List (Nat × (Nat → Bool))) :
    received (Dec.reads c cod pieces.flatten.length reqs (.init rs)).1 <+: pieces.flatten := by
  obtain ⟨blocks, h1, h2, h3⟩ := upload_blocks c cod hk hb pieces
  rw [h3] at hf
  cases hf
  rw [← h2]
  simpa using reads_prefix hk reqs (.init rs) [] blocks (decInv_init h1 hrs)

/-- **C34** With more than `parityShards` servers unavailable reading a non-empty object fails. -/
theorem C34_too_many_lost (c : RsConfig) (cod : Code c.dataShards c.parityShards)
    (pieces : List Bytes) (hne : pieces.flatten ≠ []) (rs : List (Option Bytes))
    (hp : presentCount rs < c.dataShards) (reqs : List (Nat × (Nat → Bool))) :
    ∀ a ∈ (Dec.reads c cod pieces.flatten.length reqs (.init rs)).1, ∃ e, a = .error (.rs e) := by
  have hb : Broken c pieces.flatten.length (.init rs) :=
    ⟨hp, rfl, List.length_pos_iff.2 hne⟩
  clear hp
  generalize Dec.init rs = d at hb
  induction reqs generalizing d with
  | nil => simp [Dec.reads]
  | cons q reqs ih =>
    obtain ⟨he, hb'⟩ := broken_read (cod := cod) hb q.1 q.2
    intro a ha
    simp only [Dec.reads, List.mem_cons] at ha
    rcases ha with rfl | ha
    · exact he
    · exact ih _ hb' a ha

/-- **C33** Round trip: an object uploaded in any pieces and read with any buffer sizes, often enough,
comes back unchanged. -/
theorem C33_round_trip (c : RsConfig) (cod : Code c.dataShards c.parityShards) (hk : 0 < c.dataShards)
    (hb : 0 < c.blockPerShard) (pieces : List Bytes) (sizes : List Nat) (hs : ∀ n ∈ sizes, 0 < n)
    (hl : pieces.flatten.length < sizes.length) :
    ∃ files, upload c cod pieces = some files ∧
      received (Dec.reads c cod pieces.flatten.length (sizes.map fun n => (n, fun _ => false))
        (.init (files.map some))).1 = pieces.flatten := by
  obtain ⟨files, h1, h2, _⟩ := C35_shard_size c cod hk hb pieces
  refine ⟨files, h1, ?_⟩
  have hkill : killReaders (fun _ => false) (files.map some) = files.map some := by
    apply List.ext_getElem?
    intro i
    rw [killReaders, List.getElem?_mapIdx]
    cases (files.map some)[i]? <;> simp
  have hcount : presentCount (files.map some) = files.length := by
    unfold presentCount
    rw [List.countP_map]
    exact List.countP_eq_length.2 (by simp)
  have := C34_survives c cod hk hb pieces files h1 (files.map some)
    ⟨by simp, fun i x hx => by simpa using hx⟩ (fun _ => false)
    (by rw [hkill, hcount, h2]; exact Nat.le_add_right ..)
    (sizes.map fun n => (n, fun _ => false)) (by simp)
  exact this.2.1 (this.2.2 (by simpa using hs) (by simpa using hl))

end Verif.Object
