import Verif.Object.RSFindings

/-!
# Repairing lost shards while reading (C37, erasure coded objects)

Models the writers of rs_decoder.go:98-119 and `Close` of rs_get_stream.go:113-139.
-/

namespace Verif.Object

/-- What the writers of lost shards have received: exactly the shard bytes of the blocks read so far. -/
def RepairInv {k m : Nat} (cod : Code k m) (rs0 : List (Option Bytes)) (gone : List Bytes)
    (rep : List (Option Bytes)) : Prop :=
  rep.length = rs0.length ∧ ∀ i : Nat, (∀ x, rs0[i]? = some (some x) → rep[i]? = some none) ∧
    (rs0[i]? = some none → rep[i]? = some (some (strm cod i gone)))

theorem strm_snoc {k m : Nat} (cod : Code k m) (i : Nat) (bs : List Bytes) (b : Bytes) :
    strm cod i (bs ++ [b]) = strm cod i bs ++ (encodeBlock cod b).getD i [] := by simp [strm]

theorem repair_init {k m : Nat} (cod : Code k m) (rs : List (Option Bytes)) :
    RepairInv cod rs [] (Dec.init rs).repair := by
  refine ⟨by simp [Dec.init], fun i => ⟨fun x hx => by simp [Dec.init, hx], fun hx => ?_⟩⟩
  simp [Dec.init, hx, strm]

theorem repair_step {k m : Nat} (cod : Code k m) {rs : List (Option Bytes)} {gone : List Bytes}
    {rep : List (Option Bytes)} (h : RepairInv cod rs gone rep) (b : Bytes) :
    RepairInv cod rs (gone ++ [b])
      (rep.mapIdx fun i w => w.map (· ++ (encodeBlock cod b).getD i [])) := by
  refine ⟨by simp [h.1], fun i => ⟨fun x hx => ?_, fun hx => ?_⟩⟩
  · simp [(h.2 i).1 x hx]
  · simp [(h.2 i).2 hx, strm_snoc]

/-- One read extends what the writers have received by the blocks it took from the servers. -/
theorem read_repair {c : RsConfig} {cod : Code c.dataShards c.parityShards} (hk : 0 < c.dataShards)
    {data done : Bytes} {bs gone : List Bytes} {d : Dec} (h : DecInv c cod data done bs d)
    {rs0 rs : List (Option Bytes)} (hr : RepairInv cod rs0 gone d.repair) {all : Nat → Bool}
    (hcov : Covers (killReaders all rs) d.readers)
    (hp : c.dataShards ≤ presentCount (killReaders all rs)) (n : Nat) {dead : Nat → Bool}
    (hd : ∀ i, dead i = true → all i = true) :
    ∃ done' bs' gone', gone' ++ bs' = gone ++ bs ∧
      DecInv c cod data done' bs' (d.read c cod data.length n dead).2 ∧
      Covers (killReaders all rs) (d.read c cod data.length n dead).2.readers ∧
      RepairInv cod rs0 gone' (d.read c cod data.length n dead).2.repair ∧
      (bs = [] ∨ (d.read c cod data.length n dead).1 = .error .eof → bs' = []) := by
  by_cases hc : d.cache = []
  · cases bs with
    | nil =>
      refine ⟨done, [], gone, rfl, ?_, ?_, ?_, fun _ => rfl⟩ <;> rw [(read_eof h hc n dead).1] <;> assumption
    | cons b rest =>
      have hck := covers_kill hd hcov
      have hpk := Nat.le_trans hp (covers_count hck)
      obtain ⟨h1, h2, h3⟩ := read_block hk h hc n dead hpk
      refine ⟨_, rest, gone ++ [b], by simp, h2, by rw [h3]; exact covers_drop _ hck, ?_, fun he => ?_⟩
      · have : (d.read c cod data.length n dead).2.repair =
            d.repair.mapIdx fun i w => w.map (· ++ (encodeBlock cod b).getD i []) := by
          unfold Dec.read
          rw [if_pos hc, getData_ok hk h hc dead hpk]
        rw [this]
        exact repair_step cod hr b
      · rw [h1] at he; simp at he
  · obtain ⟨h1, h2, h3⟩ := read_cached h hc data.length n dead
    refine ⟨_, bs, gone, rfl, h2, by rw [h3]; exact hcov, ?_, fun he => ?_⟩
    · have : (d.read c cod data.length n dead).2.repair = d.repair := by
        unfold Dec.read
        rw [if_neg hc]
      rw [this]; exact hr
    · rw [h1] at he; simpa using he

theorem reads_repair {c : RsConfig} {cod : Code c.dataShards c.parityShards} (hk : 0 < c.dataShards)
    {data : Bytes} {rs0 rs : List (Option Bytes)} {all : Nat → Bool}
    (hp : c.dataShards ≤ presentCount (killReaders all rs)) (reqs : List (Nat × (Nat → Bool)))
    (hd : ∀ q ∈ reqs, ∀ i, q.2 i = true → all i = true) (d : Dec) (done : Bytes) (bs gone : List Bytes)
    (h : DecInv c cod data done bs d) (hr : RepairInv cod rs0 gone d.repair)
    (hcov : Covers (killReaders all rs) d.readers) :
    ∃ bs' gone', gone' ++ bs' = gone ++ bs ∧
      RepairInv cod rs0 gone' (Dec.reads c cod data.length reqs d).2.repair ∧
      (bs = [] ∨ .error .eof ∈ (Dec.reads c cod data.length reqs d).1 → bs' = []) := by
  induction reqs generalizing d done bs gone with
  | nil => exact ⟨bs, gone, rfl, by simpa [Dec.reads] using hr, by simp [Dec.reads]⟩
  | cons q reqs ih =>
    obtain ⟨done', bs1, gone1, e1, e2, e3, e4, e5⟩ := read_repair hk h hr hcov hp q.1 (hd q (by simp))
    obtain ⟨bs2, gone2, f1, f2, f3⟩ := ih (fun q hq => hd q (by simp [hq])) _ _ _ _ e2 e4 e3
    refine ⟨bs2, gone2, by rw [f1, e1], by simpa [Dec.reads] using f2, fun he => ?_⟩
    simp only [Dec.reads, List.mem_cons] at he
    rcases he with he | he | he
    · exact f3 (.inl (e5 (.inl he)))
    · exact f3 (.inl (e5 (.inr he.symm)))
    · exact f3 (.inr he)

/-! ## The cluster around one object

A server holds at most one file per shard index of the object (the file name is `hash.index`). -/

/-- `holds s i`: the content of file `hash.i` on server `s`, if there is one. -/
abbrev Cluster := Nat → Nat → Option Bytes

/-- The readers of `NewRSGetStream`, rs_get_stream.go:51-72: shard `i` is read from the server recorded
for it; `up`: the servers that answer. -/
def openReaders (holds : Cluster) (up : Nat → Bool) (loc : List Nat) : List (Option Bytes) :=
  loc.mapIdx fun i s => if up s then holds s i else none

/-- The recorded locations after opening, rs_get_stream.go:58-66: `pick i` is the server the selector
returns for lost shard `i`. -/
def openLocates (holds : Cluster) (up : Nat → Bool) (pick : Nat → Nat) (loc : List Nat) : List Nat :=
  loc.mapIdx fun i s => if (if up s then holds s i else none).isSome then s else pick i

/-- `Close`, rs_get_stream.go:113-139: every writer is committed.  A commit does nothing when the server
already has a file of that name (objects_service.go `CommitFile`). -/
def closeStream (holds : Cluster) (pick : Nat → Nat) (repair : List (Option Bytes)) : Cluster :=
  fun s i => match holds s i with
    | some f => some f
    | none => if s = pick i then (repair[i]?).join else none

/-- **C37** (erasure coded objects, shards written in the order of the blocks) After reading to the end
and closing, the server recorded for each shard holds exactly the file written at upload, and no other
file was changed.  Missing for the full property: the code does not keep the order of the blocks
(`C37_block_order_lost`) and commits also after an incomplete read (`C37_partial_read_commits`). -/
theorem C37_rs_repair_partial (c : RsConfig) (cod : Code c.dataShards c.parityShards)
    (hk : 0 < c.dataShards) (hb : 0 < c.blockPerShard) (pieces files : List Bytes)
    (hf : upload c cod pieces = some files)
    -- the servers recorded for the shards hold the uploaded files, unless they lost them
    (holds : Cluster) (up : Nat → Bool) (loc : List Nat) (hloc : loc.length = c.allShards)
    (hold : ∀ (i s : Nat) (f : Bytes), loc[i]? = some s → holds s i = some f → files[i]? = some f)
    -- the replacement servers have no file of that name
    (pick : Nat → Nat) (hpick : ∀ i : Nat, holds (pick i) i = none)
    -- at most `parityShards` servers are lost, before or during the read
    (all : Nat → Bool) (hp : c.dataShards ≤ presentCount (killReaders all (openReaders holds up loc)))
    (reqs : List (Nat × (Nat → Bool))) (hd : ∀ q ∈ reqs, ∀ i, q.2 i = true → all i = true) :
    let r := Dec.reads c cod pieces.flatten.length reqs (.init (openReaders holds up loc))
    .error .eof ∈ r.1 →
    let holds' := closeStream holds pick r.2.repair
    let loc' := openLocates holds up pick loc
    received r.1 = pieces.flatten ∧
    (∀ (i s : Nat), loc'[i]? = some s → holds' s i = files[i]? ∧ (holds' s i).isSome = true) ∧
    (∀ (s i : Nat) (f : Bytes), holds s i = some f → holds' s i = some f) := by
  intro r heof holds' loc'
  have hers : ErasureOf (openReaders holds up loc) files := by
    obtain ⟨fs, g1, g2, _⟩ := C35_shard_size c cod hk hb pieces
    rw [hf] at g1
    cases g1
    refine ⟨by simp [openReaders, hloc, g2], fun i x hx => ?_⟩
    simp only [openReaders, List.getElem?_mapIdx, Option.map_eq_some_iff] at hx
    obtain ⟨s, h1, h2⟩ := hx
    split at h2
    · exact hold i s x h1 h2
    · cases h2
  refine ⟨(C34_survives c cod hk hb pieces files hf _ hers all hp reqs hd).2.1 heof, ?_, ?_⟩
  · obtain ⟨blocks, h1, h2, h3⟩ := upload_blocks c cod hk hb pieces
    rw [h3] at hf
    cases hf
    have hinv := decInv_init h1 hers
    rw [h2] at hinv
    obtain ⟨bs', gone', e1, e2, e3⟩ := reads_repair hk hp reqs hd _ _ _ [] hinv (repair_init cod _)
      (covers_refl_kill all _)
    have hbs := e3 (.inr heof)
    subst hbs
    simp only [List.append_nil, List.nil_append] at e1
    subst e1
    intro i s hs
    simp only [loc', openLocates, List.getElem?_mapIdx, Option.map_eq_some_iff] at hs
    obtain ⟨s0, g1, g2⟩ := hs
    have hi : i < c.dataShards + c.parityShards := by
      have := (List.getElem?_eq_some_iff.1 g1).1
      rw [hloc] at this; exact this
    have hfile : (encOut cod gone')[i]? = some (strm cod i gone') := by
      simp [encOut, List.getElem?_range hi]
    have hopen : (openReaders holds up loc)[i]? = some (if up s0 then holds s0 i else none) := by
      simp [openReaders, g1]
    by_cases hpres : (if up s0 then holds s0 i else none).isSome
    · rw [if_pos hpres] at g2
      subst g2
      cases hu : up s0 with
      | false => simp [hu] at hpres
      | true =>
        simp only [hu, if_true] at hpres
        obtain ⟨f, hfs⟩ := Option.isSome_iff_exists.1 hpres
        have hh : holds' s0 i = some f := by simp [holds', closeStream, hfs]
        rw [hh, hold i s0 f g1 hfs]
        exact ⟨rfl, rfl⟩
    · rw [if_neg hpres] at g2
      subst g2
      have hnone : (if up s0 then holds s0 i else none) = none := by simpa using hpres
      rw [hnone] at hopen
      have hrep := (e2.2 i).2 hopen
      have hh : holds' (pick i) i = some (strm cod i gone') := by
        simp only [holds', closeStream, hpick i, if_true]
        simp only [r]
        rw [hrep]; rfl
      rw [hh, hfile]
      exact ⟨rfl, rfl⟩
  · intro s i f hs
    simp [holds', closeStream, hs]

/-! ## A concrete case -/

/-- Servers 0, 1, 2 hold the shards, server 0 has lost its file; server 3 is empty. -/
def demoHolds : Cluster := fun s i =>
  match s, i with
  | 1, 1 => some [5, 6, 7, 8, 11, 0]
  | 2, 2 => some [4, 4, 4, 12, 2, 10]
  | _, _ => none

example : openLocates demoHolds (fun _ => true) (fun _ => 3) [0, 1, 2] = [3, 1, 2] := by decide
example :
    let r := Dec.reads smallCfg xorCode 11 (List.replicate 4 (7, fun _ => false))
      (.init (openReaders demoHolds (fun _ => true) [0, 1, 2]))
    received r.1 = [1, 2, 3, 4, 5, 6, 7, 8, 9, 10, 11] ∧
    closeStream demoHolds (fun _ => 3) r.2.repair 3 0 = some [1, 2, 3, 4, 9, 10] := by
  decide

/-! ## What the code does not guarantee -/

/-- The writes of one lost shard in the order in which the goroutines started by rs_decoder.go:100-119 run:
each block starts its own goroutine, and the `wg.Wait()` of line 132 does not wait for goroutines that
have not yet executed `wg.Add(1)` (lines 106 and 132 are not ordered), and is skipped with
`RewriteAsync`.  So the order is any permutation of the blocks. -/
def asyncFile (blocks : List Bytes) (order : List Nat) : Bytes :=
  (order.map fun i => blocks.getD i []).flatten

/-- The order of the blocks gives the right file ... -/
theorem C37_ordered_file (blocks : List Bytes) :
    asyncFile blocks (List.range blocks.length) = blocks.flatten := by
  unfold asyncFile
  congr 1
  apply List.ext_getElem
  · simp
  · intro i h1 h2
    simp only [List.length_map, List.length_range] at h1
    simp [List.getD_eq_getElem?_getD, h1]

/-- ... but another order the scheduler may choose gives a different one.  **C37 fails.** -/
theorem C37_block_order_lost :
    ∃ (blocks : List Bytes) (order : List Nat), order.Perm (List.range blocks.length) ∧
      asyncFile blocks order ≠ blocks.flatten :=
  ⟨[[1, 2, 3, 4], [9, 10]], [1, 0], by decide, by decide⟩

/-- **C37 fails** after an incomplete read: one block is read, the client goes away, `Close` commits a
truncated shard and records its location.  When afterwards one more server is lost, the object cannot be
read any more, although two of the three recorded servers are there. -/
theorem C37_partial_read_commits :
    let r := Dec.reads smallCfg xorCode 11 [(8, fun _ => false)]
      (.init (openReaders demoHolds (fun _ => true) [0, 1, 2]))
    let holds' := closeStream demoHolds (fun _ => 3) r.2.repair
    let loc' := openLocates demoHolds (fun _ => true) (fun _ => 3) [0, 1, 2]
    holds' 3 0 = some [1, 2, 3, 4] ∧ loc' = [3, 1, 2] ∧
    (openReaders holds' (fun s => s != 2) loc').map Option.isSome = [true, true, false] ∧
    (Dec.reads smallCfg xorCode 11 [(8, fun _ => false), (8, fun _ => false)]
      (.init (openReaders holds' (fun s => s != 2) loc'))).1 =
      [.ok [1, 2, 3, 4, 5, 6, 7, 8], .error (.rs .tooFewShards)] := by
  refine ⟨by decide, by decide, by decide, by rfl⟩

/-- A later full read does not heal the truncated shard: the server answers, so the shard counts as
present and gets no writer. -/
theorem C37_truncated_shard_stays :
    let holds' := closeStream demoHolds (fun _ => 3) [some [1, 2, 3, 4], none, none]
    let r := Dec.reads smallCfg xorCode 11 (List.replicate 4 (8, fun _ => false))
      (.init (openReaders holds' (fun _ => true) [3, 1, 2]))
    received r.1 = [1, 2, 3, 4, 5, 6, 7, 8, 9, 10, 11] ∧ r.2.repair = [none, none, none] := by
  decide

end Verif.Object
