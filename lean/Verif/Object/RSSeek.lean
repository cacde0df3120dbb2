import Verif.Object.RSProps

/-!
# Erasure coded streams: seeking (C36), block sizes and damaged shards
-/

namespace Verif.Object

/-- `Seek`, rs_get_stream.go:86-111.  The position is advanced by reading and throwing away
(`io.CopyN`); `reqs` are the buffer sizes (minus one) the copy uses, none larger than what is left.
The result is what the code returns: the number of bytes that could not be skipped.  `none`: `reqs` is
too short to tell. -/
def Dec.seek (c : RsConfig) (cod : Code c.dataShards c.parityShards) (size : Nat) :
    List (Nat × (Nat → Bool)) → Nat → Dec → Option (Except RdErr Nat) × Dec
  | _, 0, d => (some (.ok 0), d)
  | [], _ + 1, d => (none, d)
  | (n, dead) :: rest, off + 1, d =>
    match d.read c cod size (min (n + 1) (off + 1)) dead with
    | (.ok b, d') => Dec.seek c cod size rest (off + 1 - b.length) d'
    | (.error .eof, d') => (some (.ok (off + 1)), d')
    | (.error e, d') => (some (.error e), d')

theorem seek_spec {c : RsConfig} {cod : Code c.dataShards c.parityShards} (hk : 0 < c.dataShards)
    {data : Bytes} {rs : List (Option Bytes)} {all : Nat → Bool}
    (hp : c.dataShards ≤ presentCount (killReaders all rs)) (reqs : List (Nat × (Nat → Bool)))
    (hd : ∀ q ∈ reqs, ∀ i, q.2 i = true → all i = true) (off : Nat) (hl : off ≤ reqs.length) (d : Dec)
    (done : Bytes) (bs : List Bytes) (h : DecInv c cod data done bs d)
    (hcov : Covers (killReaders all rs) d.readers) :
    ∃ bs', (Dec.seek c cod data.length reqs off d).1 =
        some (.ok (off - (data.length - done.length))) ∧
      DecInv c cod data (data.take (done.length + off)) bs' (Dec.seek c cod data.length reqs off d).2 ∧
      Covers (killReaders all rs) (Dec.seek c cod data.length reqs off d).2.readers := by
  have hpre : ∀ {done : Bytes} {bs : List Bytes} {d : Dec}, DecInv c cod data done bs d →
      data.take done.length = done := by
    intro done bs d h
    rw [h.data_eq, List.take_append_of_le_length (Nat.le_refl _), List.take_length]
  induction reqs generalizing off d done bs with
  | nil =>
    have : off = 0 := by simpa using hl
    subst this
    refine ⟨bs, by simp [Dec.seek], ?_, hcov⟩
    simpa [Dec.seek, hpre h] using h
  | cons q reqs ih =>
    cases off with
    | zero =>
      refine ⟨bs, by simp [Dec.seek], ?_, by simpa [Dec.seek] using hcov⟩
      simpa [Dec.seek, hpre h] using h
    | succ off =>
      rcases read_alive hk h hcov hp (min (q.1 + 1) (off + 1)) (hd q (by simp)) with
        ⟨h1, h2⟩ | ⟨b, bs', h1, h2, h3, h4⟩
      · refine ⟨bs, ?_, ?_, ?_⟩
        · simp only [Dec.seek, h2]
          rw [h1]; simp
        · simp only [Dec.seek, h2]
          rw [List.take_of_length_le (by rw [h1]; omega), ← h1]
          rw [h1]; exact h1 ▸ h
        · simp only [Dec.seek, h2]; exact hcov
      · have hb : b.length ≤ off + 1 := by
          -- the read returned at most the buffer
          have hle : b.length ≤ min (q.1 + 1) (off + 1) := by
            unfold Dec.read at h1
            split at h1
            · split at h1
              · cases h1
              · simp only [Except.ok.injEq] at h1
                rw [← h1, List.length_take]; omega
            · simp only [Except.ok.injEq] at h1
              rw [← h1, List.length_take]; omega
          omega
        have htot := congrArg List.length h3.data_eq
        simp only [List.length_append] at htot
        have hbpos := List.length_pos_iff.2 (h2 (by omega))
        generalize hrd : d.read c cod data.length (min (q.1 + 1) (off + 1)) q.2 = r at *
        obtain ⟨r1, r2⟩ := r
        simp only at h1 h3 h4
        subst h1
        obtain ⟨bs'', i1, i2, i3⟩ := ih (fun q hq => hd q (by simp [hq])) (off + 1 - b.length)
          (by simp at hl; omega) r2 (done ++ b) bs' h3 h4
        refine ⟨bs'', ?_, ?_, ?_⟩
        · simp only [Dec.seek, hrd]
          rw [i1]
          simp only [List.length_append]
          congr 2
          omega
        · simp only [Dec.seek, hrd]
          have : (done ++ b).length + (off + 1 - b.length) = done.length + (off + 1) := by
            simp only [List.length_append]; omega
          rw [this] at i2
          exact i2
        · simp only [Dec.seek, hrd]; exact i3

/-- **C36** (erasure coded objects) After seeking to any offset — with any buffer sizes, with at most
`parityShards` servers lost before or meanwhile — exactly the bytes from that offset on are delivered,
however the client reads. -/
theorem C36_rs_tail (c : RsConfig) (cod : Code c.dataShards c.parityShards) (hk : 0 < c.dataShards)
    (hb : 0 < c.blockPerShard) (pieces files : List Bytes) (hf : upload c cod pieces = some files)
    (rs : List (Option Bytes)) (hrs : ErasureOf rs files) (all : Nat → Bool)
    (hp : c.dataShards ≤ presentCount (killReaders all rs)) (off : Nat)
    (reqs1 reqs2 : List (Nat × (Nat → Bool))) (hl : off ≤ reqs1.length)
    (hd : ∀ q ∈ reqs1 ++ reqs2, ∀ i, q.2 i = true → all i = true) :
    let sk := Dec.seek c cod pieces.flatten.length reqs1 off (.init rs)
    let answers := (Dec.reads c cod pieces.flatten.length reqs2 sk.2).1
    sk.1 = some (.ok (off - pieces.flatten.length)) ∧
    (∀ a ∈ answers, a = .error .eof ∨ ∃ b, a = .ok b) ∧
    (.error .eof ∈ answers → received answers = pieces.flatten.drop off) ∧
    ((∀ q ∈ reqs2, 0 < q.1) → pieces.flatten.length - off < reqs2.length → .error .eof ∈ answers) := by
  obtain ⟨blocks, h1, h2, h3⟩ := upload_blocks c cod hk hb pieces
  rw [h3] at hf
  cases hf
  rw [← h2]
  obtain ⟨bs', e1, e2, e3⟩ := seek_spec hk hp reqs1 (fun q hq => hd q (by simp [hq])) off hl (.init rs) []
    blocks (decInv_init h1 hrs) (covers_refl_kill all rs)
  obtain ⟨f1, f2, f3⟩ := reads_alive hk hp reqs2 (fun q hq => hd q (by simp [hq])) _ _ _ e2 e3
  refine ⟨by simpa using e1, f1, fun he => ?_, fun hpos hlen => ?_⟩
  · have := f2 he
    simp only [List.length_nil, Nat.zero_add] at this
    conv at this => rhs; rw [← List.take_append_drop off blocks.flatten]
    exact List.append_cancel_left this
  · exact f3 hpos (by simp only [List.length_nil, Nat.zero_add, List.length_take]; omega)

end Verif.Object
