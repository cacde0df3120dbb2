import Verif.Api.TokenProps

/-!
# C92 — what a token that was given out does

`TokenProps` says what a request may touch at most.  Here is what it does: for a token that a POST gave out, the answer to
every PATCH and the requests to the data servers, when the servers do as they are asked and when they do not.
-/

namespace Verif.Api.Token

open Verif

/-! ## Specification -/

/-- Tokens like those a POST gives out: at least one data shard, bytes in a block, an id for each shard and a server for each
id. -/
structure Sound (t : Tok) (c : Conf) : Prop where
  conf : t.conf = some c
  ds : 0 < c.ds
  ps : 0 ≤ c.ps
  bps : 0 < c.bps
  ids : (t.ids.length : Int) = c.ds + c.ps
  servers : t.ids.length ≤ t.servers.length

/-- The number of bytes of a block. -/
def bsize (c : Conf) : Nat := (c.bps * c.ds).toNat

/-- All blocks that begin in a body of `n` bytes are written. -/
def Written (env : Env) (c : Conf) (n : Nat) : Prop := ∀ k, k * bsize c < n → env.wr k = true

/-- Asking and writing only. -/
def Eff.early : Eff → Bool
  | .head .. | .write .. => true
  | _ => false

/-- The upload is accepted: the digest is right, the bucket is there, the version is recorded. -/
def Accepted (env : Env) (t : Tok) : Prop :=
  (env.checksum = true → env.sum = t.hash) ∧ (env.bucket t.bucket).isSome = true ∧ env.recOk = true

/-! ## Proofs -/

theorem bsize_pos {t : Tok} {c : Conf} (h : Sound t c) : 0 < bsize c := by
  have := Int.mul_pos h.bps h.ds
  unfold bsize
  omega

theorem bsize_eq (c : Conf) : c.blockSize.toNat = bsize c := rfl

theorem opened_sound {t : Tok} {c : Conf} (h : Sound t c) : t.opened = some c := by
  unfold Tok.opened
  rw [h.conf]
  have := Int.mul_pos h.bps h.ds
  have hb : ¬ c.blockSize < 0 := by unfold Conf.blockSize; omega
  have := h.servers
  dsimp only
  rw [if_neg (by omega)]

/-- **C92** A token is taken apart exactly if it has a configuration, not more ids than servers and no negative blocks;
otherwise the request panics before anything is asked. -/
theorem C92_opened (t : Tok) : (∀ c, t.opened = some c ↔ t.conf = some c ∧ t.ids.length ≤ t.servers.length ∧ 0 ≤ c.bps * c.ds) ∧
    (t.opened = none → ∀ env first n, resume env t first n = (.panic, [])) := by
  refine ⟨fun c => ?_, fun h env first n => ?_⟩
  · unfold Tok.opened
    cases hc : t.conf with
    | none => simp
    | some d =>
      dsimp only
      unfold Conf.blockSize
      by_cases h : t.servers.length < t.ids.length ∨ d.bps * d.ds < 0
      · rw [if_pos h]
        constructor
        · intro h'; cases h'
        · rintro ⟨h1, h2, h3⟩
          cases h1
          omega
      · rw [if_neg h]
        constructor
        · intro h'; cases h'
          exact ⟨rfl, by omega, by omega⟩
        · rintro ⟨h1, -⟩; exact h1
  · unfold resume
    rw [h]

theorem flush_sound {t : Tok} {c : Conf} (h : Sound t c) (env : Env) (k : Nat) :
    flush env t c k = (if env.wr k then .ok else .err, t.files.map fun f => Eff.write f.1 f.2) := by
  unfold flush
  have h1 := h.ds
  have h2 := h.ps
  have h3 := h.ids
  have h4 := h.servers
  rw [if_neg (by omega)]
  dsimp only
  rw [if_neg (by omega), List.take_of_length_le]
  unfold Tok.files
  rw [List.length_zip]
  omega

theorem flushes_sound {t : Tok} {c : Conf} (h : Sound t c) (env : Env) (n : Nat) : ∀ k,
    ((flushes env t c n k).1 = if ∀ i, i < n → env.wr (k + i) = true then .ok else .err) ∧
      ∀ e ∈ (flushes env t c n k).2, e.early = true := by
  induction n with
  | zero =>
    intro k
    refine ⟨?_, fun e he => by cases he⟩
    rw [if_pos (by intro i hi; omega)]
    rfl
  | succ n ih =>
    intro k
    obtain ⟨h1, h2⟩ := ih (k + 1)
    have hearly : ∀ e ∈ t.files.map (fun f => Eff.write f.1 f.2), e.early = true := by
      intro e he
      obtain ⟨f, -, rfl⟩ := List.mem_map.1 he
      rfl
    unfold flushes
    rw [flush_sound h]
    cases hw : env.wr k with
    | true =>
      simp only [if_true]
      refine ⟨?_, ?_⟩
      · rw [h1]
        congr 1
        apply propext
        constructor
        · intro hi i hlt
          cases i with
          | zero => exact hw
          | succ i => have := hi i (by omega); rwa [show k + 1 + i = k + (i + 1) by omega] at this
        · intro hi i hlt
          have := hi (i + 1) (by omega)
          rwa [show k + (i + 1) = k + 1 + i by omega] at this
      · intro e he
        rcases List.mem_append.1 he with he | he
        · exact hearly e he
        · exact h2 e he
    | false =>
      simp only [Bool.false_eq_true, if_false, reduceCtorEq]
      refine ⟨?_, hearly⟩
      rw [if_neg]
      intro hi
      have := hi 0 (by omega)
      rw [Nat.add_zero, hw] at this
      cases this

theorem div_lt {b n k : Nat} (hb : 0 < b) : k < n / b ↔ k * b + b ≤ n := by
  rw [← Nat.succ_le_iff, Nat.le_div_iff_mul_le hb, Nat.succ_mul]

/-- **C92** The body is taken in exactly if every full block is written; otherwise an error is reported.  Until then nothing is
committed, removed or recorded. -/
theorem C92_copy {t : Tok} {c : Conf} (h : Sound t c) (env : Env) (n : Nat) :
    ((∀ k, k * bsize c + bsize c ≤ n → env.wr k = true) → (copyBody env t c n).1 = .ok) ∧
      ((∃ k, k * bsize c + bsize c ≤ n ∧ env.wr k = false) → (copyBody env t c n).1 = .err) ∧
      ∀ e ∈ (copyBody env t c n).2, e.early = true := by
  have hb := bsize_pos h
  unfold copyBody
  by_cases h0 : n = 0
  · rw [if_pos h0]
    refine ⟨fun _ => rfl, ?_, fun e he => by cases he⟩
    rintro ⟨k, hk, -⟩
    omega
  · rw [if_neg h0, if_neg (by unfold bsize at hb; unfold Conf.blockSize; omega)]
    obtain ⟨h1, h2⟩ := flushes_sound h env (n / c.blockSize.toNat) 0
    refine ⟨fun hi => ?_, ?_, h2⟩
    · rw [h1, if_pos]
      intro i hi'
      rw [Nat.zero_add]
      exact hi i ((div_lt hb).1 hi')
    · rintro ⟨k, hk, hf⟩
      rw [h1, if_neg]
      intro hi
      have := hi k ((div_lt hb).2 hk)
      rw [Nat.zero_add, hf] at this
      cases this

theorem written_copy {t : Tok} {c : Conf} (h : Sound t c) {env : Env} {n : Nat} (hw : Written env c n) :
    (copyBody env t c n).1 = .ok := by
  refine (C92_copy h env n).1 fun k hk => ?_
  exact hw k (by have := bsize_pos h; omega)

/-- **C92** After the body the rest of it is written; if that succeeds all files are committed, or all are removed. -/
theorem C92_commit {t : Tok} {c : Conf} (h : Sound t c) (env : Env) (n : Nat) (ok : Bool) (hw : Written env c n) :
    ((commit env t c n ok).1 = if ok = true ∧ env.commitOk = false then .err else .ok) ∧
      (commit env t c n ok).2 = (if n % bsize c = 0 then [] else t.files.map fun f => Eff.write f.1 f.2) ++
        t.files.map fun f => if ok then Eff.commit f.1 f.2 t.compress else Eff.abort f.1 f.2 := by
  unfold commit
  dsimp only
  rw [bsize_eq]
  by_cases h0 : n % bsize c = 0
  · simp [h0]
  · have hk : env.wr (n / bsize c) = true := hw _ (by
      have := Nat.div_add_mod n (bsize c)
      rw [Nat.mul_comm] at this
      omega)
    simp only [h0, if_false, flush_sound h, hk, if_true]
    exact ⟨trivial, trivial⟩

/-- **C92** If the rest cannot be written nothing is committed or removed. -/
theorem C92_commit_fails {t : Tok} {c : Conf} (h : Sound t c) (env : Env) (n : Nat) (ok : Bool) (hn : n % bsize c ≠ 0)
    (hw : env.wr (n / bsize c) = false) :
    (commit env t c n ok).1 = .err ∧ ∀ e ∈ (commit env t c n ok).2, e.early = true := by
  unfold commit
  dsimp only
  rw [bsize_eq, if_neg hn, flush_sound h, hw]
  refine ⟨rfl, ?_⟩
  intro e he
  obtain ⟨f, -, rfl⟩ := List.mem_map.1 he
  rfl

/-- **C92** A PATCH with a token that was given out, when all blocks are written.  It goes on exactly where the upload stopped.
Before the end only data is written; an upload that is too long is given up: all files are removed and nothing is recorded or
committed; one that is complete and accepted is recorded and all files are committed; one that is not accepted is given up. -/
theorem C92_upload {t : Tok} {c : Conf} (h : Sound t c) (env : Env) (first m : Int) (n : Nat) (f : Str × Str) (fs : List (Str × Str))
    (hf : t.files = f :: fs) (hh : env.head f.1 f.2 = some m) (hw : Written env c n) :
    (first ≠ min (m * c.ds) t.size → resume env t first n = (.range, [.head f.1 f.2])) ∧
    (first = min (m * c.ds) t.size →
      (first + n < t.size → (resume env t first n).1 = .more (first + n) ∧ ∀ e ∈ (resume env t first n).2, e.early = true) ∧
      (first + n > t.size → (resume env t first n).1 = .exceeded ∧
        (∀ g ∈ t.files, .abort g.1 g.2 ∈ (resume env t first n).2) ∧
        ∀ e ∈ (resume env t first n).2, (∀ a i z, e ≠ .commit a i z) ∧ ∀ r, e ≠ .record r) ∧
      (first + n = t.size → Accepted env t →
        ((resume env t first n).1 = if env.commitOk then .done else .failed) ∧
        .record (t.rec_ c) ∈ (resume env t first n).2 ∧
        (∀ g ∈ t.files, .commit g.1 g.2 t.compress ∈ (resume env t first n).2) ∧
        ∀ e ∈ (resume env t first n).2, ∀ a i, e ≠ .abort a i) ∧
      (first + n = t.size → ¬ Accepted env t →
        (resume env t first n).1 ≠ .done ∧
        (∀ g ∈ t.files, .abort g.1 g.2 ∈ (resume env t first n).2) ∧
        ∀ e ∈ (resume env t first n).2, ∀ a i z, e ≠ .commit a i z)) := by
  have hcur : t.current c m = min (m * c.ds) t.size := by
    unfold Tok.current
    split <;> omega
  have hcopy := written_copy h hw
  have hce := (C92_copy h env n).2.2
  have hno := C92_commit h env n false hw
  have hyes := C92_commit h env n true hw
  have hds : ¬ c.ds = 0 := by have := h.ds; omega
  have hr : first = min (m * c.ds) t.size → resume env t first n =
      if first + n < t.size then (.more (first + n), .head f.1 f.2 :: (copyBody env t c n).2)
      else if first + n > t.size then
        ((commit env t c n false).1.or .exceeded .exceeded, .head f.1 f.2 :: ((copyBody env t c n).2 ++ (commit env t c n false).2))
      else ((finish env t c n).1, .head f.1 f.2 :: ((copyBody env t c n).2 ++ (finish env t c n).2)) := by
    intro he
    unfold resume
    rw [opened_sound h, hf]
    simp only [hh, hcur, he, ne_eq, not_true_eq_false, if_false, hcopy]
  have hnoeff : ∀ e ∈ (commit env t c n false).2, (∀ a i z, e ≠ .commit a i z) ∧ ∀ r, e ≠ .record r := by
    rw [hno.2]
    intro e he
    rcases List.mem_append.1 he with he | he
    · split at he
      · cases he
      · obtain ⟨g, -, rfl⟩ := List.mem_map.1 he
        exact ⟨by intros; simp, by intros; simp⟩
    · obtain ⟨g, -, rfl⟩ := List.mem_map.1 he
      exact ⟨by intros; simp, by intros; simp⟩
  have hnoab : ∀ g ∈ t.files, Eff.abort g.1 g.2 ∈ (commit env t c n false).2 := by
    rw [hno.2]
    intro g hg
    exact List.mem_append.2 (Or.inr (List.mem_map.2 ⟨g, hg, by simp⟩))
  refine ⟨?_, fun he => ⟨fun hl => ?_, fun hl => ?_, fun hl ha => ?_, fun hl ha => ?_⟩⟩
  · intro hne
    unfold resume
    rw [opened_sound h, hf]
    simp only [hh, hcur]
    rw [if_pos (fun hx => hne hx.symm)]
  · rw [hr he, if_pos hl]
    refine ⟨rfl, ?_⟩
    intro e hx
    rcases List.mem_cons.1 hx with rfl | hx
    · rfl
    · exact hce e hx
  · rw [hr he, if_neg (by omega), if_pos hl]
    refine ⟨by rw [hno.1]; rfl, ?_, ?_⟩
    · intro g hg
      exact List.mem_cons_of_mem _ (List.mem_append.2 (Or.inr (hnoab g hg)))
    · intro e hx
      rcases List.mem_cons.1 hx with rfl | hx
      · exact ⟨by intros; simp, by intros; simp⟩
      · rcases List.mem_append.1 hx with hx | hx
        · have := hce e hx
          revert this
          cases e <;> simp [Eff.early]
        · exact hnoeff e hx
  · rw [hr he, if_neg (by omega), if_neg (by omega)]
    obtain ⟨h1, h2, h3⟩ := ha
    obtain ⟨ro, hro⟩ := Option.isSome_iff_exists.1 h2
    have hfin : finish env t c n = ((commit env t c n true).1.or .done .failed, .record (t.rec_ c) :: (commit env t c n true).2) := by
      unfold finish
      rw [if_neg hds]
      dsimp only
      rw [if_neg (by rintro ⟨ha, hb⟩; exact hb (h1 ha)), hro]
      dsimp only
      rw [if_neg (by rw [h3]; decide)]
    rw [hfin]
    refine ⟨?_, ?_, ?_, ?_⟩
    · rw [hyes.1]
      cases env.commitOk <;> rfl
    · simp
    · intro g hg
      rw [hyes.2]
      refine List.mem_cons_of_mem _ (List.mem_append.2 (Or.inr (List.mem_cons_of_mem _ (List.mem_append.2 (Or.inr ?_)))))
      exact List.mem_map.2 ⟨g, hg, by simp⟩
    · intro e hx
      rcases List.mem_cons.1 hx with rfl | hx
      · intros; simp
      · rcases List.mem_append.1 hx with hx | hx
        · have := hce e hx
          revert this
          cases e <;> simp [Eff.early]
        · rcases List.mem_cons.1 hx with rfl | hx
          · intros; simp
          · rw [hyes.2] at hx
            rcases List.mem_append.1 hx with hx | hx
            · split at hx
              · cases hx
              · obtain ⟨g, -, rfl⟩ := List.mem_map.1 hx
                intros; simp
            · obtain ⟨g, -, rfl⟩ := List.mem_map.1 hx
              intros; simp
  · rw [hr he, if_neg (by omega), if_neg (by omega)]
    have hfin : ∃ a es, finish env t c n = ((commit env t c n false).1.or a a, es ++ (commit env t c n false).2) ∧ a ≠ .done ∧
        ∀ e ∈ es, ∃ r, e = .record r := by
      unfold finish
      rw [if_neg hds]
      dsimp only
      by_cases h1 : env.checksum = true ∧ env.sum ≠ t.hash
      · rw [if_pos h1]
        exact ⟨.forbidden, [], rfl, by simp, by simp⟩
      · rw [if_neg h1]
        cases hb : env.bucket t.bucket with
        | none => exact ⟨.failed, [], rfl, by simp, by simp⟩
        | some ro =>
          dsimp only
          have h3 : env.recOk = false := by
            cases h3 : env.recOk with
            | false => rfl
            | true =>
              refine absurd ⟨fun hx => ?_, by rw [hb]; rfl, h3⟩ ha
              rcases Decidable.em (env.sum = t.hash) with hs | hs
              · exact hs
              · exact absurd ⟨hx, hs⟩ h1
          rw [if_pos h3]
          exact ⟨.failed, [.record (t.rec_ c)], rfl, by simp, fun e hx => ⟨_, List.mem_singleton.1 hx⟩⟩
    obtain ⟨a, es, hfin, hnd, hes⟩ := hfin
    rw [hfin]
    refine ⟨?_, ?_, ?_⟩
    · rw [hno.1]
      exact hnd
    · intro g hg
      exact List.mem_cons_of_mem _ (List.mem_append.2 (Or.inr (List.mem_append.2 (Or.inr (hnoab g hg)))))
    · intro e hx
      rcases List.mem_cons.1 hx with rfl | hx
      · intros; simp
      · rcases List.mem_append.1 hx with hx | hx
        · have := hce e hx
          revert this
          cases e <;> simp [Eff.early]
        · rcases List.mem_append.1 hx with hx | hx
          · obtain ⟨r, rfl⟩ := hes e hx
            intros; simp
          · exact (hnoeff e hx).1

/-- **C92** If a full block cannot be written the PATCH fails; nothing is committed, removed or recorded, so that the upload can
go on. -/
theorem C92_not_written {t : Tok} {c : Conf} (h : Sound t c) (env : Env) (m : Int) (n : Nat) (f : Str × Str) (fs : List (Str × Str))
    (hf : t.files = f :: fs) (hh : env.head f.1 f.2 = some m) (hw : ∃ k, k * bsize c + bsize c ≤ n ∧ env.wr k = false) :
    (resume env t (min (m * c.ds) t.size) n).1 = .failed ∧
      ∀ e ∈ (resume env t (min (m * c.ds) t.size) n).2, e.early = true := by
  have hcur : t.current c m = min (m * c.ds) t.size := by
    unfold Tok.current
    split <;> omega
  obtain ⟨-, h1, h2⟩ := C92_copy h env n
  have h1 := h1 hw
  unfold resume
  rw [opened_sound h, hf]
  simp only [hh, hcur, h1, ne_eq, not_true_eq_false, if_false, reduceCtorEq, not_false_eq_true, if_true]
  refine ⟨rfl, ?_⟩
  intro e hx
  rcases List.mem_cons.1 hx with rfl | hx
  · rfl
  · exact h2 e hx

/-- **C92** A POST gives out a token exactly if the bucket can be written to, the object is not there yet, there are as many
servers as shards and all of them have made a file. -/
theorem C92_given_out (cx : Codec) (env : PostEnv) (r : Post) :
    (post cx env r).2.2.isSome = true ↔ (∃ comp, env.bucket = some (false, comp)) ∧ env.dup = none ∧ env.ids.isSome = true ∧
      env.ips ≠ [] ∧ env.conf.ds + env.conf.ps ≤ env.ips.length := by
  unfold post
  cases hb : env.bucket with
  | none => simp
  | some b =>
    obtain ⟨ro, comp⟩ := b
    cases ro with
    | true => simp
    | false =>
      simp only [Bool.false_eq_true, ↓reduceIte]
      cases hd : env.dup with
      | some l => simp
      | none =>
        cases hi : env.ids with
        | none => simp
        | some ids =>
          simp only
          by_cases hx : env.ips = [] ∨ (env.ips.length : Int) < env.conf.ds + env.conf.ps
          · rw [if_pos hx]
            simp only [Option.isSome_none, Bool.false_eq_true, false_iff]
            rintro ⟨-, -, -, h1, h2⟩
            rcases hx with hx | hx
            · exact h1 hx
            · omega
          · rw [if_neg hx]
            have h1 : env.ips ≠ [] := fun h => hx (Or.inl h)
            have h2 : env.conf.ds + env.conf.ps ≤ env.ips.length := by
              rcases Int.lt_or_le (env.ips.length : Int) (env.conf.ds + env.conf.ps) with h | h
              · exact absurd (Or.inr h) hx
              · exact h
            simp [h1, h2]

/-- **C92** With a sound configuration and an id for each shard such a token is sound. -/
theorem C92_given_sound (cx : Codec) (env : PostEnv) (r : Post) (t : Tok) (h : (post cx env r).2.2 = some t)
    (h1 : 0 < env.conf.ds) (h2 : 0 ≤ env.conf.ps) (h3 : 0 < env.conf.bps)
    (h4 : ∀ ids, env.ids = some ids → (ids.length : Int) = env.conf.ds + env.conf.ps) : Sound t env.conf := by
  obtain ⟨-, -, -, -, -, hs, hi, hc, -⟩ := (post_spec cx env r).2 t h
  have hg := (C92_given_out cx env r).1 (by rw [h]; rfl)
  refine ⟨hc, h1, h2, h3, h4 _ hi, ?_⟩
  have := h4 _ hi
  rw [hs]
  omega

theorem exTok_sound : Sound exTok ⟨2, 1, 2⟩ := by
  constructor <;> decide

/-- The cases of `C92_upload` occur: a part, the end, too much, a wrong digest, a wrong start. -/
example : (resume (exEnv 0 false true) exTok 0 3).1 = .more 3 ∧ (resume (exEnv 1 false true) exTok 2 2).1 = .done ∧
    (resume (exEnv 0 false true) exTok 0 5).1 = .exceeded ∧
    (resume { exEnv 0 false true with checksum := true } exTok 0 4).1 = .forbidden ∧
    (resume (exEnv 0 false true) exTok 1 3).1 = .range ∧ (resume (exEnv 0 false false) exTok 0 4).1 = .failed := by decide

example : Written (exEnv 0 false true) ⟨2, 1, 2⟩ 5 ∧ Accepted (exEnv 0 false true) exTok ∧
    ¬ Accepted { exEnv 0 false true with checksum := true } exTok := by
  refine ⟨fun _ _ => rfl, ⟨(fun h => by cases h), rfl, rfl⟩, fun h => ?_⟩
  exact absurd (h.1 rfl) (by decide)

end Verif.Api.Token
