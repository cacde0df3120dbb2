import Verif.Object.RSFindings
import Verif.Api.Store

/-!
# The block size of resumable uploads: C64

A resumable upload is written with the configuration made by `Bucket.MakeConf`
(src/apiserver/internal/entity/metadata.go:103-118; the configuration is part of the token), and read like
every other object with the one made by `NewStreamProvider`
(src/apiserver/internal/usecase/service/object_service.go:250-263).
-/

namespace Verif.Api

open Verif Verif.Object

/-- `MakeConf`, metadata.go:103-118: the erasure coding configuration a resumable upload of `size` bytes is
written with.  Numbers of shards are natural numbers here. -/
def bigConfig (conf : RsConfig) (ecBucket : Option (Nat × Nat)) (size : Nat) : RsConfig :=
  match ecBucket with
  | some (ds, ps) =>
    let c : RsConfig := ⟨ds, ps, conf.blockPerShard⟩
    let i := c.blockSize % netPkgSize
    if i > 0 then ⟨ds, ps, min (c.blockSize - i + netPkgSize) size / ds⟩ else c
  | none => conf

/-- The configuration with which the version recorded at the end of the upload (big_api.go:183-191) is
read. -/
def readConfig (conf : RsConfig) (ecBucket : Option (Nat × Nat)) (size : Nat) : RsConfig :=
  streamConfig conf (bigConfig conf ecBucket size).dataShards (bigConfig conf ecBucket size).parityShards size

/-- **C64**: in a bucket that prescribes erasure coding, or when the configured block size is a multiple of
the packet size, a resumable upload is read with the configuration it was written with.  Missing for the full
property: other configurations (`C64_default_bucket_corrupts`). -/
theorem C64_same_config_partial (conf : RsConfig) (ecBucket : Option (Nat × Nat)) (size : Nat)
    (h : ecBucket.isSome = true ∨ conf.blockSize % netPkgSize = 0) :
    readConfig conf ecBucket size = bigConfig conf ecBucket size := by
  unfold readConfig
  cases ecBucket with
  | none =>
    have h0 : conf.blockSize % netPkgSize = 0 := by
      rcases h with h | h
      · cases h
      · exact h
    unfold bigConfig streamConfig
    simp only
    rw [if_neg (by show ¬ conf.blockSize % netPkgSize > 0; omega)]
  | some p =>
    obtain ⟨ds, ps⟩ := p
    unfold bigConfig
    simp only
    by_cases hc : (⟨ds, ps, conf.blockPerShard⟩ : RsConfig).blockSize % netPkgSize > 0
    · rw [if_pos hc]
      show streamConfig conf ds ps size = _
      unfold streamConfig
      simp only
      rw [if_pos hc]
    · rw [if_neg hc]
      show streamConfig conf ds ps size = _
      unfold streamConfig
      simp only
      rw [if_neg hc]

example : (bigConfig ⟨4, 2, 16384⟩ (some (3, 2)) 100000 = ⟨3, 2, 21845⟩) ∧
    readConfig ⟨4, 2, 16384⟩ (some (3, 2)) 100000 = ⟨3, 2, 21845⟩ ∧
    (⟨4, 2, 16384⟩ : RsConfig).blockSize % netPkgSize = 0 := by decide

/-! ## What goes wrong otherwise -/

/-- Three data shards without parity. -/
def plainRecon (s : List (Option Bytes)) : Except RsErr (List Bytes) :=
  match s with
  | [some a, some b, some c] =>
    if a.length = b.length ∧ b.length = c.length then .ok [a, b, c] else .error .shardSize
  | _ => .error .tooFewShards

/-- A code for three data shards and no parity shards. -/
def plainCode : Code 3 0 where
  parity := fun _ => []
  recon := plainRecon
  parity_shape := fun _ _ _ _ => ⟨rfl, fun x hx => by cases hx⟩
  recon_ok := by
    intro d L s hd _ hl he hp
    match d, hd with
    | [a, b, c], _ =>
      obtain ⟨h1, h2⟩ := he
      match s, h1 with
      | [x, y, z], _ =>
        have e0 := h2 0
        have e1 := h2 1
        have e2 := h2 2
        have ha := hl a (by simp)
        have hb := hl b (by simp)
        have hc := hl c (by simp)
        cases x <;> cases y <;> cases z <;> simp_all [presentCount, plainRecon]
  recon_few := by
    intro s hs
    unfold plainRecon
    split
    · simp [presentCount] at hs
    · exact ⟨_, rfl⟩
  recon_sizes := by
    intro s x y hx hy hne
    unfold plainRecon
    split
    · rename_i a b c
      rw [if_neg]
      · exact ⟨_, rfl⟩
      · rintro ⟨h1, h2⟩
        simp only [List.mem_cons, Option.some.injEq, List.not_mem_nil, or_false] at hx hy
        apply hne
        rcases hx with rfl | rfl | rfl <;> rcases hy with rfl | rfl | rfl <;> omega
    · exact ⟨_, rfl⟩

/-- The full statement of C64. -/
def SameConfig : Prop :=
  ∀ (conf : RsConfig) (ecBucket : Option (Nat × Nat)) (size : Nat),
    readConfig conf ecBucket size = bigConfig conf ecBucket size

/-- **C64 fails**: with three data shards the block size can not be a multiple of the packet size
(`initialize`, src/apiserver/config/config.go:34-45, makes it 65535); then a resumable upload into a bucket
without a prescribed strategy is written with blocks of 21845 bytes per shard, but read with smaller ones. -/
theorem C64_default_bucket : ¬ SameConfig := by
  intro h
  exact absurd (h ⟨3, 0, 21845⟩ none 4) (by decide)

/-- … and what is delivered is not what was uploaded, without any error: the four bytes 1 2 3 4 come back as
1 3 0 2. -/
theorem C64_default_bucket_corrupts :
    bigConfig ⟨3, 0, 21845⟩ none 4 = ⟨3, 0, 21845⟩ ∧ readConfig ⟨3, 0, 21845⟩ none 4 = ⟨3, 0, 1⟩ ∧
    (upload ⟨3, 0, 21845⟩ plainCode [[1, 2, 3, 4]]).map (fun files =>
      (files, Verif.Object.received (Dec.reads ⟨3, 0, 1⟩ plainCode 4 (List.replicate 5 (8, fun _ => false))
        (.init (files.map some))).1)) = some ([[1, 2], [3, 4], [0, 0]], [1, 3, 0, 2]) := by decide

end Verif.Api
