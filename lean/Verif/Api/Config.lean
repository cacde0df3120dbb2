import Verif.Common.Str

/-!
# Block sizes of the API server's configuration: C66

`Config.initialize`, src/apiserver/config/config.go:34-45.  Numbers are mathematical integers: overflow of Go's
64 bit integers is outside of the model.
-/

namespace Verif.Api

/-- `cst.OS.NetPkgSize`, src/common/cst/os_const.go:17. -/
def netPkgSize : Nat := 65536

/-- The size of a stripe: `RsConfig.BlockSize`, config.go:87-89. -/
def rsBlockSize (ds bps : Nat) : Nat := bps * ds

/-- The new `BlockPerShard`, config.go:36-40, for `ds` data shards. -/
def alignPerShard (ds bps : Nat) : Nat :=
  if 0 < rsBlockSize ds bps % netPkgSize then
    (rsBlockSize ds bps - rsBlockSize ds bps % netPkgSize + netPkgSize) / ds
  else bps

/-- The new `Replication.BlockSize`, config.go:41-44. -/
def alignReplica (b : Nat) : Nat :=
  if 0 < b % netPkgSize then b - b % netPkgSize + netPkgSize else b

/-- **C66**: the block size of copies becomes the smallest multiple of the packet size that is not smaller. -/
theorem C66_replica (b : Nat) :
    netPkgSize ∣ alignReplica b ∧ b ≤ alignReplica b ∧ ∀ c, netPkgSize ∣ c → b ≤ c → alignReplica b ≤ c := by
  unfold alignReplica netPkgSize
  split
  · refine ⟨by omega, by omega, fun c hc hb => by omega⟩
  · exact ⟨by omega, by omega, fun c _ hb => hb⟩

example : alignReplica 65537 = 131072 := by decide

/-- **C66**: the stripe never becomes smaller, and grows by less than a packet. -/
theorem C66_stripe_bounds (ds bps : Nat) (hds : 0 < ds) :
    bps ≤ alignPerShard ds bps ∧ rsBlockSize ds (alignPerShard ds bps) < rsBlockSize ds bps + netPkgSize := by
  unfold alignPerShard
  split
  · rename_i h
    have hp : 0 < netPkgSize := by decide
    have hlt : rsBlockSize ds bps % netPkgSize < netPkgSize := Nat.mod_lt _ hp
    have hle : rsBlockSize ds bps % netPkgSize ≤ rsBlockSize ds bps := Nat.mod_le _ _
    generalize hn : rsBlockSize ds bps - rsBlockSize ds bps % netPkgSize + netPkgSize = n
    constructor
    · rw [Nat.le_div_iff_mul_le hds]
      show rsBlockSize ds bps ≤ n
      omega
    · have : rsBlockSize ds (n / ds) ≤ n := Nat.div_mul_le_self n ds
      omega
  · exact ⟨Nat.le_refl _, by unfold netPkgSize; omega⟩

/-- **C66**, partial: the stripe becomes a multiple of the packet size if the number of data shards divides
the packet size (a power of two). -/
theorem C66_stripe_partial (ds bps : Nat) (hds : ds ∣ netPkgSize) :
    netPkgSize ∣ rsBlockSize ds (alignPerShard ds bps) := by
  unfold alignPerShard
  split
  · have h1 : netPkgSize ∣ rsBlockSize ds bps - rsBlockSize ds bps % netPkgSize + netPkgSize := by
      rw [← Nat.div_mul_self_eq_mod_sub_self]
      exact Nat.dvd_add (Nat.dvd_mul_left _ _) (Nat.dvd_refl _)
    show _ ∣ _ / ds * ds
    rw [Nat.div_mul_cancel (Nat.dvd_trans hds h1)]
    exact h1
  · rename_i h
    exact Nat.dvd_of_mod_eq_zero (by omega)

example : 4 ∣ netPkgSize ∧ rsBlockSize 4 (alignPerShard 4 20000) = 131072 := by decide

/-- **C66**, exactly: a stripe that is no multiple of the packet size becomes one if and only if the number of
data shards divides the next multiple. -/
theorem C66_stripe_iff (ds bps : Nat) (hds : 0 < ds) (hle : ds ≤ netPkgSize)
    (hm : 0 < rsBlockSize ds bps % netPkgSize) :
    netPkgSize ∣ rsBlockSize ds (alignPerShard ds bps) ↔
      ds ∣ rsBlockSize ds bps / netPkgSize * netPkgSize + netPkgSize := by
  unfold alignPerShard
  rw [if_pos hm, ← Nat.div_mul_self_eq_mod_sub_self]
  have h1 : netPkgSize ∣ rsBlockSize ds bps / netPkgSize * netPkgSize + netPkgSize :=
    Nat.dvd_add (Nat.dvd_mul_left _ _) (Nat.dvd_refl _)
  generalize rsBlockSize ds bps / netPkgSize * netPkgSize + netPkgSize = n at h1
  show _ ∣ n / ds * ds ↔ _
  constructor
  · intro h
    have h2 : netPkgSize ∣ n % ds := by
      have := Nat.div_add_mod' n ds
      exact (Nat.dvd_add_right h).1 (by rw [this]; exact h1)
    have h3 : n % ds < ds := Nat.mod_lt _ hds
    rcases Nat.eq_zero_or_pos (n % ds) with h4 | h4
    · exact Nat.dvd_of_mod_eq_zero h4
    · exact absurd (Nat.le_of_dvd h4 h2) (by omega)
  · intro h
    rw [Nat.div_mul_cancel h]; exact h1

/-- **C66** fails for three data shards and the default size: the "aligned" stripe is no multiple of the packet
size. -/
theorem C66_default_three_shards : ¬ netPkgSize ∣ rsBlockSize 3 (alignPerShard 3 16384) := by decide

end Verif.Api
