import Verif.Util.DataSize

/-!
# Data sizes as text (C94)

Model of `DataSize.String` (src/common/datasize/datasize.go:50-59), which is how a size is written into
a configuration file or page (`MarshalYAML`, src/common/datasize/yaml_env.go:23-25), and its relation to
`Parse` (`Verif.DataSize.parse`), which reads it again (`UnmarshalYAML`, yaml_env.go:5-12).
-/

namespace Verif.Config

open Verif Verif.DataSize

/-- The nearest whole number to `a / u`, ties to the even one: `fmt.Sprintf("%.0f", …)`, datasize.go:58.
Simplification: `float64(d)` is taken as exact (it is below 2^53; above, the quotient is that of the nearest
number with 53 bits). -/
def roundDiv (a u : Nat) : Nat :=
  if 2 * (a % u) < u then a / u
  else if u < 2 * (a % u) then a / u + 1
  else if a / u % 2 = 0 then a / u else a / u + 1

/-- `units[i].name`, datasize.go:58, 74-81, for an index in range. -/
def unitName (i : Nat) : Str := ((units[i]?).map (·.1)).getD []

/-- `DataSize.String`, datasize.go:50-59; `none` is the panic of `units[i]` for a negative index.
`ix d` is the index of line 51, `int(math.Floor(math.Log(float64(d)) / math.Log(1024)))`. -/
def render (ix : Nat → Int) (d : Nat) : Option Str :=
  if ix d < 0 then none
  else if 6 ≤ ix d then
    some (fmtNat (roundDiv (d * 1024 ^ ((ix d).toNat - 5)) (1024 ^ 5)) ++ unitName 5)
  else some (fmtNat (roundDiv d (1024 ^ (ix d).toNat)) ++ unitName (ix d).toNat)

/-- What is assumed of the floating point expression of datasize.go:51: it is negative for 0 (the logarithm
is minus infinity, and its conversion the least int), and the exact logarithm except for sizes that
fall short of the next power of 1024 by less than one part in 2^30, where it may be one more. -/
structure FloatLog (ix : Nat → Int) : Prop where
  zero : ix 0 < 0
  exact : ∀ d k : Nat, d < 2 ^ 64 → 1024 ^ k ≤ d → d + d / 2 ^ 30 < 1024 ^ (k + 1) → ix d = k
  near : ∀ d k : Nat, d < 2 ^ 64 → 1024 ^ k ≤ d → d < 1024 ^ (k + 1) → ix d = k ∨ ix d = k + 1

/-- The exact logarithm, as an instance of the assumption. -/
def exactLog (d : Nat) : Int :=
  if d = 0 then -1 else if d < 1024 then 0 else if d < 1024 ^ 2 then 1 else if d < 1024 ^ 3 then 2
  else if d < 1024 ^ 4 then 3 else if d < 1024 ^ 5 then 4 else if d < 1024 ^ 6 then 5 else 6

theorem pow_mono {i j : Nat} (h : i ≤ j) : 1024 ^ i ≤ 1024 ^ j := Nat.pow_le_pow_right (by decide) h

theorem exactLog_eq {d k : Nat} (h0 : d < 2 ^ 64) (h1 : 1024 ^ k ≤ d) (h2 : d < 1024 ^ (k + 1)) :
    exactLog d = k := by
  have hk : k ≤ 6 := by
    rcases Nat.lt_or_ge 6 k with h | h
    · have := pow_mono h
      have : (1024 : Nat) ^ 7 ≤ 1024 ^ k := this
      omega
    · exact h
  unfold exactLog
  obtain rfl | rfl | rfl | rfl | rfl | rfl | rfl : k = 0 ∨ k = 1 ∨ k = 2 ∨ k = 3 ∨ k = 4 ∨ k = 5 ∨ k = 6 := by
    omega
  all_goals
    simp only [Nat.reducePow, Nat.reduceAdd] at h1 h2 ⊢
    grind

theorem floatLog_exactLog : FloatLog exactLog where
  zero := by decide
  exact := fun _ _ h0 h1 h2 => exactLog_eq h0 h1 (by omega)
  near := fun _ _ h0 h1 h2 => .inl (exactLog_eq h0 h1 h2)

/-! ## Lemmas -/

theorem roundDiv_dvd {a u : Nat} (hu : 0 < u) (h : u ∣ a) : roundDiv a u * u = a := by
  unfold roundDiv
  rw [Nat.mod_eq_zero_of_dvd h, if_pos (by omega), Nat.div_mul_cancel h]

/-- The rounded value is off by at most half a unit. -/
theorem roundDiv_near {a u : Nat} (hu : 0 < u) :
    2 * (roundDiv a u * u) ≤ 2 * a + u ∧ 2 * a ≤ 2 * (roundDiv a u * u) + u := by
  have h := Nat.div_add_mod a u
  have hm := Nat.mod_lt a hu
  have h' : a / u * u = u * (a / u) := Nat.mul_comm ..
  have h'' : (a / u + 1) * u = u * (a / u) + u := by rw [Nat.add_mul, h']; omega
  unfold roundDiv
  split
  · omega
  · split
    · omega
    · split <;> omega

theorem unitDoc_unitName {i : Nat} (h : i ≤ 5) : UnitDoc (unitName i) (1024 ^ i) := by
  match i, h with
  | 0, _ => decide
  | 1, _ => decide
  | 2, _ => decide
  | 3, _ => decide
  | 4, _ => decide
  | 5, _ => decide

theorem unitName_upper {i : Nat} (h : i ≤ 5) : (unitName i).map Char.toUpper = unitName i := by
  match i, h with
  | 0, _ => decide
  | 1, _ => decide
  | 2, _ => decide
  | 3, _ => decide
  | 4, _ => decide
  | 5, _ => decide

theorem denotes_text (n : Nat) {i : Nat} (h : i ≤ 5) : Denotes (fmtNat n ++ unitName i) n (1024 ^ i) :=
  ⟨fmtNat n, unitName i, rfl, fmtNat_ne_nil n, fun _ hc => fmtNat_isDigit hc, parseDigits_fmtNat n,
    .inr ⟨unitName i, unitDoc_unitName h, unitName_upper h⟩⟩

theorem parse_text {n i : Nat} (h : i ≤ 5) (hn : n < 2 ^ 63) (hp : i = 5 → n < 1024) :
    parse (fmtNat n ++ unitName i) = .ok (n * 1024 ^ i % 2 ^ 64) := by
  rw [parse_denotes (denotes_text n h), if_neg (by omega), if_neg]
  rintro ⟨h1, h2⟩
  have : i = 5 := by
    match i, h with
    | 0, _ => simp at h1
    | 1, _ => simp at h1
    | 2, _ => simp at h1
    | 3, _ => simp at h1
    | 4, _ => simp at h1
    | 5, _ => rfl
  have := hp this
  omega

theorem render_small {ix : Nat → Int} {d k : Nat} (h : ix d = k) (hk : k ≤ 5) :
    render ix d = some (fmtNat (roundDiv d (1024 ^ k)) ++ unitName k) := by
  unfold render
  rw [h, if_neg (by omega), if_neg (by omega)]
  rfl

/-- A number of units below 1024 is the exact index. -/
theorem index_of_units {ix : Nat → Int} (hix : FloatLog ix) {n k : Nat} (h1 : 1 ≤ n) (h2 : n < 1024) (hk : k ≤ 5) :
    ix (n * 1024 ^ k) = k := by
  have hp : 0 < 1024 ^ k := Nat.pow_pos (by decide)
  have hle : n * 1024 ^ k ≤ 1023 * 1024 ^ k := Nat.mul_le_mul_right _ (by omega)
  have h5 : (1024 : Nat) ^ k ≤ 1024 ^ 5 := pow_mono hk
  have hge : 1 * 1024 ^ k ≤ n * 1024 ^ k := Nat.mul_le_mul_right _ h1
  apply hix.exact
  · omega
  · omega
  · rw [Nat.pow_succ]; omega

/-! ## Properties -/

/-- **C94** A size of `n` units with `n` below 1024 is written so that exactly it is read again. -/
theorem C94_size_round_trip {ix : Nat → Int} (hix : FloatLog ix) {n k : Nat} (h1 : 1 ≤ n) (h2 : n < 1024) (hk : k ≤ 5) :
    ∃ t, render ix (n * 1024 ^ k) = some t ∧ Denotes t n (1024 ^ k) ∧ parse t = .ok (n * 1024 ^ k) := by
  have hp : 0 < 1024 ^ k := Nat.pow_pos (by decide)
  have h5 : (1024 : Nat) ^ k ≤ 1024 ^ 5 := pow_mono hk
  have hle : n * 1024 ^ k ≤ 1023 * 1024 ^ k := Nat.mul_le_mul_right _ (by omega)
  have hr : roundDiv (n * 1024 ^ k) (1024 ^ k) = n :=
    Nat.eq_of_mul_eq_mul_right hp (roundDiv_dvd hp ⟨n, Nat.mul_comm ..⟩)
  refine ⟨_, render_small (index_of_units hix h1 h2 hk) hk, ?_, ?_⟩
  · rw [hr]; exact denotes_text n hk
  · rw [hr, parse_text hk (by omega) (fun _ => h2), Nat.mod_eq_of_lt (by omega)]

example : (render exactLog (128 * 2 ^ 20)) = some "128MB".toList ∧
    (render exactLog (128 * 2 ^ 20)).map (fun t => match parse t with | .ok v => v | .error _ => 0) =
      some (128 * 2 ^ 20) := by decide

/-- **C94** Below 1024PB, what is read again is off by at most half a unit, the unit being the largest one that
is not larger than the size; it is right if and only if the size is a whole number of these units.
(Sizes just below a power of 1024 excepted.) -/
theorem C94_size_rounded {ix : Nat → Int} (hix : FloatLog ix) {d k : Nat} (hk : k ≤ 5) (h1 : 1024 ^ k ≤ d)
    (h2 : d + d / 2 ^ 30 < 1024 ^ (k + 1)) (h3 : 2 * d + 1024 ^ 5 < 2 * 1024 ^ 6) :
    ∃ t v, render ix d = some t ∧ parse t = .ok v ∧ 2 * v ≤ 2 * d + 1024 ^ k ∧ 2 * d ≤ 2 * v + 1024 ^ k ∧
      (v = d ↔ 1024 ^ k ∣ d) := by
  have hp : 0 < 1024 ^ k := Nat.pow_pos (by decide)
  have h5 : (1024 : Nat) ^ k ≤ 1024 ^ 5 := pow_mono hk
  have hn := roundDiv_near (a := d) hp
  have hlt : roundDiv d (1024 ^ k) * 1024 ^ k < 2 ^ 64 := by omega
  have hle : roundDiv d (1024 ^ k) ≤ roundDiv d (1024 ^ k) * 1024 ^ k := Nat.le_mul_of_pos_right _ hp
  refine ⟨_, roundDiv d (1024 ^ k) * 1024 ^ k, render_small (hix.exact d k (by omega) h1 h2) hk, ?_, hn.1, hn.2, ?_⟩
  · rw [parse_text hk (by omega), Nat.mod_eq_of_lt hlt]
    rintro rfl
    omega
  · constructor
    · intro h; exact ⟨_, by rw [Nat.mul_comm]; exact h.symm⟩
    · exact fun h => roundDiv_dvd hp h

/-- 1536MB is read again as 2GB. -/
example : (render exactLog (1536 * 2 ^ 20)) = some "2GB".toList := by decide

/-- **C94** The size 0 cannot be written: the code panics. -/
theorem C94_size_zero {ix : Nat → Int} (hix : FloatLog ix) : render ix 0 = none := by
  unfold render
  rw [if_pos hix.zero]

/-- **C94** Every other size can. -/
theorem C94_size_written {ix : Nat → Int} (hix : FloatLog ix) {d : Nat} (h0 : 0 < d) (h1 : d < 2 ^ 64) :
    ∃ t, render ix d = some t := by
  have : ∃ k, 1024 ^ k ≤ d ∧ d < 1024 ^ (k + 1) := by
    have hs : ∀ m, (∃ k, 1024 ^ k ≤ d ∧ d < 1024 ^ (k + 1)) ∨ 1024 ^ m ≤ d := by
      intro m
      induction m with
      | zero => exact .inr (by simp only [Nat.pow_zero]; omega)
      | succ m ih =>
        rcases ih with h | h
        · exact .inl h
        · rcases Nat.lt_or_ge d (1024 ^ (m + 1)) with h' | h'
          · exact .inl ⟨m, h, h'⟩
          · exact .inr h'
    rcases hs 7 with h | h
    · exact h
    · omega
  obtain ⟨k, h2, h3⟩ := this
  have hneg : ¬ ix d < 0 := by rcases hix.near d k h1 h2 h3 with h | h <;> omega
  unfold render
  rw [if_neg hneg]
  split <;> exact ⟨_, rfl⟩

/-- **C94** From 1024PB on the written text is refused by the parser. -/
theorem C94_size_unreadable {ix : Nat → Int} (hix : FloatLog ix) {d : Nat} (h1 : 2 ^ 60 ≤ d) (h2 : d < 2 ^ 64) :
    ∃ t, render ix d = some t ∧ parse t = .error .limit := by
  have hi : ix d = 6 := hix.exact d 6 h2 (by omega) (by omega)
  have hn := roundDiv_near (a := d * 1024) (u := 1024 ^ 5) (by decide)
  refine ⟨fmtNat (roundDiv (d * 1024) (1024 ^ 5)) ++ unitName 5, ?_, ?_⟩
  · unfold render
    rw [hi]
    rfl
  · rw [parse_denotes (denotes_text _ (by decide)), if_neg (by omega), if_pos ⟨by decide, by omega⟩]

example : render exactLog (2 ^ 60) = some "1048576PB".toList := by decide

end Verif.Config
