import Mathlib.Algebra.Order.Floor.Defs
import Mathlib.Data.Rat.Floor
import Mathlib.Tactic.Linarith
import Mathlib.Tactic.FieldSimp
import Mathlib.Tactic.Positivity

/-!
# Slice and arithmetic helpers: C58

src/common/util/slices/slices.go and src/common/util/math/math.go.  Slices are lists with capacity equal to
their length; a run time panic is `none`.
-/

namespace Verif.Slices

variable {α : Type}

/-! ## Fill -/

/-- Go's `copy(dst, src)`: `dst` afterwards. -/
def goCopy (dst src : List α) : List α := src.take dst.length ++ dst.drop src.length

/-- The loop of `Fill` and `FillPattern`, slices.go:25-27 and 38-40, with fuel. -/
def fillLoop : Nat → Nat → List α → List α
  | 0, _, arr => arr
  | fuel + 1, j, arr =>
    if j < arr.length then fillLoop fuel (j * 2) (arr.take j ++ goCopy (arr.drop j) (arr.take j)) else arr

/-- `Fill`, slices.go:17-28. -/
def fill (arr : List α) (v : α) : List α :=
  match arr with
  | [] => []
  | _ :: rest => fillLoop (rest.length + 1) 1 (v :: rest)

/-- `FillPattern`, slices.go:30-41. -/
def fillPattern (arr pattern : List α) : List α :=
  if arr = [] ∨ pattern = [] then arr else fillLoop arr.length pattern.length (goCopy arr pattern)

theorem goCopy_length (dst src : List α) : (goCopy dst src).length = dst.length := by
  simp [goCopy]; omega

/-- The elements up to `j` repeat with period `p`. -/
def Periodic (pattern : List α) (j : Nat) (arr : List α) : Prop :=
  ∀ i, i < j → i < arr.length → arr[i]? = pattern[i % pattern.length]?

theorem fillLoop_spec (pattern : List α) (fuel j : Nat) (arr : List α)
    (hdvd : pattern.length ∣ j) (hj : 0 < j) (hf : arr.length < j + fuel) (hper : Periodic pattern j arr) :
    (fillLoop fuel j arr).length = arr.length ∧ Periodic pattern (arr.length) (fillLoop fuel j arr) := by
  induction fuel generalizing j arr with
  | zero => exact ⟨rfl, fun i hi hl => hper i (by omega) hl⟩
  | succ fuel ih =>
    unfold fillLoop
    split
    · rename_i hlt
      have hlen : (arr.take j ++ goCopy (arr.drop j) (arr.take j)).length = arr.length := by
        simp [goCopy_length]; omega
      have := ih (j * 2) (arr.take j ++ goCopy (arr.drop j) (arr.take j)) (Dvd.dvd.mul_right hdvd 2) (by omega)
        (by rw [hlen]; omega) ?_
      · rw [hlen] at this; exact this
      · intro i hi hl
        rw [hlen] at hl
        by_cases hij : i < j
        · rw [List.getElem?_append_left (by simp; omega), List.getElem?_take_of_lt hij]
          exact hper i hij hl
        · have e1 : (arr.take j).length = j := by simp; omega
          rw [List.getElem?_append_right (by omega), e1]
          unfold goCopy
          rw [List.getElem?_append_left (by simp; omega), List.getElem?_take_of_lt (by simp; omega),
            List.getElem?_take_of_lt (by omega), hper (i - j) (by omega) (by omega)]
          congr 1
          obtain ⟨q, rfl⟩ := hdvd
          rw [← Nat.add_mul_mod_self_left (i - pattern.length * q) pattern.length q]
          congr 1; omega
    · exact ⟨rfl, fun i hi hl => hper i (by omega) hl⟩

/-- **C58**: `Fill` sets every element, whatever the length. -/
theorem C58_fill (arr : List α) (v : α) : fill arr v = List.replicate arr.length v := by
  cases arr with
  | nil => rfl
  | cons x rest =>
    obtain ⟨h1, h2⟩ := fillLoop_spec [v] (rest.length + 1) 1 (v :: rest) (Nat.dvd_refl _) (by simp)
      (by simp) (by
        intro i hi _
        have : i = 0 := by omega
        subst this; rfl)
    unfold fill
    simp only
    apply List.ext_getElem?
    intro i
    by_cases hi : i < rest.length + 1
    · rw [h2 i (by simpa using hi) (by rw [h1]; simpa using hi)]
      simp [hi, Nat.mod_one]
    · rw [List.getElem?_eq_none (by rw [h1]; simp; omega), List.getElem?_eq_none (by simp; omega)]

example : fill [1, 2, 3, 4, 5, 6, 7] 0 = [0, 0, 0, 0, 0, 0, 0] := by decide

/-- **C58**: `FillPattern` repeats the pattern over the whole slice. -/
theorem C58_fill_pattern (arr pattern : List α) (hp : pattern ≠ []) :
    (fillPattern arr pattern).length = arr.length ∧
      ∀ i, i < arr.length → (fillPattern arr pattern)[i]? = pattern[i % pattern.length]? := by
  have hpl : 0 < pattern.length := List.length_pos_iff.2 hp
  unfold fillPattern
  by_cases ha : arr = []
  · subst ha; simp
  · rw [if_neg (by simp [ha, hp])]
    obtain ⟨h1, h2⟩ := fillLoop_spec pattern arr.length pattern.length (goCopy arr pattern)
      (Nat.dvd_refl _) hpl (by rw [goCopy_length]; omega) (by
        intro i hi hl
        rw [goCopy_length] at hl
        unfold goCopy
        rw [List.getElem?_append_left (by simp; omega), List.getElem?_take_of_lt hl, Nat.mod_eq_of_lt hi])
    rw [goCopy_length] at h1 h2
    exact ⟨h1, fun i hi => h2 i hi (by rw [h1]; exact hi)⟩

example : fillPattern [9, 9, 9, 9, 9, 9, 9, 9] [1, 2, 3] = [1, 2, 3, 1, 2, 3, 1, 2] := by decide

/-! ## Extremal element -/

/-- `ExtremalIndex`, slices.go:67-75: the loop from position `i` on. -/
def extremalLoop (fn : α → α → Bool) (arr : List α) : Nat → Nat → Nat → Nat
  | 0, _, ex => ex
  | fuel + 1, i, ex =>
    match arr[ex]?, arr[i]? with
    | some e, some c => extremalLoop fn arr fuel (i + 1) (if fn e c then i else ex)
    | _, _ => ex

def extremalIndex (fn : α → α → Bool) (arr : List α) : Nat := extremalLoop fn arr arr.length 0 0

/-- `Extremal`, slices.go:77-79; `none`: index out of range. -/
def extremal (fn : α → α → Bool) (arr : List α) : Option α := arr[extremalIndex fn arr]?

theorem extremalLoop_spec (fn : α → α → Bool) (arr : List α) (hirr : ∀ a, fn a a = false)
    (htr : ∀ a b c, fn a b = true → fn b c = true → fn a c = true) (fuel i ex : Nat) (hf : arr.length ≤ i + fuel)
    (hex : ex < arr.length)
    (hinv : ∀ (j : Nat) (e c : α), j < i → arr[ex]? = some e → arr[j]? = some c → fn e c = false) :
    ∃ e, arr[extremalLoop fn arr fuel i ex]? = some e ∧ ∀ c ∈ arr, fn e c = false := by
  induction fuel generalizing i ex with
  | zero =>
    refine ⟨arr[ex], by simp [extremalLoop, hex], fun c hc => ?_⟩
    obtain ⟨j, hj, rfl⟩ := List.getElem_of_mem hc
    exact hinv j _ _ (by omega) (List.getElem?_eq_getElem hex) (List.getElem?_eq_getElem hj)
  | succ fuel ih =>
    unfold extremalLoop
    rw [List.getElem?_eq_getElem hex]
    by_cases hi : i < arr.length
    · rw [List.getElem?_eq_getElem hi]
      simp only
      by_cases hfn : fn arr[ex] arr[i] = true
      · rw [if_pos hfn]
        refine ih (i + 1) i (by omega) hi ?_
        intro j e c hj he hc
        rw [List.getElem?_eq_getElem hi] at he
        have he' := Option.some.inj he
        subst he'
        rcases Nat.lt_succ_iff_lt_or_eq.1 hj with hj | hj
        · cases hec : fn arr[i] c with
          | false => rfl
          | true =>
            have := hinv j _ c hj (List.getElem?_eq_getElem hex) hc
            rw [htr _ _ _ hfn hec] at this
            exact this
        · subst hj
          rw [List.getElem?_eq_getElem hi] at hc
          rw [← Option.some.inj hc]
          exact hirr _
      · rw [if_neg hfn]
        refine ih (i + 1) ex (by omega) hex ?_
        intro j e c hj he hc
        rcases Nat.lt_succ_iff_lt_or_eq.1 hj with hj | hj
        · exact hinv j e c hj he hc
        · subst hj
          rw [List.getElem?_eq_getElem hi] at hc
          rw [List.getElem?_eq_getElem hex] at he
          rw [← Option.some.inj hc, ← Option.some.inj he]
          simpa using hfn
    · rw [show arr[i]? = none from List.getElem?_eq_none (by omega)]
      refine ⟨arr[ex], List.getElem?_eq_getElem hex, fun c hc => ?_⟩
      obtain ⟨j, hj, rfl⟩ := List.getElem_of_mem hc
      exact hinv j _ _ (by omega) (List.getElem?_eq_getElem hex) (List.getElem?_eq_getElem hj)

/-- **C58**: for any strict order `fn e c` ("`c` is better than `e`") and any slice that is not empty,
`ExtremalIndex` is the position of an element such that none is better. -/
theorem C58_extremal (fn : α → α → Bool) (arr : List α) (hne : arr ≠ []) (hirr : ∀ a, fn a a = false)
    (htr : ∀ a b c, fn a b = true → fn b c = true → fn a c = true) :
    ∃ e, extremal fn arr = some e ∧ e ∈ arr ∧ ∀ c ∈ arr, fn e c = false := by
  obtain ⟨e, h1, h2⟩ := extremalLoop_spec fn arr hirr htr arr.length 0 0 (by omega)
    (List.length_pos_iff.2 hne) (by intro j e c hj; omega)
  exact ⟨e, h1, List.mem_of_getElem? h1, h2⟩

example : extremalIndex (fun e c : Nat => decide (c < e)) [5, 3, 4, 1, 1, 2] = 3 := by decide

/-- `Extremal` of an empty slice panics. -/
theorem C58_extremal_empty (fn : α → α → Bool) : extremal fn [] = none := rfl

/-! ## Searching and replacing -/

/-- `Search`, slices.go:81-88. -/
def search [DecidableEq α] : List α → α → Nat → Int
  | [], _, _ => -1
  | v :: rest, target, i => if v = target then i else search rest target (i + 1)

/-- `StringsReplace`, slices.go:7-15: the slice afterwards and the result. -/
def replaceFirst [DecidableEq α] : List α → α → α → List α × Bool
  | [], _, _ => ([], false)
  | a :: rest, origin, target =>
    if a = origin then (target :: rest, true)
    else
      let r := replaceFirst rest origin target
      (a :: r.1, r.2)

/-- **C58**: `Search` finds the first position of the element, and -1 if there is none. -/
theorem C58_search [DecidableEq α] (arr : List α) (t : α) :
    (t ∉ arr ∧ search arr t 0 = -1) ∨
      ∃ pre post, arr = pre ++ t :: post ∧ t ∉ pre ∧ search arr t 0 = (pre.length : Int) := by
  have key : ∀ (arr : List α) (i : Nat), (t ∉ arr ∧ search arr t i = -1) ∨
      ∃ pre post, arr = pre ++ t :: post ∧ t ∉ pre ∧ search arr t i = ((i + pre.length : Nat) : Int) := by
    intro arr
    induction arr with
    | nil => intro i; exact Or.inl ⟨by simp, rfl⟩
    | cons v rest ih =>
      intro i
      unfold search
      by_cases hv : v = t
      · subst hv
        exact Or.inr ⟨[], rest, rfl, by simp, by simp⟩
      · rw [if_neg hv]
        rcases ih (i + 1) with ⟨h1, h2⟩ | ⟨pre, post, h1, h2, h3⟩
        · exact Or.inl ⟨by simp [h1, Ne.symm hv], h2⟩
        · refine Or.inr ⟨v :: pre, post, by simp [h1], by simp [h2, Ne.symm hv], ?_⟩
          rw [h3]; simp; omega
  simpa using key arr 0

example : search [7, 8, 9, 8] 8 0 = 1 ∧ search [7, 8, 9] 5 0 = -1 := by decide

/-- **C58**: `StringsReplace` replaces the first occurrence and nothing else. -/
theorem C58_replace [DecidableEq α] (arr : List α) (a b : α) :
    (a ∉ arr ∧ replaceFirst arr a b = (arr, false)) ∨
      ∃ pre post, arr = pre ++ a :: post ∧ a ∉ pre ∧ replaceFirst arr a b = (pre ++ b :: post, true) := by
  induction arr with
  | nil => exact Or.inl ⟨by simp, rfl⟩
  | cons v rest ih =>
    by_cases hv : v = a
    · subst hv
      exact Or.inr ⟨[], rest, rfl, by simp, by simp [replaceFirst]⟩
    · rcases ih with ⟨h1, h2⟩ | ⟨pre, post, h1, h2, h3⟩
      · exact Or.inl ⟨by simp [h1, Ne.symm hv], by simp [replaceFirst, hv, h2]⟩
      · exact Or.inr ⟨v :: pre, post, by simp [h1], by simp [h2, Ne.symm hv], by simp [replaceFirst, hv, h3]⟩

example : replaceFirst [1, 2, 3, 2] 2 9 = ([1, 9, 3, 2], true) := by decide

/-! ## Indices that count from the end -/

/-- `LogicMod`, math.go:5-10 (`%` truncates towards zero); `none`: division by zero. -/
def logicMod (a b : Int) : Option Int :=
  if b = 0 then none else if a < 0 ∨ b < 0 then some (b + a.tmod b) else some (a.tmod b)

/-- **C58**: for a positive modulus `LogicMod` is the remainder between 0 and `b - 1`, except for negative
multiples of `b`, for which it is `b`. -/
theorem C58_logic_mod_partial (a b : Int) (hb : 0 < b) :
    logicMod a b = some (if a < 0 ∧ b ∣ a then b else a % b) := by
  unfold logicMod
  rw [if_neg (by omega)]
  by_cases ha : a < 0
  · rw [if_pos (Or.inl ha)]
    by_cases hd : b ∣ a
    · rw [if_pos ⟨ha, hd⟩, Int.tmod_eq_zero_of_dvd hd]; simp
    · rw [if_neg (by tauto)]
      congr 1
      have h1 : a.tmod b = a % b - b := by
        rw [Int.tmod_eq_emod]
        have : ¬ (0 ≤ a ∨ b ∣ a) := by omega
        rw [if_neg this]
        rw [show ((b.natAbs : Nat) : Int) = b by omega]
      omega
  · rw [if_neg (by omega), if_neg (by tauto)]
    congr 1
    rw [Int.tmod_eq_emod_of_nonneg (by omega)]

example : logicMod (-2) 7 = some 5 ∧ logicMod 9 7 = some 2 ∧ logicMod (-8) 3 = some 1 := by decide

/-- The full statement: the modular index stays in range. -/
def ModInRange : Prop := ∀ a b : Int, 0 < b → ∃ r, logicMod a b = some r ∧ 0 ≤ r ∧ r < b

/-- **C58 fails**: `LogicMod(-3, 3)` is 3. -/
theorem C58_logic_mod_out_of_range : ¬ ModInRange := by
  intro h
  obtain ⟨r, h1, _, h3⟩ := h (-3) 3 (by decide)
  rw [show logicMod (-3) 3 = some 3 by decide] at h1
  cases h1
  exact absurd h3 (by decide)

/-- One bound of `SafeChunk`, slices.go:99-109. -/
def bound (x len : Int) : Option Int :=
  if x < 0 then logicMod x len else if x ≥ len then some (len - 1) else some x

/-- `SafeChunk`, slices.go:94-116; `none`: panic. -/
def safeChunk (arr : List α) (start end_ : Int) : Option (List α) :=
  match bound start arr.length, bound end_ arr.length with
  | some s, some e =>
    let lo := min s e
    let hi := max s e
    if 0 ≤ lo ∧ hi + 1 ≤ arr.length then some ((arr.take (hi + 1).toNat).drop lo.toNat) else none
  | _, _ => none

/-- The position meant by a bound: negative numbers count from the end, numbers that are too large mean the
last element. -/
def position (x len : Int) : Int := if x < 0 then x % len else min x (len - 1)

theorem bound_position (x len : Int) (hl : 0 < len) (hx : ¬ (x < 0 ∧ len ∣ x)) :
    bound x len = some (position x len) ∧ 0 ≤ position x len ∧ position x len < len := by
  unfold bound position
  by_cases h : x < 0
  · rw [if_pos h, if_pos h, C58_logic_mod_partial x len hl, if_neg hx]
    exact ⟨rfl, Int.emod_nonneg _ (by omega), Int.emod_lt_of_pos _ hl⟩
  · rw [if_neg h, if_neg h]
    by_cases h2 : x ≥ len
    · rw [if_pos h2]; exact ⟨by congr 1; omega, by omega, by omega⟩
    · rw [if_neg h2]; exact ⟨by congr 1; omega, by omega, by omega⟩

/-- **C58**: `SafeChunk` returns the elements between its two positions, both included and in either order,
unless a bound is a negative multiple of the length.  Missing for the full property: these bounds and the
empty slice (`C58_safe_chunk_panics`). -/
theorem C58_safe_chunk_partial (arr : List α) (start end_ : Int) (hne : arr ≠ [])
    (hs : ¬ (start < 0 ∧ (arr.length : Int) ∣ start)) (he : ¬ (end_ < 0 ∧ (arr.length : Int) ∣ end_)) :
    ∃ c, safeChunk arr start end_ = some c ∧
      ∀ i : Nat, c[i]? =
        (if (min (position start arr.length) (position end_ arr.length) + i : Int) ≤
            max (position start arr.length) (position end_ arr.length)
          then arr[(min (position start arr.length) (position end_ arr.length)).toNat + i]? else none) := by
  have hl : (0 : Int) < arr.length := by
    have := List.length_pos_iff.2 hne; omega
  obtain ⟨b1, p1, q1⟩ := bound_position start arr.length hl hs
  obtain ⟨b2, p2, q2⟩ := bound_position end_ arr.length hl he
  generalize position start arr.length = s at *
  generalize position end_ arr.length = e at *
  unfold safeChunk
  rw [b1, b2]
  simp only
  rw [if_pos (by omega)]
  refine ⟨_, rfl, fun i => ?_⟩
  rw [List.getElem?_drop]
  by_cases hi : (min s e + i : Int) ≤ max s e
  · rw [if_pos hi, List.getElem?_take_of_lt (by omega)]
  · rw [if_neg hi, List.getElem?_take, if_neg (by omega)]

example : safeChunk [0, 1, 2, 3, 4, 5, 6] 2 (-2) = some [2, 3, 4, 5] ∧ safeChunk [0, 1, 2] 5 1 = some [1, 2] := by
  decide

/-- **C58 fails**: counting back exactly to the first element panics, and so does an empty slice. -/
theorem C58_safe_chunk_panics :
    safeChunk [10, 11, 12] (-3) (-1) = none ∧ safeChunk ([] : List Nat) 0 0 = none := by decide

/-! ## Minimum, maximum -/

/-- `MinInt`, math.go:30-35 (and `MinNumber`). -/
def minInt (i j : Int) : Int := if i < j then i else j
/-- `MaxInt`, math.go:37-42 (and `MaxNumber`, which compares the other way round). -/
def maxInt (i j : Int) : Int := if i < j then j else i

theorem C58_min_max (i j : Int) : minInt i j = min i j ∧ maxInt i j = max i j := by
  unfold minInt maxInt; omega

example : minInt 3 (-2) = -2 ∧ maxInt 3 (-2) = 3 := by decide

/-! ## Division rounded up -/

/-- `CeilDiv`, math.go:19-21.  `fl` is the rounding of float64 operations and conversions. -/
def ceilDiv (fl : ℚ → ℚ) (a b : Int) : Int := ⌈fl (fl a / fl b)⌉

/-- What is used of float64: integers up to 2^53 are exact, and the relative error of a result is at most
2^-53. -/
structure Float64 (fl : ℚ → ℚ) : Prop where
  exact_ : ∀ n : Int, |(n : ℚ)| ≤ 2 ^ 53 → fl n = n
  err : ∀ x : ℚ, |fl x - x| ≤ |x| / 2 ^ 53

/-- **C58**: for `0 ≤ a < 2^53` and `0 < b ≤ 2^53` the result of `CeilDiv` is the quotient rounded up.
Missing for the full property: larger numbers (`C58_ceil_div_large`). -/
theorem C58_ceil_div_partial (fl : ℚ → ℚ) (h : Float64 fl) (a b : Int) (ha : 0 ≤ a) (ha2 : a < 2 ^ 53)
    (hb : 0 < b) (hb2 : b ≤ 2 ^ 53) : ceilDiv fl a b = (a + b - 1) / b := by
  have hbq : (0 : ℚ) < b := by exact_mod_cast hb
  have haq : (0 : ℚ) ≤ a := by exact_mod_cast ha
  have haq2 : (a : ℚ) < 2 ^ 53 := by exact_mod_cast ha2
  have hbq2 : (b : ℚ) ≤ 2 ^ 53 := by exact_mod_cast hb2
  unfold ceilDiv
  rw [h.exact_ a (by rw [abs_of_nonneg haq]; exact le_of_lt haq2),
    h.exact_ b (by rw [abs_of_pos hbq]; exact hbq2)]
  -- the quotient `q` rounded up
  obtain ⟨q, hq⟩ : ∃ q, q = (a + b - 1) / b := ⟨_, rfl⟩
  rw [← hq]
  have hq1 : q * b ≤ a + b - 1 := by rw [hq]; exact Int.ediv_mul_le _ (by omega)
  have hq2 : a + b - 1 < (q + 1) * b := by
    rw [hq]
    exact Int.lt_mul_of_ediv_lt hb (by omega)
  by_cases hd : q * b = a
  · have hx : (a : ℚ) / b = ((q : Int) : ℚ) := by
      rw [← hd]; push_cast; field_simp
    have hq0 : 0 ≤ q := by
      rcases lt_or_ge q 0 with hneg | hpos
      · nlinarith
      · exact hpos
    rw [hx, h.exact_ q]
    · exact Int.ceil_intCast q
    · have : (q : ℚ) ≤ 2 ^ 53 := by
        have h1 : q ≤ a := by nlinarith
        have : (q : ℚ) ≤ a := by exact_mod_cast h1
        linarith
      rw [abs_of_nonneg (by exact_mod_cast hq0)]
      exact this
  · have hlt : a < q * b := by
      rcases lt_trichotomy (q * b) a with h1 | h1 | h1
      · nlinarith
      · exact absurd h1 hd
      · exact h1
    have hgt : (q - 1) * b < a := by nlinarith
    -- `(q-1) + 1/b ≤ a/b ≤ q - 1/b`, and the error is smaller than `1/b`
    have e := h.err ((a : ℚ) / b)
    have hxn : (0 : ℚ) ≤ (a : ℚ) / b := by positivity
    rw [abs_of_nonneg hxn] at e
    have hlow : ((q : ℚ) - 1) + 1 / b ≤ (a : ℚ) / b := by
      have : ((q - 1) * b + 1 : Int) ≤ a := by omega
      have h2 : ((q : ℚ) - 1) * b + 1 ≤ a := by exact_mod_cast this
      rw [le_div_iff₀ hbq, add_mul, one_div, inv_mul_cancel₀ (ne_of_gt hbq)]
      exact h2
    have hup : (a : ℚ) / b ≤ (q : ℚ) - 1 / b := by
      have : (a : Int) + 1 ≤ q * b := by omega
      have h2 : (a : ℚ) + 1 ≤ q * b := by exact_mod_cast this
      rw [div_le_iff₀ hbq, sub_mul, one_div, inv_mul_cancel₀ (ne_of_gt hbq)]
      linarith
    have herr : (a : ℚ) / b / 2 ^ 53 < 1 / b := by
      rw [div_div, div_lt_div_iff₀ (by positivity) hbq]
      nlinarith
    have h3 := abs_le.1 e
    rw [Int.ceil_eq_iff]
    constructor
    · linarith [h3.1]
    · linarith [h3.2]

/-- Rounding to float64 of a natural number: 53 significant bits, ties to even. -/
def f64Nat (n : Nat) : Nat :=
  let e := Nat.log2 n - 52
  let m := n / 2 ^ e
  let r := n % 2 ^ e
  (if 2 * r > 2 ^ e ∨ (2 * r = 2 ^ e ∧ m % 2 = 1) then m + 1 else m) * 2 ^ e

/-- **C58 fails** for large numbers: dividing `2^53 + 1` by one gives `2^53`, rounded down. -/
theorem C58_ceil_div_large (fl : ℚ → ℚ) (h : ∀ n : Nat, fl (n : ℚ) = (f64Nat n : ℚ)) :
    ceilDiv fl (2 ^ 53 + 1) 1 = 2 ^ 53 := by
  have h1 : fl (((2 ^ 53 + 1 : Int)) : ℚ) = ((2 ^ 53 : Nat) : ℚ) := by
    have := h (2 ^ 53 + 1)
    rw [show f64Nat (2 ^ 53 + 1) = 2 ^ 53 by decide] at this
    rw [← this]
    congr 1
  have h2 : fl (((1 : Int)) : ℚ) = ((1 : Nat) : ℚ) := by
    have := h 1
    rw [show f64Nat 1 = 1 by decide] at this
    rw [← this]
    congr 1
  unfold ceilDiv
  rw [h1, h2]
  have h3 : fl (((2 ^ 53 : Nat) : ℚ) / ((1 : Nat) : ℚ)) = ((2 ^ 53 : Nat) : ℚ) := by
    rw [Nat.cast_one, div_one, h (2 ^ 53), show f64Nat (2 ^ 53) = 2 ^ 53 by decide]
  rw [h3]
  exact Int.ceil_natCast _

/-- Rounding exactly is allowed by the contract; so is every rounding to nearest. -/
example : Float64 id ∧ ceilDiv id 7 2 = 4 := by
  refine ⟨⟨fun _ _ => rfl, fun x => by simp; positivity⟩, ?_⟩
  unfold ceilDiv
  simp only [id]
  rw [Int.ceil_eq_iff]
  norm_num

end Verif.Slices
