import Verif.Common.Str

/-!
# Human readable data sizes (C12)

Model of src/common/datasize/datasize.go.  `DataSize.String` (lines 50-59) works with floating
point logarithms and is not modelled.
-/

namespace Verif.DataSize

open Verif

/-- `units`, datasize.go:74-81. -/
def units : List (Str × Nat) :=
  [("B".toList, 1), ("KB".toList, 2 ^ 10), ("MB".toList, 2 ^ 20), ("GB".toList, 2 ^ 30),
   ("TB".toList, 2 ^ 40), ("PB".toList, 2 ^ 50)]

/-- `unitNameMap[name]`, datasize.go:83-89. -/
def unitValue (name : Str) : Option Nat := (units.find? fun u => u.1 = name).map (·.2)

/-- `suffixRegex.FindAllStringSubmatch(s, 1)` for `^(\d+)(B|KB|MB|GB|TB|PB)?$`, datasize.go:11, 93:
the digits and the unit (possibly empty). -/
def suffixMatch (s : Str) : Option (Str × Str) :=
  let d := s.takeWhile Char.isDigit
  let u := s.dropWhile Char.isDigit
  if d = [] then none
  else if u = [] ∨ (unitValue u).isSome then some (d, u)
  else none

inductive Err
  | format   -- the text does not match
  | atoi     -- the number does not fit an int
  | limit    -- 1024PB or more
  | unit     -- unknown unit (unreachable, the regexp admits known units only)
  deriving DecidableEq, Repr

/-- `IsExceedLimit(num, unit)`, datasize.go:123-125. -/
def isExceedLimit (num : Nat) (unit : Nat) : Bool := unit = 2 ^ 50 && 1024 ≤ num

/-- `Parse(s)`, datasize.go:91-112.  `strings.ToUpper` is modelled on ASCII letters; no other
letter is mapped to one of the letters of the units.  The product is a uint64 product. -/
def parse (s : Str) : Except Err Nat :=
  match suffixMatch (s.map Char.toUpper) with
  | none => .error .format
  | some (d, u) =>
    match atoi d with
    | none => .error .atoi
    | some num =>
      if u = [] then .ok num.toNat
      else
        match unitValue u with
        | none => .error .unit
        | some v => if isExceedLimit num.toNat v then .error .limit else .ok (num.toNat * v % 2 ^ 64)

/-! ## Specification -/

/-- The documented units: powers of 1024. -/
def UnitDoc (name : Str) (u : Nat) : Prop :=
  (name = ['B'] ∧ u = 1) ∨ (name = ['K', 'B'] ∧ u = 1024) ∨ (name = ['M', 'B'] ∧ u = 1024 ^ 2) ∨
  (name = ['G', 'B'] ∧ u = 1024 ^ 3) ∨ (name = ['T', 'B'] ∧ u = 1024 ^ 4) ∨
  (name = ['P', 'B'] ∧ u = 1024 ^ 5)

instance (name : Str) (u : Nat) : Decidable (UnitDoc name u) := by
  unfold UnitDoc; infer_instance

/-- The documented syntax: `s` is a number followed by an optional unit, in any letter case, and
denotes `n * u` bytes. -/
def Denotes (s : Str) (n u : Nat) : Prop :=
  ∃ d x, s = d ++ x ∧ d ≠ [] ∧ (∀ c ∈ d, c.isDigit = true) ∧ parseDigits d = some n ∧
    ((x = [] ∧ u = 1) ∨ ∃ name, UnitDoc name u ∧ x.map Char.toUpper = name)

/-! ## Lemmas -/

/-- The table of the code is the documented one. -/
theorem mem_units_iff (name : Str) (u : Nat) : (name, u) ∈ units ↔ UnitDoc name u := by
  simp [units, UnitDoc]

theorem toUpper_digit {c : Char} (h : c.isDigit = true) : c.toUpper = c := by
  unfold Char.toUpper
  simp only [Char.isDigit, Bool.and_eq_true, decide_eq_true_eq] at h
  split
  · rename_i h2
    exfalso
    have h3 := h.2
    have h4 := h2.1
    simp only [UInt32.le_iff_toNat_le] at h3 h4
    have e1 : ('9' : Char).val.toNat = 57 := by decide
    have e2 : ('a' : Char).val.toNat = 97 := by decide
    omega
  · rfl

theorem toUpper_isDigit (c : Char) : c.toUpper.isDigit = c.isDigit := by
  cases h : c.isDigit with
  | true => rw [toUpper_digit h, h]
  | false =>
    unfold Char.toUpper
    split
    · rename_i h2
      simp only [Char.isDigit, Bool.and_eq_false_iff, decide_eq_false_iff_not]
      right
      simp only [UInt32.le_iff_toNat_le] at h2 ⊢
      have e1 : ('9' : Char).val.toNat = 57 := by decide
      have e2 : ('a' : Char).val.toNat = 97 := by decide
      have e3 : ('z' : Char).val.toNat = 122 := by decide
      simp only [UInt32.toNat_add]
      have e4 : (4294967264 : UInt32).toNat = 4294967264 := by decide
      have e5 : ('A'.val - 'a'.val : UInt32).toNat = 4294967264 := by decide
      omega
    · exact h

theorem takeWhile_append_all {p : Char → Bool} {a b : Str} (h : ∀ c ∈ a, p c = true)
    (hb : ∀ c, b.head? = some c → p c = false) :
    (a ++ b).takeWhile p = a ∧ (a ++ b).dropWhile p = b := by
  induction a with
  | nil =>
    cases b with
    | nil => simp
    | cons c b => simp [hb c rfl]
  | cons c a ih =>
    have h1 := h c (by simp)
    have h2 := ih (fun x hx => h x (by simp [hx]))
    simp [h1, h2]

theorem atoi_digits {d : Str} {n : Nat} (h : parseDigits d = some n) :
    atoi d = if n < 2 ^ 63 then some (n : Int) else none := by
  have hall : d ≠ [] ∧ d.all Char.isDigit = true := by
    unfold parseDigits at h
    split at h
    · assumption
    · cases h
  unfold atoi
  split
  · rename_i r
    simp at hall
  · rename_i r
    simp at hall
  · simp [h]

theorem units_head : ∀ p ∈ units, ∀ c, p.1.head? = some c → c.isDigit = false := by
  intro p hp c hc
  simp [units] at hp
  rcases hp with rfl | rfl | rfl | rfl | rfl | rfl <;> simp at hc <;> subst hc <;> decide

theorem units_ne_nil : ∀ p ∈ units, p.1 ≠ [] := by
  intro p hp
  simp [units] at hp
  rcases hp with rfl | rfl | rfl | rfl | rfl | rfl <;> decide

theorem unitValue_iff (name : Str) (u : Nat) : unitValue name = some u ↔ (name, u) ∈ units := by
  constructor
  · intro h
    unfold unitValue at h
    simp at h
    obtain ⟨nm, h⟩ := h
    have h1 := List.find?_some h
    have h2 := List.mem_of_find?_eq_some h
    simp at h1
    rw [← h1]; exact h2
  · intro h
    simp [units] at h
    rcases h with ⟨rfl, rfl⟩ | ⟨rfl, rfl⟩ | ⟨rfl, rfl⟩ | ⟨rfl, rfl⟩ | ⟨rfl, rfl⟩ | ⟨rfl, rfl⟩ <;> rfl

theorem map_toUpper_digits {d : Str} (h : ∀ c ∈ d, c.isDigit = true) : d.map Char.toUpper = d := by
  induction d with
  | nil => rfl
  | cons c d ih =>
    simp only [List.map_cons]
    rw [toUpper_digit (h c (by simp)), ih (fun x hx => h x (by simp [hx]))]

/-- The parser on a text of the documented syntax. -/
theorem parse_denotes {s : Str} {n u : Nat} (h : Denotes s n u) :
    parse s = if 2 ^ 63 ≤ n then .error .atoi
      else if u = 2 ^ 50 ∧ 1024 ≤ n then .error .limit
      else .ok (n * u % 2 ^ 64) := by
  obtain ⟨d, x, rfl, hd, hdig, hn, hx⟩ := h
  unfold parse
  rw [List.map_append, map_toUpper_digits hdig]
  have hat := atoi_digits hn
  rcases hx with ⟨rfl, rfl⟩ | ⟨name, hu, hname⟩

  · have htw := takeWhile_append_all (b := []) hdig (by simp)
    have hm : suffixMatch (d ++ [].map Char.toUpper) = some (d, []) := by
      simp only [List.map_nil]
      unfold suffixMatch
      simp only [htw.1, htw.2]
      simp [hd]
    rw [hm]
    simp only [hat]
    by_cases hlt : n < 2 ^ 63
    · rw [if_pos hlt, if_neg (by omega), if_neg (by omega)]
      simp only [if_true, Int.toNat_natCast]
      rw [Nat.mul_one, Nat.mod_eq_of_lt (by omega)]
    · rw [if_neg hlt, if_pos (by omega)]
  · have hu := (mem_units_iff name u).2 hu
    have htw := takeWhile_append_all (b := name) hdig (units_head (name, u) hu)
    have hne := units_ne_nil _ hu
    simp only at hne
    have huv := (unitValue_iff name u).2 hu
    rw [hname]
    have hm : suffixMatch (d ++ name) = some (d, name) := by
      unfold suffixMatch
      simp only [htw.1, htw.2]
      simp [hd, huv]
    rw [hm]
    simp only [hat]
    by_cases hlt : n < 2 ^ 63
    · rw [if_pos hlt, if_neg (by omega)]
      simp only [hne, if_false, huv, Int.toNat_natCast, isExceedLimit]
      simp only [Bool.and_eq_true, decide_eq_true_eq]
    · rw [if_neg hlt, if_pos (by omega)]

/-! ## Properties -/

/-- **C12** full statement: a text of the documented syntax is parsed to the number of bytes it
denotes whenever that fits in 64 bits and is below the documented limit of 1024PB (for the unit
PB), and is refused when it does not fit. -/
def C12_statement : Prop :=
  ∀ s n u, Denotes s n u →
    (n * u < 2 ^ 64 → n < 2 ^ 63 → ¬ (u = 2 ^ 50 ∧ 1024 ≤ n) → parse s = .ok (n * u)) ∧
    (2 ^ 64 ≤ n * u → ∃ e, parse s = .error e)

/-- **C12** the full statement is false: `18014398509481984KB` (2^64 bytes) is parsed as 0. -/
theorem C12_statement_fails : ¬ C12_statement := by
  intro h
  have hd : Denotes "18014398509481984KB".toList (2 ^ 54) (2 ^ 10) :=
    ⟨"18014398509481984".toList, "KB".toList, by decide, by decide, by decide, by decide,
      Or.inr ⟨"KB".toList, by decide, by decide⟩⟩
  obtain ⟨e, he⟩ := (h _ _ _ hd).2 (by decide)
  rw [parse_denotes hd] at he
  simp at he

/-- **C12** partial: exact values for everything that fits; refusal of numbers of 2^63 and more and
of 1024PB and more; and every accepted text has the documented syntax, its value being right
modulo 2^64.  Missing: refusal of products of 2^64 and more with units below PB. -/
theorem C12_parse_partial (s : Str) :
    (∀ n u, Denotes s n u → n * u < 2 ^ 64 → n < 2 ^ 63 → ¬ (u = 2 ^ 50 ∧ 1024 ≤ n) →
      parse s = .ok (n * u)) ∧
    (∀ n u, Denotes s n u → 2 ^ 63 ≤ n ∨ (u = 2 ^ 50 ∧ 1024 ≤ n) → ∃ e, parse s = .error e) ∧
    (∀ v, parse s = .ok v → ∃ n u, Denotes s n u ∧ v = n * u % 2 ^ 64) := by
  refine ⟨?_, ?_, ?_⟩
  · intro n u h h1 h2 h3
    rw [parse_denotes h, if_neg (by omega), if_neg h3, Nat.mod_eq_of_lt h1]
  · intro n u h h1
    rw [parse_denotes h]
    by_cases h2 : 2 ^ 63 ≤ n
    · exact ⟨_, by rw [if_pos h2]⟩
    · rw [if_neg h2, if_pos (h1.resolve_left h2)]; exact ⟨_, rfl⟩
  · intro v h
    -- an accepted text has the documented syntax
    have hD : ∃ n u, Denotes s n u := by
      unfold parse at h
      split at h
      · cases h
      · rename_i d x hm
        unfold suffixMatch at hm
        simp only at hm
        split at hm
        · cases hm
        · rename_i hd
          split at hm
          · rename_i hx
            cases hm
            -- the digits and the rest of the upper-cased text come from `s`
            have h1 : (s.map Char.toUpper).takeWhile Char.isDigit
                = (s.takeWhile Char.isDigit).map Char.toUpper := by
              rw [List.takeWhile_map]; congr 2; funext c; simp [toUpper_isDigit]
            have h2 : (s.map Char.toUpper).dropWhile Char.isDigit
                = (s.dropWhile Char.isDigit).map Char.toUpper := by
              rw [List.dropWhile_map]; congr 2; funext c; simp [toUpper_isDigit]
            have hall : ∀ c ∈ s.takeWhile Char.isDigit, c.isDigit = true := by
              intro c hc
              exact List.all_eq_true.1 List.all_takeWhile c hc
            have hne : s.takeWhile Char.isDigit ≠ [] := by
              intro e; rw [h1, e] at hd; exact hd rfl
            have hpd : ∃ n, parseDigits (s.takeWhile Char.isDigit) = some n :=
              ⟨Nat.ofDigitChars 10 (s.takeWhile Char.isDigit) 0, by
                unfold parseDigits
                rw [if_pos ⟨hne, List.all_eq_true.2 hall⟩]⟩
            obtain ⟨n, hn⟩ := hpd
            have hs : s = s.takeWhile Char.isDigit ++ s.dropWhile Char.isDigit :=
              List.takeWhile_append_dropWhile.symm
            rcases hx with hx | hx
            · refine ⟨n, 1, _, _, hs, hne, hall, hn, Or.inl ⟨?_, rfl⟩⟩
              rw [h2] at hx; simpa using hx
            · rw [h2] at hx
              obtain ⟨u, hu⟩ := Option.isSome_iff_exists.1 hx
              exact ⟨n, u, _, _, hs, hne, hall, hn, Or.inr ⟨_, (mem_units_iff _ _).1 ((unitValue_iff _ _).1 hu), rfl⟩⟩
          · cases hm
    obtain ⟨n, u, hD⟩ := hD
    refine ⟨n, u, hD, ?_⟩
    rw [parse_denotes hD] at h
    split at h
    · cases h
    · split at h
      · cases h
      · exact (Except.ok.inj h).symm

/-- `16mb` denotes 16 * 2^20 bytes and is parsed so. -/
example : Denotes "16mb".toList 16 (2 ^ 20) ∧ parse "16mb".toList = .ok 16777216 ∧
    parse "007".toList = .ok 7 ∧ parse "1XB".toList = .error .format ∧
    parse "1024PB".toList = .error .limit := by
  refine ⟨⟨"16".toList, "mb".toList, by decide, by decide, by decide, by decide,
    Or.inr ⟨"MB".toList, by decide, by decide⟩⟩, by rfl, by rfl, by rfl, by rfl⟩

end Verif.DataSize
