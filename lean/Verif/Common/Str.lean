/-!
# Strings

A Go string is a finite sequence of bytes.  It is modelled as a `List Char`,
where the character with code `b` stands for the byte `b` (a Latin-1 view).
The model never uses that codes are below 256, so every statement about all
`Str` covers all Go strings.  Only equality, byte order and the Go library
functions defined below are used.

These definitions model the Go standard library functions that goodfs calls:
`strconv.FormatUint/FormatInt/Itoa`, `strconv.Atoi`, `strconv.ParseUint`,
`strings.Split`, `strings.Cut`, `strings.LastIndexByte`, `bytes.Compare`,
`strings.HasPrefix`.
-/

namespace Verif

abbrev Str := List Char

/-- `strconv.FormatUint(n, 10)`; used by util.UIntString, src/common/util/util.go:84-86. -/
def fmtNat (n : Nat) : Str := Nat.toDigits 10 n

/-- `strconv.Itoa` / `fmt.Sprint(int)`; src/common/util/util.go:80-82. -/
def fmtInt (i : Int) : Str :=
  match i with
  | Int.ofNat n => fmtNat n
  | Int.negSucc n => '-' :: fmtNat (n + 1)

/-- The value of a non-empty string of decimal digits, without range check. -/
def parseDigits (s : Str) : Option Nat :=
  if s ≠ [] ∧ s.all Char.isDigit then some (Nat.ofDigitChars 10 s 0) else none

/-- `strconv.ParseUint(s, 10, 64)` restricted to success/failure: digits only, below `2^64`. -/
def parseUint64 (s : Str) : Option Nat :=
  match parseDigits s with
  | some n => if n < 2 ^ 64 then some n else none
  | none => none

/-- `strconv.Atoi(s)` on a 64-bit platform: an optional sign, then digits, in int64 range. -/
def atoi (s : Str) : Option Int :=
  match s with
  | '-' :: r =>
    match parseDigits r with
    | some n => if n ≤ 2 ^ 63 then some (-(n : Int)) else none
    | none => none
  | '+' :: r =>
    match parseDigits r with
    | some n => if n < 2 ^ 63 then some (n : Int) else none
    | none => none
  | r =>
    match parseDigits r with
    | some n => if n < 2 ^ 63 then some (n : Int) else none
    | none => none

/-- `strings.Split(s, string(sep))` for a one byte separator. -/
def splitOn (sep : Char) : Str → List Str
  | [] => [[]]
  | c :: cs =>
    if c = sep then [] :: splitOn sep cs
    else
      match splitOn sep cs with
      | [] => [[c]]          -- unreachable, `splitOn` never returns `[]`
      | h :: t => (c :: h) :: t

/-- `strings.Cut(s, string(sep))` for a one byte separator. -/
def cutOn (sep : Char) : Str → Option (Str × Str)
  | [] => none
  | c :: cs =>
    if c = sep then some ([], cs)
    else (cutOn sep cs).map fun (a, b) => (c :: a, b)

/-- Split at `strings.LastIndexByte(s, sep)`: what is before and after the last `sep`. -/
def cutLast (sep : Char) : Str → Option (Str × Str)
  | [] => none
  | c :: cs =>
    match cutLast sep cs with
    | some (a, b) => some (c :: a, b)
    | none => if c = sep then some ([], cs) else none

/-- `bytes.Compare(a, b) < 0`: lexicographic byte order (the key order of bbolt and etcd). -/
def strLt : Str → Str → Bool
  | [], [] => false
  | [], _ :: _ => true
  | _ :: _, [] => false
  | a :: as, b :: bs =>
    if a.toNat < b.toNat then true
    else if b.toNat < a.toNat then false
    else strLt as bs

/-- `strings.HasPrefix(s, p)`. -/
def hasPrefix (s p : Str) : Bool := p.isPrefixOf s

/-! ## Lemmas -/

theorem Char.eq_of_toNat {a b : Char} (h : a.toNat = b.toNat) : a = b := by
  have : Char.ofNat a.toNat = Char.ofNat b.toNat := by rw [h]
  simpa using this

theorem fmtNat_ne_nil (n : Nat) : fmtNat n ≠ [] := Nat.toDigits_ne_nil

theorem fmtNat_isDigit {n : Nat} {c : Char} (h : c ∈ fmtNat n) : c.isDigit :=
  Nat.isDigit_of_mem_toDigits (by omega) (by omega) h

theorem fmtNat_not_mem {n : Nat} {c : Char} (hc : c.isDigit = false) : c ∉ fmtNat n := by
  intro h
  have := fmtNat_isDigit h
  simp [hc] at this

@[simp] theorem parseDigits_fmtNat (n : Nat) : parseDigits (fmtNat n) = some n := by
  have h1 : (fmtNat n).all Char.isDigit = true := by
    rw [List.all_eq_true]; intro c hc; exact fmtNat_isDigit hc
  simp [parseDigits, fmtNat_ne_nil, h1]
  exact Nat.ofDigitChars_toDigits (by omega) (by omega)

theorem fmtNat_inj {a b : Nat} (h : fmtNat a = fmtNat b) : a = b := by
  have := congrArg parseDigits h
  simpa using this

theorem parseUint64_fmtNat {n : Nat} (h : n < 2 ^ 64) : parseUint64 (fmtNat n) = some n := by
  simp [parseUint64, h]

theorem atoi_fmtNat {n : Nat} (h : n < 2 ^ 63) : atoi (fmtNat n) = some (n : Int) := by
  have hm : '-' ∉ fmtNat n := fmtNat_not_mem (by decide)
  have hp : '+' ∉ fmtNat n := fmtNat_not_mem (by decide)
  unfold atoi
  split
  · rename_i r heq; rw [heq] at hm; simp at hm
  · rename_i r heq; rw [heq] at hp; simp at hp
  · simp [h]

theorem splitOn_ne_nil (sep : Char) (s : Str) : splitOn sep s ≠ [] := by
  induction s with
  | nil => simp [splitOn]
  | cons c cs ih =>
    unfold splitOn
    split
    · simp
    · split <;> simp

theorem splitOn_of_not_mem {sep : Char} {s : Str} (h : sep ∉ s) : splitOn sep s = [s] := by
  induction s with
  | nil => rfl
  | cons c cs ih =>
    simp at h
    unfold splitOn
    rw [if_neg (fun e => h.1 e.symm), ih h.2]

theorem splitOn_append {sep : Char} {a b : Str} (h : sep ∉ a) :
    splitOn sep (a ++ sep :: b) = a :: splitOn sep b := by
  induction a with
  | nil => simp [splitOn]
  | cons c cs ih =>
    simp at h
    rw [List.cons_append, splitOn, if_neg (fun e => h.1 e.symm), ih h.2]

theorem cutOn_append {sep : Char} {a b : Str} (h : sep ∉ a) :
    cutOn sep (a ++ sep :: b) = some (a, b) := by
  induction a with
  | nil => simp [cutOn]
  | cons c cs ih =>
    simp at h
    rw [List.cons_append, cutOn, if_neg (fun e => h.1 e.symm), ih h.2]; rfl

theorem cutOn_none {sep : Char} {s : Str} : cutOn sep s = none ↔ sep ∉ s := by
  induction s with
  | nil => simp [cutOn]
  | cons c cs ih =>
    unfold cutOn
    by_cases h : c = sep
    · simp [h]
    · simp [h, ih, Ne.symm h]

theorem cutOn_some {sep : Char} {s a b : Str} (h : cutOn sep s = some (a, b)) :
    s = a ++ sep :: b ∧ sep ∉ a := by
  induction s generalizing a with
  | nil => simp [cutOn] at h
  | cons c cs ih =>
    unfold cutOn at h
    by_cases hc : c = sep
    · simp [hc] at h; obtain ⟨rfl, rfl⟩ := h; simp [hc]
    · simp [hc] at h
      obtain ⟨x, hx, rfl⟩ := h
      have := ih hx
      refine ⟨by simp [this.1], ?_⟩
      simp [this.2, Ne.symm hc]

theorem cutLast_none {sep : Char} {s : Str} : cutLast sep s = none ↔ sep ∉ s := by
  induction s with
  | nil => simp [cutLast]
  | cons c cs ih =>
    unfold cutLast
    cases hcs : cutLast sep cs with
    | some p =>
      simp only [reduceCtorEq, List.mem_cons, not_or, false_iff, not_and, Classical.not_not]
      intro _
      exact Classical.byContradiction fun hm => by rw [ih.2 hm] at hcs; cases hcs
    | none =>
      have hm := ih.1 hcs
      by_cases h : c = sep
      · simp [h]
      · simp [h, hm, Ne.symm h]

theorem cutLast_some {sep : Char} {s a b : Str} (h : cutLast sep s = some (a, b)) :
    s = a ++ sep :: b ∧ sep ∉ b := by
  induction s generalizing a with
  | nil => simp [cutLast] at h
  | cons c cs ih =>
    unfold cutLast at h
    cases hcs : cutLast sep cs with
    | some p =>
      rw [hcs] at h
      simp at h
      obtain ⟨rfl, rfl⟩ := h
      have := ih hcs
      exact ⟨by simp [this.1], this.2⟩
    | none =>
      rw [hcs] at h
      by_cases hc : c = sep
      · simp [hc] at h
        obtain ⟨rfl, rfl⟩ := h
        exact ⟨by simp [hc], cutLast_none.1 hcs⟩
      · simp [hc] at h

theorem cutLast_append {sep : Char} {a b : Str} (h : sep ∉ b) :
    cutLast sep (a ++ sep :: b) = some (a, b) := by
  induction a with
  | nil => simp [cutLast, cutLast_none.2 h]
  | cons c cs ih => rw [List.cons_append, cutLast, ih]

theorem strLt_irrefl (a : Str) : strLt a a = false := by
  induction a with
  | nil => rfl
  | cons c cs ih => simp [strLt, ih]

theorem strLt_trans {a b c : Str} (h1 : strLt a b) (h2 : strLt b c) : strLt a c := by
  induction a generalizing b c with
  | nil =>
    cases b with
    | nil => simp [strLt] at h1
    | cons y ys => cases c with
      | nil => simp [strLt] at h2
      | cons z zs => rfl
  | cons x xs ih =>
    cases b with
    | nil => simp [strLt] at h1
    | cons y ys =>
      cases c with
      | nil => simp [strLt] at h2
      | cons z zs =>
        simp only [strLt] at h1 h2 ⊢
        by_cases h : x.toNat < z.toNat
        · simp [h]
        · by_cases hxy : x.toNat < y.toNat
          · have : ¬ y.toNat < z.toNat := by omega
            have h3 : z.toNat < y.toNat := by omega
            simp [this, h3] at h2
          · by_cases hyx : y.toNat < x.toNat
            · simp [hxy, hyx] at h1
            · by_cases hyz : y.toNat < z.toNat
              · omega
              · by_cases hzy : z.toNat < y.toNat
                · simp [hyz, hzy] at h2
                · have h4 : ¬ z.toNat < x.toNat := by omega
                  simp [h, h4]
                  simp [hxy, hyx] at h1
                  simp [hyz, hzy] at h2
                  exact ih h1 h2

theorem strLt_total {a b : Str} (h1 : strLt a b = false) (h2 : strLt b a = false) : a = b := by
  induction a generalizing b with
  | nil => cases b with
    | nil => rfl
    | cons y ys => simp [strLt] at h1
  | cons x xs ih =>
    cases b with
    | nil => simp [strLt] at h2
    | cons y ys =>
      simp only [strLt] at h1 h2
      by_cases hxy : x.toNat < y.toNat
      · simp [hxy] at h1
      · by_cases hyx : y.toNat < x.toNat
        · simp [hyx] at h2
        · simp [hxy, hyx] at h1 h2
          have : x = y := Char.eq_of_toNat (by omega)
          rw [this, ih h1 h2]

theorem strLt_asymm {a b : Str} (h : strLt a b) : strLt b a = false := by
  cases h' : strLt b a with
  | false => rfl
  | true => have := strLt_trans h h'; rw [strLt_irrefl] at this; cases this

theorem strLt_ne {a b : Str} (h : strLt a b) : a ≠ b := by
  rintro rfl; rw [strLt_irrefl] at h; cases h

theorem strLt_append_left (p a b : Str) : strLt (p ++ a) (p ++ b) = strLt a b := by
  induction p with
  | nil => rfl
  | cons c cs ih => simp [strLt, ih]

/-! ## Decimal text order -/

theorem digits_lt {x y : Str} (hx : x.all Char.isDigit) (hy : y.all Char.isDigit)
    (hl : x.length = y.length) (a b : Nat) :
    (a < b → Nat.ofDigitChars 10 x a < Nat.ofDigitChars 10 y b) ∧
    (a = b → (strLt x y = true ↔ Nat.ofDigitChars 10 x a < Nat.ofDigitChars 10 y b)) := by
  induction x generalizing y a b with
  | nil =>
    cases y with
    | nil => simp [Nat.ofDigitChars, strLt]; omega
    | cons d ds => simp at hl
  | cons c cs ih =>
    cases y with
    | nil => simp at hl
    | cons d ds =>
      simp only [List.all_cons, Bool.and_eq_true] at hx hy
      simp only [List.length_cons, Nat.add_right_cancel_iff] at hl
      have e0 : ('0' : Char).val.toNat = 48 := by decide
      have e9 : ('9' : Char).val.toNat = 57 := by decide
      have hc := hx.1
      have hd := hy.1
      simp only [Char.isDigit, Bool.and_eq_true, decide_eq_true_eq, UInt32.le_iff_toNat_le,
        ge_iff_le, e0, e9] at hc hd
      have ec : c.val.toNat = c.toNat := rfl
      have ed : d.val.toNat = d.toNat := rfl
      rw [ec] at hc
      rw [ed] at hd
      have e0' : ('0' : Char).toNat = 48 := by decide
      have ih' := ih hx.2 hy.2 hl (10 * a + (c.toNat - 48)) (10 * b + (d.toNat - 48))
      simp only [Nat.ofDigitChars, List.foldl_cons, e0', strLt]
      simp only [Nat.ofDigitChars, e0'] at ih'
      constructor
      · intro hab
        exact ih'.1 (by omega)
      · intro hab
        subst hab
        by_cases h1 : c.toNat < d.toNat
        · simp only [h1, ↓reduceIte, true_iff]
          exact ih'.1 (by omega)
        · by_cases h2 : d.toNat < c.toNat
          · have ih2 := ih hx.2 hy.2 hl
            simp only [h1, h2, ↓reduceIte]
            have := (digits_ge hx.2 hy.2 hl (10 * a + (c.toNat - 48)) (10 * a + (d.toNat - 48))
              (by omega))
            simp only [Nat.ofDigitChars, e0'] at this
            simp only [Bool.false_eq_true, false_iff]
            omega
          · simp only [h1, h2, ↓reduceIte]
            exact ih'.2 (by omega)
where
  digits_ge {x y : Str} (hx : x.all Char.isDigit) (hy : y.all Char.isDigit)
      (hl : x.length = y.length) (a b : Nat) (h : b < a) :
      Nat.ofDigitChars 10 y b < Nat.ofDigitChars 10 x a := by
    induction x generalizing y a b with
    | nil =>
      cases y with
      | nil => simpa [Nat.ofDigitChars] using h
      | cons d ds => simp at hl
    | cons c cs ih =>
      cases y with
      | nil => simp at hl
      | cons d ds =>
        simp only [List.all_cons, Bool.and_eq_true] at hx hy
        simp only [List.length_cons, Nat.add_right_cancel_iff] at hl
        have e0 : ('0' : Char).val.toNat = 48 := by decide
        have e9 : ('9' : Char).val.toNat = 57 := by decide
        have hc := hx.1
        have hd := hy.1
        simp only [Char.isDigit, Bool.and_eq_true, decide_eq_true_eq, UInt32.le_iff_toNat_le,
          ge_iff_le, e0, e9] at hc hd
        have ec : c.val.toNat = c.toNat := rfl
        have ed : d.val.toNat = d.toNat := rfl
        rw [ec] at hc
        rw [ed] at hd
        have e0' : ('0' : Char).toNat = 48 := by decide
        have := ih hx.2 hy.2 hl (10 * a + (c.toNat - 48)) (10 * b + (d.toNat - 48)) (by omega)
        simpa only [Nat.ofDigitChars, List.foldl_cons, e0'] using this

/-- For numbers with the same number of digits, text order is number order. -/
theorem strLt_fmtNat {a b : Nat} (h : (fmtNat a).length = (fmtNat b).length) :
    strLt (fmtNat a) (fmtNat b) = true ↔ a < b := by
  have hx : (fmtNat a).all Char.isDigit = true := by
    rw [List.all_eq_true]; intro c hc; exact fmtNat_isDigit hc
  have hy : (fmtNat b).all Char.isDigit = true := by
    rw [List.all_eq_true]; intro c hc; exact fmtNat_isDigit hc
  have := (digits_lt hx hy h 0 0).2 rfl
  rw [this]
  have e1 : Nat.ofDigitChars 10 (fmtNat a) 0 = a := Nat.ofDigitChars_toDigits (by omega) (by omega)
  have e2 : Nat.ofDigitChars 10 (fmtNat b) 0 = b := Nat.ofDigitChars_toDigits (by omega) (by omega)
  rw [e1, e2]

/-! ## Prefixes -/

theorem hasPrefix_iff (s p : Str) : hasPrefix s p = true ↔ ∃ t, s = p ++ t := by
  unfold hasPrefix
  rw [List.isPrefixOf_iff_prefix]
  constructor
  · rintro ⟨t, h⟩; exact ⟨t, h.symm⟩
  · rintro ⟨t, h⟩; exact ⟨t, h.symm⟩

/-- A string with prefix `p` is not before `p`. -/
theorem not_lt_of_hasPrefix (p t : Str) : strLt (p ++ t) p = false := by
  induction p with
  | nil => cases t <;> rfl
  | cons c cs ih => simp [strLt, ih]

/-- Behind a string that is not before `p` and does not start with `p`, no string starts with `p`. -/
theorem no_prefix_after {p k k' : Str} (h1 : strLt k p = false) (h2 : hasPrefix k p = false)
    (h3 : strLt k k' = true) : hasPrefix k' p = false := by
  induction p generalizing k k' with
  | nil => simp [hasPrefix] at h2
  | cons c cs ih =>
    cases k with
    | nil => simp [strLt] at h1
    | cons x xs =>
      cases k' with
      | nil => simp [strLt] at h3
      | cons y ys =>
        simp only [strLt] at h1 h3
        simp only [hasPrefix, List.isPrefixOf, Bool.and_eq_false_iff, beq_eq_false_iff_ne] at h2 ⊢
        by_cases hxc : x.toNat < c.toNat
        · simp [hxc] at h1
        · simp only [hxc, ↓reduceIte] at h1
          by_cases hcx : c.toNat < x.toNat
          · left
            rintro rfl
            have h4 : ¬ x.toNat < c.toNat := hxc
            simp [h4, hcx] at h3
          · have e : c = x := Char.eq_of_toNat (by omega)
            subst e
            simp only [hcx, ↓reduceIte] at h1
            by_cases hcy : c = y
            · subst hcy
              right
              simp only [Nat.lt_irrefl, ↓reduceIte] at h3
              have h2' : hasPrefix xs cs = false := by
                rcases h2 with h | h
                · exact absurd rfl h
                · exact h
              exact ih h1 h2' h3
            · left; exact hcy

/-- The last element of an ordered list is behind all others. -/
theorem pairwise_getLast {α : Type} {R : α → α → Prop} {l : List α} (h : l.Pairwise R) (hne : l ≠ [])
    {x : α} (hx : x ∈ l) : x = l.getLast hne ∨ R x (l.getLast hne) := by
  induction l with
  | nil => exact absurd rfl hne
  | cons a as ih =>
    cases as with
    | nil => simp at hx; left; simp [hx]
    | cons b bs =>
      have hp := List.pairwise_cons.1 h
      rw [List.getLast_cons (by simp)]
      rcases List.mem_cons.1 hx with rfl | hx
      · right; exact hp.1 _ (List.getLast_mem _)
      · exact ih hp.2 (by simp) hx

end Verif
