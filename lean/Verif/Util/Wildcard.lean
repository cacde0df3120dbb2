import Verif.Common.Str

/-!
# Wildcard patterns (C09)

Model of src/common/wildcard/wildcard.go.  Here a `Str` is the sequence of runes of
the Go string (`[]rune(name)`), as in the code.
-/

namespace Verif.Wildcard

open Verif

/-- The `'*'` case of `deepMatchRune`, wildcard.go:61-63:
`deepMatchRune(str, pattern[1:]) || (len(str) > 0 && deepMatchRune(str[1:], pattern))`.
The second call has the same pattern, so it is the same loop on the shorter string; `f` is
the matcher of `pattern[1:]`. -/
def starMatch (f : Str → Bool) : Str → Bool
  | [] => f []
  | c :: s => f (c :: s) || starMatch f s

/-- `deepMatchRune(str, pattern, simple)`, wildcard.go:50-69.  The `for` loop over the pattern is
the recursion on the pattern. -/
def deepMatch (simple : Bool) : Str → Str → Bool
  | [], str => str.isEmpty
  | c :: p, str =>
    if c = '*' then starMatch (deepMatch simple p) str
    else if c = '?' then
      match str with
      | [] => simple
      | _ :: s => deepMatch simple p s
    else
      match str with
      | [] => false
      | d :: s => if d ≠ c then false else deepMatch simple p s

/-- `Match(pattern, name)`, wildcard.go:39-48. -/
def wmatch (pattern name : Str) : Bool :=
  if pattern = [] then name = pattern
  else if pattern = ['*'] then true
  else deepMatch false pattern name

/-- `MatchSimple(pattern, name)`, wildcard.go:24-33. -/
def wmatchSimple (pattern name : Str) : Bool :=
  if pattern = [] then name = pattern
  else if pattern = ['*'] then true
  else deepMatch true pattern name

/-! ## Specification -/

/-- The texts a single pattern character may be replaced with. -/
def Fits (c : Char) (a : Str) : Prop :=
  if c = '*' then True else if c = '?' then a.length = 1 else a = [c]

/-- `s` is obtained from the pattern by replacing each character with a text that fits it. -/
def Expands : Str → Str → Prop
  | [], s => s = []
  | c :: p, s => ∃ a b, s = a ++ b ∧ Fits c a ∧ Expands p b

/-! ## Lemmas -/

theorem starMatch_iff (f : Str → Bool) (s : Str) :
    starMatch f s = true ↔ ∃ a b, s = a ++ b ∧ f b = true := by
  induction s with
  | nil =>
    simp only [starMatch]
    constructor
    · intro h; exact ⟨[], [], rfl, h⟩
    · rintro ⟨a, b, h1, h2⟩
      have := List.append_eq_nil_iff.1 h1.symm
      rw [this.2] at h2; exact h2
  | cons c s ih =>
    simp only [starMatch, Bool.or_eq_true, ih]
    constructor
    · rintro (h | ⟨a, b, rfl, h⟩)
      · exact ⟨[], _, rfl, h⟩
      · exact ⟨c :: a, b, rfl, h⟩
    · rintro ⟨a, b, h1, h2⟩
      cases a with
      | nil => simp at h1; subst h1; exact Or.inl h2
      | cons d a =>
        simp at h1
        exact Or.inr ⟨a, b, h1.2, h2⟩

theorem deepMatch_false_iff (p s : Str) : deepMatch false p s = true ↔ Expands p s := by
  induction p generalizing s with
  | nil => simp [deepMatch, Expands]
  | cons c p ih =>
    unfold deepMatch Expands
    by_cases h1 : c = '*'
    · subst h1
      rw [if_pos rfl, starMatch_iff]
      simp [Fits, ih]
    · by_cases h2 : c = '?'
      · subst h2
        rw [if_neg (by decide), if_pos rfl]
        cases s with
        | nil =>
          simp only [Bool.false_eq_true, false_iff]
          rintro ⟨a, b, hs, hf, _⟩
          simp at hs
          simp [Fits, hs.1] at hf
        | cons d s =>
          simp only [ih]
          constructor
          · intro h; exact ⟨[d], s, rfl, by simp [Fits], h⟩
          · rintro ⟨a, b, hs, hf, he⟩
            simp [Fits] at hf
            match a, hf with
            | [x], _ => simp at hs; rw [hs.2]; exact he
      · rw [if_neg h1, if_neg h2]
        cases s with
        | nil =>
          simp only [Bool.false_eq_true, false_iff]
          rintro ⟨a, b, hs, hf, _⟩
          simp at hs
          simp [Fits, h1, h2, hs.1] at hf
        | cons d s =>
          simp only [ne_eq, ite_not]
          constructor
          · intro h
            split at h
            · rename_i hd
              exact ⟨[c], s, by simp [hd], by simp [Fits, h1, h2], (ih s).1 h⟩
            · cases h
          · rintro ⟨a, b, hs, hf, he⟩
            simp [Fits, h1, h2] at hf
            subst hf
            simp at hs
            rw [if_pos hs.1, hs.2]
            exact (ih b).2 he

theorem deepMatch_true_iff (p s : Str) : deepMatch true p s = true ↔
    Expands p s ∨ ∃ q r, p = q ++ '?' :: r ∧ Expands q s := by
  induction p generalizing s with
  | nil => simp [deepMatch, Expands]
  | cons c p ih =>
    unfold deepMatch
    by_cases h1 : c = '*'
    · subst h1
      rw [if_pos rfl, starMatch_iff]
      constructor
      · rintro ⟨a, b, rfl, h⟩
        rcases (ih b).1 h with h | ⟨q, r, rfl, h'⟩
        · exact Or.inl ⟨a, b, rfl, by simp [Fits], h⟩
        · have h := h'
          exact Or.inr ⟨'*' :: q, r, rfl, a, b, rfl, by simp [Fits], h⟩
      · rintro (⟨a, b, rfl, _, h⟩ | ⟨q, r, hp, h⟩)
        · exact ⟨a, b, rfl, (ih b).2 (Or.inl h)⟩
        · cases q with
          | nil => simp at hp
          | cons x q =>
            simp at hp
            obtain ⟨rfl, hp⟩ := hp
            obtain ⟨a, b, rfl, _, h⟩ := h
            exact ⟨a, b, rfl, (ih b).2 (Or.inr ⟨q, r, hp, h⟩)⟩
    · by_cases h2 : c = '?'
      · subst h2
        rw [if_neg (by decide), if_pos rfl]
        cases s with
        | nil => simp only [true_iff]; exact Or.inr ⟨[], p, rfl, rfl⟩
        | cons d s =>
          simp only [ih]
          constructor
          · rintro (h | ⟨q, r, rfl, h⟩)
            · exact Or.inl ⟨[d], s, rfl, by simp [Fits], h⟩
            · exact Or.inr ⟨'?' :: q, r, rfl, [d], s, rfl, by simp [Fits], h⟩
          · have key : ∀ {p : Str}, Expands ('?' :: p) (d :: s) → Expands p s := by
              rintro p ⟨a, b, hs, hf, he⟩
              simp [Fits] at hf
              match a, hf with
              | [x], _ => simp at hs; rw [hs.2]; exact he
            rintro (h | ⟨q, r, hp, h⟩)
            · exact Or.inl (key h)
            · cases q with
              | nil => simp [Expands] at h
              | cons x q =>
                simp at hp
                obtain ⟨rfl, hp⟩ := hp
                exact Or.inr ⟨q, r, hp, key h⟩
      · rw [if_neg h1, if_neg h2]
        have key : ∀ {p s : Str}, Expands (c :: p) s ↔ ∃ b, s = c :: b ∧ Expands p b := by
          intro p s
          constructor
          · rintro ⟨a, b, rfl, hf, he⟩
            simp [Fits, h1, h2] at hf
            subst hf
            exact ⟨b, rfl, he⟩
          · rintro ⟨b, rfl, he⟩
            exact ⟨[c], b, rfl, by simp [Fits, h1, h2], he⟩
        have key2 : (∃ q r, c :: p = q ++ '?' :: r ∧ Expands q s) ↔
            ∃ q r, p = q ++ '?' :: r ∧ Expands (c :: q) s := by
          constructor
          · rintro ⟨q, r, hp, h⟩
            cases q with
            | nil => simp at hp; exact absurd hp.1 h2
            | cons x q =>
              simp at hp
              obtain ⟨rfl, hp⟩ := hp
              exact ⟨q, r, hp, h⟩
          · rintro ⟨q, r, rfl, h⟩
            exact ⟨c :: q, r, rfl, h⟩
        rw [key2]
        cases s with
        | nil => simp [key]
        | cons d s =>
          simp only [ne_eq, ite_not, key]
          by_cases hd : d = c
          · subst hd
            simp only [if_true, ih, List.cons.injEq, true_and]
            constructor
            · rintro (h | ⟨q, r, hp, h⟩)
              · exact Or.inl ⟨s, rfl, h⟩
              · exact Or.inr ⟨q, r, hp, s, rfl, h⟩
            · rintro (⟨b, rfl, h⟩ | ⟨q, r, hp, b, rfl, h⟩)
              · exact Or.inl h
              · exact Or.inr ⟨q, r, hp, h⟩
          · simp [hd]

theorem expands_star (s : Str) : Expands ['*'] s := ⟨s, [], by simp, by simp [Fits], rfl⟩

/-! ## Properties -/

/-- **C09** `Match` accepts exactly the texts obtained from the pattern by replacing each `*` with
any text and each `?` with any single character. -/
theorem C09_match_is_glob (pattern name : Str) :
    wmatch pattern name = true ↔ Expands pattern name := by
  unfold wmatch
  split
  · rename_i h; subst h; simp [Expands]
  · split
    · rename_i h; subst h; simp [expands_star]
    · exact deepMatch_false_iff _ _

/-- **C09** (`MatchSimple`) the exact accepted set: additionally a text is accepted when it is
exhausted in front of some `?`, whatever follows that `?`. -/
theorem C09_matchSimple_exact (pattern name : Str) :
    wmatchSimple pattern name = true ↔
      Expands pattern name ∨ ∃ q r, pattern = q ++ '?' :: r ∧ Expands q name := by
  unfold wmatchSimple
  split
  · rename_i h; subst h; simp [Expands]
  · split
    · rename_i h; subst h; simp [expands_star]
    · exact deepMatch_true_iff _ _

/-- What the comment on `MatchSimple` promises: like `Match`, but `?`s at the end are optional. -/
def SimpleDoc (pattern name : Str) : Prop :=
  Expands pattern name ∨ ∃ q r, pattern = q ++ r ∧ (∀ c ∈ r, c = '?') ∧ Expands q name

/-- The comment is not what the code does: `a?b` accepts `a`. -/
theorem C09_matchSimple_doc_fails :
    ∃ pattern name, wmatchSimple pattern name = true ∧ ¬ SimpleDoc pattern name := by
  refine ⟨"a?b".toList, "a".toList, by decide, ?_⟩
  rintro (h | ⟨q, r, h1, h2, h3⟩)
  · have := (C09_match_is_glob _ _).2 h
    revert this; decide
  · have hr : r = [] := by
      cases hr : r.getLast? with
      | none => simpa using hr
      | some x =>
        have hx : x ∈ r := List.mem_of_getLast? hr
        have := congrArg List.getLast? h1
        rw [List.getLast?_append, hr] at this
        simp at this
        have := h2 x hx
        simp_all
    subst hr
    simp at h1
    subst h1
    have := (C09_match_is_glob _ _).2 h3
    revert this; decide

/-- For patterns in which `?` occurs only at the end, `MatchSimple` does what its comment says. -/
theorem C09_matchSimple_doc_partial (pre : Str) (n : Nat) (name : Str)
    (hpre : '?' ∉ pre) :
    wmatchSimple (pre ++ List.replicate n '?') name = true ↔
      SimpleDoc (pre ++ List.replicate n '?') name := by
  rw [C09_matchSimple_exact]
  constructor
  · rintro (h | ⟨q, r, hp, h⟩)
    · exact Or.inl h
    · refine Or.inr ⟨q, '?' :: r, hp, ?_, h⟩
      intro c hc
      have hlen : pre.length ≤ q.length := by
        apply Nat.le_of_not_lt
        intro hlt
        have h1 : (pre ++ List.replicate n '?')[q.length]? = some '?' := by rw [hp]; simp
        rw [List.getElem?_append_left hlt] at h1
        exact hpre (List.mem_of_getElem? h1)
      have hd : (pre ++ List.replicate n '?').drop q.length = '?' :: r := by rw [hp]; simp
      rw [List.drop_append, List.drop_eq_nil_of_le hlen] at hd
      simp at hd
      have : c ∈ List.replicate (n - (q.length - pre.length)) '?' := by rw [hd]; exact hc
      exact List.eq_of_mem_replicate this
  · rintro (h | ⟨q, r, hp, hr, h⟩)
    · exact Or.inl h
    · cases r with
      | nil => simp at hp; rw [hp]; exact Or.inl h
      | cons c r =>
        have := hr c (by simp)
        subst this
        exact Or.inr ⟨q, r, hp, h⟩

example : wmatch "a*c?e".toList "abbcde".toList = true ∧ wmatch "a*c?e".toList "ace".toList = false
    ∧ wmatchSimple "ab??".toList "abx".toList = true ∧ '?' ∉ "ab".toList := by decide

end Verif.Wildcard
