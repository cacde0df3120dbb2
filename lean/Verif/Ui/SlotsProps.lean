import Verif.Ui.Slots

/-! # Slots on the page of the metadata servers of the web console (theorems): C119 -/

namespace Verif.Ui.Slots

open Verif Verif.HashSlot

/-! ## Lemmas: the automaton -/

theorem dash_digit : ('-' : Char).isDigit = false := by decide
theorem comma_digit : (',' : Char).isDigit = false := by decide

theorem Digits.append {a b : Str} (ha : Digits a) (hb : Digits b) : Digits (a ++ b) :=
  ⟨by simp [ha.1], fun c hc => (List.mem_append.1 hc).elim (ha.2 c) (hb.2 c)⟩

theorem digits_one {c : Char} (h : c.isDigit = true) : Digits [c] := ⟨by simp, by simpa using h⟩

/-- What can follow in a state, by what has been read. -/
def Cont : St → Str → Prop
  | .begin, s => Matches s
  | .comma, s => s = [] ∨ Matches s
  | .first, s => ∀ w, Digits w → Matches (w ++ s)
  | .dash, s => ∀ w, Digits w → Matches (w ++ '-' :: s)
  | .one, s => ∀ w v, Digits w → Digits v → v.length = 1 → Matches (w ++ '-' :: (v ++ s))
  | .many, s => ∀ w v, Digits w → Digits v → 2 ≤ v.length → Matches (w ++ '-' :: (v ++ s))
  | .dead, _ => False

theorem piece_comma {w v s : Str} (hw : Digits w) (hv : Digits v) (h : s = [] ∨ Matches s) : Matches (w ++ '-' :: (v ++ ',' :: s)) := by
  have hp : Piece (w ++ '-' :: (v ++ [','])) := ⟨w, v, hw, hv, .inr rfl⟩
  rcases h with rfl | h
  · exact .one hp
  · have := Matches.more hp h
    simpa using this

theorem cont_of_final : ∀ (s : Str) (q : St), final (s.foldl next q) = true → Cont q s := by
  intro s
  induction s with
  | nil =>
    intro q h
    cases q <;> simp [final] at h
    · intro w v hw hv _; rw [List.append_nil]; exact .one ⟨w, v, hw, hv, .inl rfl⟩
    · intro w v hw hv _; rw [List.append_nil]; exact .one ⟨w, v, hw, hv, .inl rfl⟩
    · exact .inl rfl
  | cons c r ih =>
    intro q h
    rw [List.foldl_cons] at h
    have hi := ih _ h
    have hdead : ¬ Cont .dead r := id
    cases q with
    | begin =>
      unfold next at hi
      dsimp only at hi
      split at hi
      · next hc => exact hi [c] (digits_one hc)
      · exact absurd hi hdead
    | comma =>
      unfold next at hi
      dsimp only at hi
      split at hi
      · next hc => exact .inr (hi [c] (digits_one hc))
      · exact absurd hi hdead
    | first =>
      unfold next at hi
      dsimp only at hi
      split at hi
      · next hc =>
        intro w hw
        have := hi (w ++ [c]) (hw.append (digits_one hc))
        simpa using this
      · split at hi
        · next hc => subst hc; exact hi
        · exact absurd hi hdead
    | dash =>
      unfold next at hi
      dsimp only at hi
      split at hi
      · next hc => intro w hw; exact hi w [c] hw (digits_one hc) rfl
      · exact absurd hi hdead
    | one =>
      unfold next at hi
      dsimp only at hi
      split at hi
      · next hc =>
        intro w v hw hv hl
        have := hi w (v ++ [c]) hw (hv.append (digits_one hc)) (by simp [hl])
        simpa using this
      · split at hi
        · next hc => subst hc; intro w v hw hv _; exact piece_comma hw hv hi
        · exact absurd hi hdead
    | many =>
      unfold next at hi
      dsimp only at hi
      split at hi
      · next hc =>
        intro w v hw hv hl
        have := hi w (v ++ [c]) hw (hv.append (digits_one hc)) (by simp; omega)
        simpa using this
      · split at hi
        · next hc => subst hc; intro w v hw hv _; exact piece_comma hw hv hi
        · split at hi
          · next hc =>
            subst hc
            intro w v hw hv hl
            -- the last digit of the second number is the first number of the next piece
            obtain ⟨u, l, rfl⟩ : ∃ u l, v = u ++ [l] := ⟨v.dropLast, v.getLast hv.1, (List.dropLast_concat_getLast hv.1).symm⟩
            have hu : Digits u := ⟨by rintro rfl; simp at hl, fun d hd => hv.2 d (by simp [hd])⟩
            have hd : Digits [l] := digits_one (hv.2 l (by simp))
            have := Matches.more ⟨w, u, hw, hu, .inl rfl⟩ (hi [l] hd)
            simpa using this
          · exact absurd hi hdead
    | dead => exact absurd hi hdead

theorem run_digits {w : Str} (hw : ∀ c ∈ w, c.isDigit = true) {q : St} (hq : q = .first ∨ q = .many) : w.foldl next q = q := by
  induction w with
  | nil => rfl
  | cons c r ih =>
    rw [List.foldl_cons]
    have hc := hw c List.mem_cons_self
    have : next q c = q := by rcases hq with rfl | rfl <;> simp [next, hc]
    rw [this]
    exact ih fun d hd => hw d (List.mem_cons_of_mem _ hd)

/-- A piece ends after its second number or its comma, wherever a piece can begin. -/
theorem run_piece {p : Str} (h : Piece p) {q : St} (hq : q = .begin ∨ q = .comma ∨ q = .one ∨ q = .many) :
    p.foldl next q = .one ∨ p.foldl next q = .many ∨ p.foldl next q = .comma := by
  obtain ⟨a, b, ha, hb, hp⟩ := h
  have h1 : (a ++ '-' :: b).foldl next q = .one ∨ (a ++ '-' :: b).foldl next q = .many := by
    obtain ⟨c, a', rfl⟩ : ∃ c a', a = c :: a' := by
      cases a with
      | nil => exact absurd rfl ha.1
      | cons c a' => exact ⟨c, a', rfl⟩
    obtain ⟨d, b', rfl⟩ : ∃ c b', b = c :: b' := by
      cases b with
      | nil => exact absurd rfl hb.1
      | cons c b' => exact ⟨c, b', rfl⟩
    have hc := ha.2 c List.mem_cons_self
    have hd := hb.2 d List.mem_cons_self
    have hdash : (c :: a' ++ ['-']).foldl next q = .dash := by
      have hc1 : next q c = .first ∨ next q c = .many := by
        rcases hq with rfl | rfl | rfl | rfl <;> simp [next, hc]
      have hr : (c :: a').foldl next q = next q c := by
        rw [List.foldl_cons]
        exact run_digits (fun x hx => ha.2 x (List.mem_cons_of_mem _ hx)) hc1
      rw [List.foldl_append, hr]
      rcases hc1 with h | h <;> rw [h] <;> simp [next, dash_digit]
    have e : c :: a' ++ '-' :: d :: b' = (c :: a' ++ ['-']) ++ d :: b' := by simp
    rw [e, List.foldl_append, hdash, List.foldl_cons]
    have : next .dash d = .one := by simp [next, hd]
    rw [this]
    cases b' with
    | nil => exact .inl rfl
    | cons x y =>
      right
      rw [List.foldl_cons]
      have hx := hb.2 x (by simp)
      have : next .one x = .many := by simp [next, hx]
      rw [this]
      exact run_digits (fun z hz => hb.2 z (by simp [hz])) (.inr rfl)
  rcases hp with rfl | rfl
  · rcases h1 with h | h
    · exact .inl h
    · exact .inr (.inl h)
  · have e : a ++ '-' :: (b ++ [',']) = (a ++ '-' :: b) ++ [','] := by simp
    right; right
    rw [e, List.foldl_append]
    rcases h1 with h | h <;> rw [h] <;> simp [next, comma_digit]

theorem final_of_matches {s : Str} (h : Matches s) : ∀ q, (q = .begin ∨ q = .comma ∨ q = .one ∨ q = .many) →
    final (s.foldl next q) = true := by
  induction h with
  | one hp =>
    intro q hq
    rcases run_piece hp hq with h | h | h <;> rw [h] <;> rfl
  | more hp _ ih =>
    intro q hq
    rw [List.foldl_append]
    apply ih
    rcases run_piece hp hq with h | h | h
    · exact .inr (.inr (.inl h))
    · exact .inr (.inr (.inr h))
    · exact .inr (.inl h)

/-- The automaton accepts exactly the texts that the expression of the form matches. -/
theorem test_iff (s : Str) : test s = true ↔ Matches s :=
  ⟨cont_of_final s .begin, fun h => final_of_matches h _ (.inl rfl)⟩

/-! ## Lemmas: the parser -/

theorem matches_chars {s : Str} (h : Matches s) : s ≠ [] ∧ ∀ c ∈ s, c.isDigit = true ∨ c = '-' ∨ c = ',' := by
  have hp : ∀ p, Piece p → p ≠ [] ∧ ∀ c ∈ p, c.isDigit = true ∨ c = '-' ∨ c = ',' := by
    rintro p ⟨a, b, ha, hb, rfl | rfl⟩
    · refine ⟨by simp, ?_⟩
      intro c hc
      rcases List.mem_append.1 hc with h | h
      · exact .inl (ha.2 c h)
      · rcases List.mem_cons.1 h with h | h
        · exact .inr (.inl h)
        · exact .inl (hb.2 c h)
    · refine ⟨by simp, ?_⟩
      intro c hc
      rcases List.mem_append.1 hc with h | h
      · exact .inl (ha.2 c h)
      · rcases List.mem_cons.1 h with h | h
        · exact .inr (.inl h)
        · rcases List.mem_append.1 h with h | h
          · exact .inl (hb.2 c h)
          · exact .inr (.inr (by simpa using h))
  induction h with
  | one h => exact hp _ h
  | more h _ ih =>
    have := hp _ h
    exact ⟨by simp [this.1], fun c hc => (List.mem_append.1 hc).elim (this.2 c) (ih.2 c)⟩

theorem mem_split {sep : Char} : ∀ {s seg : Str} {c : Char}, seg ∈ splitOn sep s → c ∈ seg → c ∈ s ∧ c ≠ sep := by
  intro s
  induction s with
  | nil => intro seg c h hc; rw [splitOn, List.mem_singleton] at h; rw [h] at hc; cases hc
  | cons d r ih =>
    intro seg c h hc
    unfold splitOn at h
    split at h
    · rcases List.mem_cons.1 h with h | h
      · rw [h] at hc; cases hc
      · exact ⟨List.mem_cons_of_mem _ (ih h hc).1, (ih h hc).2⟩
    · next hd =>
      cases hs : splitOn sep r with
      | nil => exact absurd hs (splitOn_ne_nil _ _)
      | cons a t =>
        rw [hs] at h
        rcases List.mem_cons.1 h with h | h
        · rw [h] at hc
          rcases List.mem_cons.1 hc with h' | h'
          · rw [h']; exact ⟨List.mem_cons_self, hd⟩
          · have := ih (hs ▸ List.mem_cons_self) h'
            exact ⟨List.mem_cons_of_mem _ this.1, this.2⟩
        · have := ih (hs ▸ List.mem_cons_of_mem _ h) hc
          exact ⟨List.mem_cons_of_mem _ this.1, this.2⟩

theorem split_two {s a b : Str} (h : splitOn '-' s = [a, b]) : s = a ++ '-' :: b := by
  cases hc : cutOn '-' s with
  | none => rw [splitOn_of_not_mem (cutOn_none.1 hc)] at h; cases h
  | some p =>
    obtain ⟨e, hn⟩ := cutOn_some hc
    rw [e, splitOn_append hn] at h
    obtain ⟨h1, h2⟩ := List.cons.inj h
    have hm : '-' ∉ p.2 := by
      intro hm
      cases hc2 : cutOn '-' p.2 with
      | none => exact cutOn_none.1 hc2 hm
      | some p2 =>
        obtain ⟨e2, hn2⟩ := cutOn_some hc2
        rw [e2, splitOn_append hn2] at h2
        exact splitOn_ne_nil _ _ (List.cons.inj h2).2
    rw [splitOn_of_not_mem hm] at h2
    rw [e, h1, (List.cons.inj h2).1]

theorem atoi_digits {s : Str} (h : ∀ c ∈ s, c.isDigit = true) :
    atoi s = if s ≠ [] ∧ Nat.ofDigitChars 10 s 0 < 2 ^ 63 then some (Nat.ofDigitChars 10 s 0 : Int) else none := by
  have hp : parseDigits s = if s ≠ [] then some (Nat.ofDigitChars 10 s 0) else none := by
    unfold parseDigits
    have : s.all Char.isDigit = true := List.all_eq_true.2 h
    simp [this]
  have ha : atoi s = match parseDigits s with
      | some n => if n < 2 ^ 63 then some (n : Int) else none
      | none => none := by
    unfold atoi
    split
    · exact absurd (h '-' List.mem_cons_self) (by decide)
    · exact absurd (h '+' List.mem_cons_self) (by decide)
    · rfl
  rw [ha, hp]
  by_cases hs : s = [] <;> simp [hs]

/-- Ranges of digits are read as what they say. -/
theorem formatInt_digits {a b : Str} (ha : Digits a) (hb : Digits b) :
    formatInt (a ++ '-' :: b) = if Nat.ofDigitChars 10 a 0 < 2 ^ 63 ∧ Nat.ofDigitChars 10 b 0 < 2 ^ 63
      then .ok ((Nat.ofDigitChars 10 a 0 : Int), (Nat.ofDigitChars 10 b 0 : Int)) else .error .format := by
  have h1 : '-' ∉ a := fun h => absurd (ha.2 _ h) (by decide)
  have h2 : '-' ∉ b := fun h => absurd (hb.2 _ h) (by decide)
  unfold formatInt
  rw [splitOn_append h1, splitOn_of_not_mem h2]
  dsimp only
  rw [atoi_digits ha.2, atoi_digits hb.2]
  generalize Nat.ofDigitChars 10 a 0 = x
  generalize Nat.ofDigitChars 10 b 0 = y
  by_cases hx : x < 2 ^ 63
  · by_cases hy : y < 2 ^ 63
    · rw [if_pos ⟨ha.1, hx⟩, if_pos ⟨hb.1, hy⟩, if_pos ⟨hx, hy⟩]
      dsimp only
      rw [if_neg (by omega), if_neg (by omega)]
    · rw [if_pos ⟨ha.1, hx⟩, if_neg (fun h => hy h.2), if_neg (fun h => hy h.2)]
      dsimp only
      rw [if_neg (by omega)]
  · rw [if_neg (fun h : a ≠ [] ∧ x < 2 ^ 63 => hx h.2), if_neg (fun h : x < 2 ^ 63 ∧ y < 2 ^ 63 => hx h.1)]

/-- What is read by the metadata server and has only digits and dashes is a range of digits. -/
theorem digits_of_formatInt {x : Str} (hx : ∀ c ∈ x, c.isDigit = true ∨ c = '-') {r : Int × Int} (h : formatInt x = .ok r) :
    ∃ a b, x = a ++ '-' :: b ∧ Digits a ∧ Digits b := by
  unfold formatInt at h
  split at h
  · next a b hs =>
    have e := split_two hs
    have dig : ∀ w ∈ splitOn '-' x, ∀ c ∈ w, c.isDigit = true := by
      intro w hw c hc
      have := mem_split hw hc
      exact (hx c this.1).resolve_right this.2
    have da : ∀ c ∈ a, c.isDigit = true := dig a (by rw [hs]; simp)
    have db : ∀ c ∈ b, c.isDigit = true := dig b (by rw [hs]; simp)
    have ha : a ≠ [] := by rintro rfl; exact absurd h (by simp [atoi, parseDigits])
    have hb : b ≠ [] := by
      rintro rfl
      split at h
      · cases h
      · split at h
        · cases h
        · have : atoi [] = none := by decide
          rw [this] at h; cases h
    exact ⟨a, b, e, ⟨ha, da⟩, ⟨hb, db⟩⟩
  · cases h

theorem split_join : ∀ (l : List Str), l ≠ [] → (∀ x ∈ l, ',' ∉ x) → ∀ s, splitOn ',' s = l →
    (∀ x ∈ l, ∃ a b, x = a ++ '-' :: b ∧ Digits a ∧ Digits b) → Matches s := by
  intro l
  induction l with
  | nil => intro h; exact absurd rfl h
  | cons x r ih =>
    intro _ hc s hs hl
    obtain ⟨a, b, e, ha, hb⟩ := hl x List.mem_cons_self
    cases hcut : cutOn ',' s with
    | none =>
      rw [splitOn_of_not_mem (cutOn_none.1 hcut)] at hs
      rw [(List.cons.inj hs).1, e]
      exact .one ⟨a, b, ha, hb, .inl rfl⟩
    | some p =>
      obtain ⟨es, hn⟩ := cutOn_some hcut
      rw [es, splitOn_append hn] at hs
      obtain ⟨h1, h2⟩ := List.cons.inj hs
      have hr : r ≠ [] := fun h => splitOn_ne_nil _ _ (h2.trans h)
      have := ih hr (fun y hy => hc y (List.mem_cons_of_mem _ hy)) p.2 h2 (fun y hy => hl y (List.mem_cons_of_mem _ hy))
      rw [es, h1, e, List.append_assoc]
      exact piece_comma ha hb (.inr this)

/-! ## Theorems: the form -/

/-- **C119, partial**: a text is a list of ranges exactly if the form lets it pass and the metadata server can read all
of its parts.  (Missing: the form also lets other texts pass, `C119_form_fails`.) -/
theorem C119_form_partial (s : Str) :
    (∃ l, RangeText s l) ↔ test s = true ∧ ∀ x ∈ splitOn ',' s, ∃ r, formatInt x = .ok r := by
  constructor
  · rintro ⟨l, hne, hs, hl⟩
    constructor
    · rw [test_iff]
      refine split_join (splitOn ',' s) (splitOn_ne_nil _ _) (fun x hx h => (mem_split hx h).2 rfl) s rfl ?_
      rw [hs]
      intro x hx
      obtain ⟨p, hp, rfl⟩ := List.mem_map.1 hx
      exact ⟨p.1, p.2, rfl, (hl p hp).1, (hl p hp).2.1⟩
    · rw [hs]
      intro x hx
      obtain ⟨p, hp, rfl⟩ := List.mem_map.1 hx
      obtain ⟨h1, h2, h3, h4⟩ := hl p hp
      exact ⟨_, (formatInt_digits h1 h2).trans (if_pos ⟨h3, h4⟩)⟩
  · rintro ⟨ht, hf⟩
    have hchars := (matches_chars ((test_iff s).1 ht)).2
    have key : ∀ x ∈ splitOn ',' s, ∃ p : Str × Str, x = p.1 ++ '-' :: p.2 ∧ Digits p.1 ∧ Digits p.2 ∧
        Nat.ofDigitChars 10 p.1 0 < 2 ^ 63 ∧ Nat.ofDigitChars 10 p.2 0 < 2 ^ 63 := by
      intro x hx
      obtain ⟨r, hr⟩ := hf x hx
      obtain ⟨a, b, e, ha, hb⟩ := digits_of_formatInt (fun c hc => by
        have := mem_split hx hc
        rcases hchars c this.1 with h | h | h
        · exact .inl h
        · exact .inr h
        · exact absurd h this.2) hr
      rw [e, formatInt_digits ha hb] at hr
      split at hr
      · next h => exact ⟨(a, b), e, ha, hb, h⟩
      · cases hr
    have : ∀ l : List Str, (∀ x ∈ l, ∃ p : Str × Str, x = p.1 ++ '-' :: p.2 ∧ Digits p.1 ∧ Digits p.2 ∧
        Nat.ofDigitChars 10 p.1 0 < 2 ^ 63 ∧ Nat.ofDigitChars 10 p.2 0 < 2 ^ 63) →
        ∃ ps : List (Str × Str), l = ps.map (fun p => p.1 ++ '-' :: p.2) ∧ ∀ p ∈ ps, Digits p.1 ∧ Digits p.2 ∧
          Nat.ofDigitChars 10 p.1 0 < 2 ^ 63 ∧ Nat.ofDigitChars 10 p.2 0 < 2 ^ 63 := by
      intro l
      induction l with
      | nil => intro _; exact ⟨[], rfl, by simp⟩
      | cons x r ih =>
        intro h
        obtain ⟨p, hp1, hp2⟩ := h x List.mem_cons_self
        obtain ⟨ps, h1, h2⟩ := ih fun y hy => h y (List.mem_cons_of_mem _ hy)
        exact ⟨p :: ps, by rw [h1, hp1]; rfl, by
          intro q hq
          rcases List.mem_cons.1 hq with rfl | hq
          · exact hp2
          · exact h2 q hq⟩
    obtain ⟨ps, h1, h2⟩ := this _ key
    exact ⟨ps, by rintro rfl; exact splitOn_ne_nil _ _ h1, h1, h2⟩

/-- What is sent is what was typed: the ranges that the metadata server reads are those of the text, for every text
that the server takes. -/
theorem C119_sent (S : Sorter) (f : Form) (slots : List Str) (id : Str) (t : List Edge) (h : startMigrate f = .ok slots)
    (ht : wrapSlotsToEdges S slots id = .ok t) :
    ∃ l, RangeText f.text l ∧ f.src ≠ f.dest ∧ ∀ x : Int, Covers t x ↔
      ∃ p ∈ l, (Nat.ofDigitChars 10 p.1 0 : Int) ≤ x ∧ x < Nat.ofDigitChars 10 p.2 0 := by
  unfold startMigrate at h
  split at h
  · cases h
  · next hne =>
    split at h
    · next htest =>
      cases h
      have hall : ∀ x ∈ splitOn ',' f.text, ∃ r, formatInt x = .ok r := by
        unfold wrapSlotsToEdges at ht
        split at ht
        · cases ht
        · next r hr => exact wrapSlotsOriginal_ok_iff.1 ⟨r, hr⟩
      obtain ⟨l, hl⟩ := (C119_form_partial f.text).2 ⟨htest, hall⟩
      refine ⟨l, hl, hne, ?_⟩
      obtain ⟨_, hm⟩ := wrapSlotsToEdges_ok ht
      intro x
      constructor
      · rintro ⟨e, he, h1, h2⟩
        obtain ⟨_, s, hs, hf⟩ := (hm e).1 he
        rw [hl.2.1] at hs
        obtain ⟨p, hp, rfl⟩ := List.mem_map.1 hs
        obtain ⟨a1, a2, a3, a4⟩ := hl.2.2 p hp
        rw [formatInt_digits a1 a2, if_pos ⟨a3, a4⟩] at hf
        injection hf with hf
        injection hf with e1 e2
        exact ⟨p, hp, by omega, by omega⟩
      · rintro ⟨p, hp, h1, h2⟩
        obtain ⟨a1, a2, a3, a4⟩ := hl.2.2 p hp
        refine ⟨⟨_, _, id⟩, (hm _).2 ⟨rfl, p.1 ++ '-' :: p.2, ?_, (formatInt_digits a1 a2).trans (if_pos ⟨a3, a4⟩)⟩, h1, h2⟩
        rw [hl.2.1]
        exact List.mem_map.2 ⟨p, hp, rfl⟩
    · cases h

/-- **C119 fails**, without harm: the form lets a text pass that ends in a comma or lacks one; the metadata server
refuses all of it. -/
theorem C119_form_fails : test "0-100,".toList = true ∧ test "0-100200-300".toList = true ∧ (¬ ∃ l, RangeText "0-100,".toList l) ∧
    (∀ S id, wrapSlotsToEdges S (splitOn ',' "0-100,".toList) id = .error .format) ∧
    (∀ S id, wrapSlotsToEdges S (splitOn ',' "0-100200-300".toList) id = .error .format) := by
  refine ⟨by decide, by decide, ?_, fun _ _ => rfl, fun _ _ => rfl⟩
  rintro ⟨l, h⟩
  have := ((C119_form_partial _).1 ⟨l, h⟩).2 [] (by decide)
  obtain ⟨r, hr⟩ := this
  cases hr

example : RangeText "0-1000,2000-2500".toList [("0".toList, "1000".toList), ("2000".toList, "2500".toList)] := by
  refine ⟨by decide, by decide, ?_⟩
  unfold Digits
  decide

example : startMigrate ⟨"m1".toList, "m2".toList, "0-1000,2000-2500".toList⟩ = .ok ["0-1000".toList, "2000-2500".toList] := by rfl
example : wrapSlotsToEdges insertionSorter ["0-1000".toList, "2000-2500".toList] "m1".toList =
    .ok [⟨0, 1000, "m1".toList⟩, ⟨2000, 2500, "m1".toList⟩] := by rfl
example : startMigrate ⟨"m1".toList, "m2".toList, "0-1000;2000-2500".toList⟩ = .error .badFormat := by rfl
example : startMigrate ⟨"m1".toList, "m1".toList, "0-1000".toList⟩ = .error .sameServer := by rfl

/-! ## Lemmas: the bars -/

theorem parseDigits_takeWhile {s : Str} {n : Nat} (h : parseDigits s = some n) : parseDigits (s.takeWhile Char.isDigit) = some n := by
  have hs : ∀ c ∈ s, c.isDigit = true := by
    unfold parseDigits at h
    split at h
    · next hc => exact List.all_eq_true.1 hc.2
    · cases h
  have : s.takeWhile Char.isDigit = s := by
    clear h
    induction s with
    | nil => rfl
    | cons c r ih =>
      rw [List.takeWhile_cons_of_pos (hs c List.mem_cons_self), ih fun d hd => hs d (List.mem_cons_of_mem _ hd)]
  rw [this]
  exact h

theorem parseInt_of_atoi {s : Str} {n : Int} (h : atoi s = some n) (hd : '-' ∉ s) : parseInt s = some n := by
  have fin : ∀ r : Str, (match parseDigits r with
      | some m => if m < 2 ^ 63 then some (m : Int) else none
      | none => none) = some n → (parseDigits (r.takeWhile Char.isDigit)).map (fun m : Nat => (m : Int)) = some n := by
    intro r h
    split at h
    · next m hm =>
      split at h
      · rw [parseDigits_takeWhile hm]; exact h
      · cases h
    · cases h
  cases s with
  | nil => exact fin [] h
  | cons c r =>
    by_cases h1 : c = '-'
    · subst h1; exact absurd List.mem_cons_self hd
    · by_cases h2 : c = '+'
      · subst h2; exact fin r h
      · have e1 : parseInt (c :: r) = (parseDigits ((c :: r).takeWhile Char.isDigit)).map (fun m : Nat => (m : Int)) := by
          unfold parseInt
          dsimp only
          split
          · next h => exact absurd (List.cons.inj h).1 h1
          · next h => exact absurd (List.cons.inj h).1 h2
          · rfl
        rw [e1]
        apply fin
        unfold atoi at h
        split at h
        · next h' => cases h'; exact absurd rfl h1
        · next h' => cases h'; exact absurd rfl h2
        · exact h

theorem range_of_formatInt {s id : Str} {a b : Int} (h : formatInt s = .ok (a, b)) : range id s = some ⟨a, b, id⟩ := by
  unfold formatInt at h
  split at h
  · next x y hs =>
    have hx : '-' ∉ x := fun hm => (mem_split (sep := '-') (s := s) (seg := x) (by rw [hs]; simp) hm).2 rfl
    have hy : '-' ∉ y := fun hm => (mem_split (sep := '-') (s := s) (seg := y) (by rw [hs]; simp) hm).2 rfl
    unfold range
    rw [hs]
    dsimp only
    split at h
    · cases h
    · next n hn =>
      split at h
      · cases h
      · split at h
        · cases h
        · next m hm =>
          split at h
          · cases h
          · injection h with h
            injection h with h1 h2
            rw [parseInt_of_atoi hn hx, parseInt_of_atoi hm hy, h1, h2]
  · cases h

theorem mapM_range {id : Str} : ∀ {ss : List Str} {r : List Edge}, wrapSlotsOriginal ss id = .ok r → ss.mapM (range id) = some r := by
  intro ss
  induction ss with
  | nil => intro r h; cases h; rfl
  | cons s t ih =>
    intro r h
    unfold wrapSlotsOriginal at h
    split at h
    · cases h
    · next a b hf =>
      split at h
      · cases h
      · next r' hr =>
        cases h
        rw [List.mapM_cons, range_of_formatInt hf, ih hr]
        rfl

/-- A range with slots in it. -/
def wide (e : Edge) : Bool := decide (e.start < e.stop)

theorem groupRanges_ok {i : Info} {r : List Edge} (h : wrapSlotsOriginal i.slots i.id = .ok r) :
    ∃ x, groupRanges i = some x ∧ x.filter wide = r.filter wide ∧ ∀ e ∈ x, e ∈ r ∨ e = ⟨0, 0, i.id⟩ := by
  unfold groupRanges
  split
  · next hs =>
    rw [hs] at h
    cases h
    exact ⟨_, rfl, by simp [wide], by simp⟩
  · exact ⟨r, mapM_range h, rfl, fun e he => .inl he⟩

theorem collect_ranges : ∀ {l : List Info} {r : List Edge}, collectSlots (table l) = .ok r →
    ∃ x, l.mapM groupRanges = some x ∧ x.flatten.filter wide = r.filter wide ∧ ∀ e ∈ x.flatten, e ∈ r ∨ ∃ i ∈ l, e = ⟨0, 0, i.id⟩ := by
  intro l
  induction l with
  | nil => intro r h; cases h; exact ⟨[], rfl, rfl, by simp⟩
  | cons i t ih =>
    intro r h
    have e : table (i :: t) = (i.id, i.slots) :: table t := rfl
    rw [e, collectSlots] at h
    split at h
    · cases h
    · next r1 h1 =>
      split at h
      · cases h
      · next r2 h2 =>
        cases h
        obtain ⟨x, hx, hf, hm⟩ := groupRanges_ok h1
        obtain ⟨y, hy, hg, hn⟩ := ih h2
        refine ⟨x :: y, by rw [List.mapM_cons, hx, hy]; rfl, by simp [List.filter_append, hf, hg], ?_⟩
        intro e he
        rw [List.flatten_cons, List.mem_append] at he
        rcases he with he | he
        · rcases hm e he with h | h
          · exact .inl (List.mem_append_left _ h)
          · exact .inr ⟨i, List.mem_cons_self, h⟩
        · rcases hn e he with h | ⟨j, hj, h⟩
          · exact .inl (List.mem_append_right _ h)
          · exact .inr ⟨j, List.mem_cons_of_mem _ hj, h⟩

theorem offset_wide {l : List Edge} (h : ∀ e ∈ l, wide e = false → e.start = e.stop) : offset l = offset (l.filter wide) := by
  induction l with
  | nil => rfl
  | cons e r ih =>
    have := ih fun x hx => h x (List.mem_cons_of_mem _ hx)
    have e1 : offset (e :: r) = width e + offset r := by simp [offset]
    by_cases hw : wide e = true
    · rw [List.filter_cons_of_pos hw, e1, this]
      simp [offset]
    · rw [List.filter_cons_of_neg hw, e1, ← this]
      have := h e List.mem_cons_self (by simpa using hw)
      simp [width]; omega

/-! ## Theorems: the bars -/

/-- The bars with slots in them are the table that the servers of the interface route with, in its order; every other
bar is the empty one of a group without slots. -/
theorem C119_bars (S : Sorter) (O : Order) (l : List Info) (t : List Edge) (h : wrapSlots S (table l) = .ok t) :
    ∃ bars, getSlotRanges O l = some bars ∧ bars.filter (fun e => e.start < e.stop) = t ∧
      ∀ e ∈ bars, e ∈ t ∨ ∃ i ∈ l, e = ⟨0, 0, i.id⟩ := by
  unfold wrapSlots at h
  split at h
  · cases h
  · split at h
    · cases h
    · next r hr =>
      obtain ⟨rfl, ht⟩ := sortAndValidate_ok h
      obtain ⟨x, hx, hf, hm⟩ := collect_ranges hr
      have hne : ∀ e ∈ r, wide e = true := fun e he => decide_eq_true (ht.1 e ((S.perm r).mem_iff.2 he))
      rw [List.filter_eq_self.2 hne] at hf
      refine ⟨O.run x.flatten, by rw [getSlotRanges, hx]; rfl, ?_, ?_⟩
      · have hp : ((O.run x.flatten).filter wide).Perm (S.run r) :=
          ((O.perm _).filter wide).trans (hf ▸ (S.perm r).symm)
        refine List.Perm.eq_of_pairwise (le := fun a b => a.start ≤ b.start) ?_ ((O.sorted _).filter _) ?_ hp
        · intro a b ha hb h1 h2
          have ha' := hp.mem_iff.1 ha
          have w1 := ht.1 a ha'
          have w2 := ht.1 b hb
          exact tidy_unique ht ha' hb (x := a.start) ⟨by omega, by omega⟩ ⟨by omega, by omega⟩
        · refine List.Pairwise.imp_of_mem ?_ ht.2
          intro a b ha _ hab
          have := ht.1 a ha
          omega
      · intro e he
        rcases hm e ((O.perm _).mem_iff.1 he) with h | h
        · exact .inl ((S.perm r).mem_iff.2 h)
        · exact .inr h

/-- **C119, partial**: no bar stands to the right of its first slot, and it stands there exactly if every slot before is
owned by a group.  (Missing: a gap moves all later bars to the left, `C119_bars_fail`.) -/
theorem C119_offset_partial (S : Sorter) (O : Order) (l : List Info) (t pre post : List Edge) (e : Edge)
    (h : wrapSlots S (table l) = .ok t) (hb : getSlotRanges O l = some (pre ++ e :: post)) (he : e.start < e.stop) :
    offset pre ≤ e.start ∧ (offset pre = e.start ↔ ∀ x, 0 ≤ x → x < e.start → Covers t x) := by
  obtain ⟨bars, h1, h2, h3⟩ := C119_bars S O l t h
  rw [hb] at h1
  cases h1
  obtain ⟨ht, hpub⟩ := wrapSlots_ok h
  have hpos : ∀ p ∈ t, 0 ≤ p.start := by
    intro p hp
    obtain ⟨ss, _, s, _, hf⟩ := (hpub p).1 hp
    unfold formatInt at hf
    (repeat' split at hf) <;> first | (injection hf with hf; injection hf with a b; omega) | cases hf
  rw [List.filter_append, List.filter_cons_of_pos (by simpa using he)] at h2
  have ho : offset pre = offset (pre.filter wide) := by
    apply offset_wide
    intro p hp hw
    rcases h3 p (List.mem_append_left _ hp) with h | ⟨i, _, rfl⟩
    · have := ht.1 p h
      simp [wide] at hw
      omega
    · rfl
  have hw : pre.filter (fun e => decide (e.start < e.stop)) = pre.filter wide := rfl
  rw [hw] at h2
  rw [ho]
  rw [← h2] at ht hpos
  have hpre : Tidy (pre.filter wide) := ⟨fun p hp => ht.1 p (List.mem_append_left _ hp), (List.pairwise_append.1 ht.2).1⟩
  have hin : ∀ p ∈ pre.filter wide, 0 ≤ p.start ∧ p.stop ≤ e.start := fun p hp =>
    ⟨hpos p (List.mem_append_left _ hp), (List.pairwise_append.1 ht.2).2.2 p hp e List.mem_cons_self⟩
  have h0 : 0 ≤ e.start := hpos e (by simp)
  have hle := tidy_sum_le _ hpre 0 e.start h0 hin
  have hcov := tidy_sum_cover _ hpre 0 e.start h0 hin
  refine ⟨by unfold offset width; omega, ?_⟩
  have : offset (pre.filter wide) = e.start ↔ ∀ x, 0 ≤ x → x < e.start → Covers (pre.filter wide) x := by
    rw [← hcov]; unfold offset width; omega
  rw [this]
  constructor
  · intro hx x a b
    obtain ⟨p, hp, hq⟩ := hx x a b
    exact ⟨p, by rw [← h2]; exact List.mem_append_left _ hp, hq⟩
  · intro hx x a b
    obtain ⟨p, hp, c, d⟩ := hx x a b
    rw [← h2] at hp
    rcases List.mem_append.1 hp with hp | hp
    · exact ⟨p, hp, c, d⟩
    · exfalso
      rcases List.mem_cons.1 hp with rfl | hp
      · omega
      · have := (List.pairwise_cons.1 (List.pairwise_append.1 ht.2).2.1).1 p hp
        omega

/-- **C119, partial**: a click on a bar chooses the group that owns the range, and the owner's record in the list of
servers shows the slots of that group if its id is the id of the server.  (Missing: with raft they differ,
`C119_click_fails`.) -/
theorem C119_click_partial (S : Sorter) (O : Order) (l : List Info) (t bars : List Edge) (e : Edge) (f : Form)
    (h : wrapSlots S (table l) = .ok t) (hb : getSlotRanges O l = some bars) (he : e ∈ bars) (hid : ∀ i ∈ l, i.id = i.serverId) :
    ∃ i ∈ l, i.id = e.value ∧ (click e f).src = i.serverId ∧ (click e f).dest = f.dest ∧ (click e f).text = f.text := by
  obtain ⟨bars', h1, _, h3⟩ := C119_bars S O l t h
  rw [hb] at h1
  cases h1
  obtain ⟨i, hi, hv⟩ : ∃ i ∈ l, i.id = e.value := by
    rcases h3 e he with h' | ⟨i, hi, rfl⟩
    · obtain ⟨ss, hm, _⟩ := ((wrapSlots_ok h).2 e).1 h'
      obtain ⟨i, hi, hv⟩ := List.mem_map.1 hm
      injection hv with hv _
      exact ⟨i, hi, hv⟩
    · exact ⟨i, hi, rfl⟩
  exact ⟨i, hi, hv, by rw [← hid i hi, hv]; rfl, rfl, rfl⟩

/-- A request for a source that is the id of no server is refused and nothing is sent. -/
theorem C119_unknown_source (n : Admin.Commands.Net) (f : Form) (slots : List Str) (h : n.metas.get f.src = none) :
    (Admin.Commands.command n (request f slots)).1 = [] ∧ (Admin.Commands.command n (request f slots)).2 ≠ none := by
  unfold request Admin.Commands.command
  dsimp only
  split
  · exact ⟨rfl, by simp⟩
  · unfold Admin.Commands.startMigration
    rw [h]
    simp

/-! ### Examples and refutations -/

def order : Order where
  run l := l.mergeSort fun a b => decide (a.start ≤ b.start)
  perm l := List.mergeSort_perm _ _
  sorted l := (List.pairwise_mergeSort (le := fun a b : Edge => decide (a.start ≤ b.start))
    (fun a b c h1 h2 => by simp at *; omega) (fun a b => by simp; omega) l).imp (by simp)

/-- Two groups with all slots and one without any. -/
def groups : List Info :=
  [⟨"m2".toList, "m2".toList, ["8000-16384".toList]⟩, ⟨"m3".toList, "m3".toList, []⟩, ⟨"m1".toList, "m1".toList, ["0-8000".toList]⟩]

theorem groups_bars : ∃ bars, getSlotRanges order groups = some bars ∧ bars.filter (fun e => e.start < e.stop) =
    [⟨0, 8000, "m1".toList⟩, ⟨8000, 16384, "m2".toList⟩] := by
  obtain ⟨b, h1, h2, _⟩ := C119_bars insertionSorter order groups [⟨0, 8000, "m1".toList⟩, ⟨8000, 16384, "m2".toList⟩] (by rfl)
  exact ⟨b, h1, h2⟩

example : ∀ i ∈ groups, i.id = i.serverId := by decide

/-- The bar of the second group stands at 8000, whatever the order of the empty bar. -/
example (pre post : List Edge) (h : getSlotRanges order groups = some (pre ++ ⟨8000, 16384, "m2".toList⟩ :: post)) :
    offset pre = 8000 := by
  have hw : wrapSlots insertionSorter (table groups) = .ok [⟨0, 8000, "m1".toList⟩, ⟨8000, 16384, "m2".toList⟩] := by rfl
  refine (C119_offset_partial insertionSorter order groups _ pre post _ hw h (by decide)).2.2 ?_
  intro x h0 h1
  exact ⟨⟨0, 8000, "m1".toList⟩, by simp, h0, h1⟩

/-- A group that lost its first slots. -/
def gap : List Info := [⟨"m1".toList, "m1".toList, ["100-200".toList]⟩]

/-- **C119 fails**: a bar does not stand where its slots are if there is a gap before. -/
theorem C119_bars_fail : wrapSlots insertionSorter (table gap) = .ok [⟨100, 200, "m1".toList⟩] ∧
    ∀ O, getSlotRanges O gap = some ([] ++ ⟨100, 200, "m1".toList⟩ :: []) ∧ offset [] = 0 := by
  refine ⟨by rfl, fun O => ⟨?_, rfl⟩⟩
  have : gap.mapM groupRanges = some [[⟨100, 200, "m1".toList⟩]] := by rfl
  rw [getSlotRanges, this]
  have hp := O.perm [⟨100, 200, "m1".toList⟩]
  exact congrArg some hp.eq_singleton

/-- A group of servers that use raft: the group has a name of its own (src/metaserver/config/config.go: `StoreID`). -/
def raft : List Info := [⟨"raft".toList, "m1".toList, ["0-16384".toList]⟩]

/-- **C119 fails**: with raft a click on a bar chooses the name of the group, which no server has; the request is
refused by the administration server. -/
theorem C119_click_fails (n : Admin.Commands.Net) (h : n.metas.get "raft".toList = none) :
    wrapSlots insertionSorter (table raft) = .ok [⟨0, 16384, "raft".toList⟩] ∧
    (∀ O, getSlotRanges O raft = some [⟨0, 16384, "raft".toList⟩]) ∧
    (∀ f, ¬ ∃ i ∈ raft, (click ⟨0, 16384, "raft".toList⟩ f).src = i.serverId) ∧
    ∀ f slots, (Admin.Commands.command n (request (click ⟨0, 16384, "raft".toList⟩ f) slots)).1 = [] ∧
      (Admin.Commands.command n (request (click ⟨0, 16384, "raft".toList⟩ f) slots)).2 ≠ none := by
  refine ⟨by rfl, fun O => ?_, ?_, fun f slots => C119_unknown_source n _ slots h⟩
  · have : raft.mapM groupRanges = some [[⟨0, 16384, "raft".toList⟩]] := by rfl
    rw [getSlotRanges, this]
    exact congrArg some (O.perm [⟨0, 16384, "raft".toList⟩]).eq_singleton
  · rintro f ⟨i, hi, h⟩
    rw [raft, List.mem_singleton] at hi
    rw [hi] at h
    exact absurd h (by decide : ¬ "raft".toList = "m1".toList)

theorem C119_statement_fails : ¬ C119_statement := by
  intro h
  exact C119_form_fails.2.2.1 ((h.1 _).1 C119_form_fails.1)

/-- The other parts fail as well. -/
theorem C119_statement_bars_fail : ¬ ∀ (S : Sorter) (O : Order) (l : List Info) (t pre post : List Edge) (e : Edge),
    wrapSlots S (table l) = .ok t → getSlotRanges O l = some (pre ++ e :: post) → e.start < e.stop → offset pre = e.start := by
  intro h
  have := h insertionSorter order gap _ [] [] _ C119_bars_fail.1 (C119_bars_fail.2 order).1 (by decide)
  exact absurd this (by decide)

end Verif.Ui.Slots
