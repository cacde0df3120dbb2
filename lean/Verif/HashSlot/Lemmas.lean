import Verif.HashSlot.Spec

/-! Helper lemmas for slot tables. -/

namespace Verif.HashSlot

open Verif

/-! ### `sort.Search` -/

theorem searchLoop_spec (f : Nat → Bool) (n : Nat)
    (mono : ∀ i j, i ≤ j → j < n → f i = true → f j = true) :
    ∀ fuel i j, i ≤ j → j ≤ n → j - i ≤ fuel →
      (∀ k, k < i → f k = false) → (∀ k, j ≤ k → k < n → f k = true) →
      let r := searchLoop f fuel i j
      i ≤ r ∧ r ≤ j ∧ (∀ k, k < r → f k = false) ∧ (∀ k, r ≤ k → k < n → f k = true) := by
  intro fuel
  induction fuel with
  | zero =>
    intro i j hij hjn hf hlo hhi
    have : i = j := by omega
    subst this
    exact ⟨Nat.le_refl _, Nat.le_refl _, hlo, hhi⟩
  | succ fuel ih =>
    intro i j hij hjn hf hlo hhi
    simp only [searchLoop]
    by_cases h : i < j
    · rw [if_pos h]
      by_cases hm : f ((i + j) / 2) = true
      · rw [if_pos hm]
        have := ih i ((i + j) / 2) (by omega) (by omega) (by omega) hlo
          (fun k hk hkn => mono _ k hk hkn hm)
        exact ⟨this.1, by omega, this.2.2⟩
      · rw [if_neg hm]
        have hlo' : ∀ k, k < (i + j) / 2 + 1 → f k = false := by
          intro k hk
          cases hfk : f k with
          | false => rfl
          | true => exact absurd (mono k _ (by omega) (by omega) hfk) hm
        have := ih ((i + j) / 2 + 1) j (by omega) hjn (by omega) hlo' hhi
        exact ⟨by omega, this.2⟩
    · rw [if_neg h]
      have : i = j := by omega
      subst this
      exact ⟨Nat.le_refl _, Nat.le_refl _, hlo, hhi⟩

theorem sortSearch_spec (f : Nat → Bool) (n : Nat)
    (mono : ∀ i j, i ≤ j → j < n → f i = true → f j = true) :
    sortSearch n f ≤ n ∧ (∀ k, k < sortSearch n f → f k = false) ∧
      (∀ k, sortSearch n f ≤ k → k < n → f k = true) := by
  have := searchLoop_spec f n mono n 0 n (by omega) (by omega) (by omega)
    (fun k hk => by omega) (fun k hk hkn => by omega)
  exact ⟨this.2.1, this.2.2.1, this.2.2.2⟩

/-! ### lookup in a tidy list -/

theorem tidy_mono {l : List Edge} (h : Tidy l) (x : Int) :
    ∀ i j, i ≤ j → j < l.length → beforeEnd x l i = true → beforeEnd x l j = true := by
  intro i j hij hj hi
  rcases Nat.lt_or_ge i j with hlt | hge
  · have hil : i < l.length := by omega
    have hp := List.pairwise_iff_getElem.1 h.2 i j hil hj hlt
    have hne := h.1 l[j] (List.getElem_mem hj)
    simp only [beforeEnd, List.getElem?_eq_getElem hil, List.getElem?_eq_getElem hj,
      decide_eq_true_eq] at *
    omega
  · have : i = j := by omega
    subst this; exact hi

/-- In a tidy list the binary search followed by the start test finds exactly the covering edge. -/
theorem lookup_spec {l : List Edge} (h : Tidy l) (x : Int) :
    (∃ e, l[sortSearch l.length (beforeEnd x l)]? = some e ∧ e ∈ l ∧ x < e.stop ∧
      (e.start ≤ x ∨ ¬ Covers l x)) ∨
    (l[sortSearch l.length (beforeEnd x l)]? = none ∧ ¬ Covers l x) := by
  obtain ⟨_, hlo, hhi⟩ := sortSearch_spec (beforeEnd x l) l.length (tidy_mono h x)
  generalize sortSearch l.length (beforeEnd x l) = r at *
  by_cases hr : r < l.length
  · left
    refine ⟨l[r], List.getElem?_eq_getElem hr, List.getElem_mem hr, ?_, ?_⟩
    · have := hhi r (Nat.le_refl _) hr
      simpa [beforeEnd, List.getElem?_eq_getElem hr] using this
    · by_cases hs : l[r].start ≤ x
      · exact Or.inl hs
      · right
        rintro ⟨e, he, h1, h2⟩
        obtain ⟨k, hk, rfl⟩ := List.getElem_of_mem he
        rcases Nat.lt_trichotomy k r with hkr | hkr | hkr
        · have := hlo k hkr
          simp [beforeEnd, List.getElem?_eq_getElem hk] at this
          omega
        · subst hkr; exact hs h1
        · have hp := List.pairwise_iff_getElem.1 h.2 r k hr hk hkr
          have := h.1 l[r] (List.getElem_mem hr)
          omega
  · right
    refine ⟨List.getElem?_eq_none (by omega), ?_⟩
    rintro ⟨e, he, h1, h2⟩
    obtain ⟨k, hk, rfl⟩ := List.getElem_of_mem he
    have := hlo k (by omega)
    simp [beforeEnd, List.getElem?_eq_getElem hk] at this
    omega

/-- Two edges of a tidy list covering the same slot are the same edge. -/
theorem tidy_unique {l : List Edge} (h : Tidy l) {e f : Edge} (he : e ∈ l) (hf : f ∈ l) {x : Int}
    (h1 : e.start ≤ x ∧ x < e.stop) (h2 : f.start ≤ x ∧ x < f.stop) : e = f := by
  obtain ⟨i, hi, rfl⟩ := List.getElem_of_mem he
  obtain ⟨j, hj, rfl⟩ := List.getElem_of_mem hf
  rcases Nat.lt_trichotomy i j with h' | h' | h'
  · have := List.pairwise_iff_getElem.1 h.2 i j hi hj h'; omega
  · subst h'; rfl
  · have := List.pairwise_iff_getElem.1 h.2 j i hj hi h'; omega

theorem getSlotIdentify_iff {l : List Edge} (h : Tidy l) (x : Int) (v : Str) :
    getSlotIdentify x l = some v ↔ Owns l v x := by
  unfold getSlotIdentify
  rcases lookup_spec h x with ⟨e, he, hm, hx, hs⟩ | ⟨hn, hc⟩
  · rw [he]
    simp only [ge_iff_le]
    by_cases hse : e.start ≤ x
    · simp only [hse, if_true, Option.some.injEq]
      constructor
      · rintro rfl; exact ⟨e, hm, rfl, hse, hx⟩
      · rintro ⟨f, hf, rfl, h1, h2⟩
        rw [tidy_unique h hm hf ⟨hse, hx⟩ ⟨h1, h2⟩]
    · simp only [hse, if_false, reduceCtorEq, false_iff]
      rintro ⟨f, hf, _, h1, h2⟩
      rcases hs with hs | hs
      · exact hse hs
      · exact hs ⟨f, hf, h1, h2⟩
  · rw [hn]
    simp only [reduceCtorEq, false_iff]
    rintro ⟨f, hf, _, h1, h2⟩
    exact hc ⟨f, hf, h1, h2⟩

theorem isSlotInEdges_iff {l : List Edge} (h : Tidy l) (x : Int) :
    isSlotInEdges x l = true ↔ Covers l x := by
  unfold isSlotInEdges
  rcases lookup_spec h x with ⟨e, he, hm, hx, hs⟩ | ⟨hn, hc⟩
  · rw [he]
    simp only [ge_iff_le, decide_eq_true_eq]
    constructor
    · intro hse; exact ⟨e, hm, hse, hx⟩
    · intro hc; rcases hs with hs | hs
      · exact hs
      · exact absurd hc hs
  · rw [hn]; simpa using hc

/-! ### validation -/

theorem noOverlap_symm {a b : Edge} (h : NoOverlap a b) : NoOverlap b a :=
  fun x hx => h x ⟨hx.2, hx.1⟩

theorem noOverlap_iff {a b : Edge} (ha : a.start < a.stop) (hb : b.start < b.stop) :
    NoOverlap a b ↔ a.stop ≤ b.start ∨ b.stop ≤ a.start := by
  constructor
  · intro h
    have := h (max a.start b.start)
    omega
  · intro h x hx; omega

theorem validate_none_iff (l : List Edge) :
    validate none l = .ok () ↔
      NonEmpty l ∧ l.Pairwise (fun a b => a.stop ≤ b.start) := by
  have key : ∀ (l : List Edge) (p : Edge), p.start < p.stop →
      (validate (some p) l = .ok () ↔
        NonEmpty l ∧ (p :: l).Pairwise (fun a b => a.stop ≤ b.start)) := by
    intro l
    induction l with
    | nil => intro p hp; simp [validate, NonEmpty]
    | cons e es ih =>
      intro p hp
      unfold validate
      by_cases h1 : e.start ≥ e.stop
      · simp only [h1, if_true, reduceCtorEq, false_iff, not_and]
        intro hne; exfalso; have := hne e (by simp); omega
      · rw [if_neg h1]
        by_cases h2 : p.start = e.start ∨ p.stop > e.start
        · simp only [h2, if_true, reduceCtorEq, false_iff, not_and]
          intro _ hpw
          have := (List.pairwise_cons.1 hpw).1 e (by simp)
          omega
        · rw [if_neg h2, ih e (by omega)]
          constructor
          · rintro ⟨hne, hpw⟩
            refine ⟨?_, ?_⟩
            · intro x hx
              rcases List.mem_cons.1 hx with rfl | hx
              · omega
              · exact hne x hx
            · refine List.pairwise_cons.2 ⟨?_, hpw⟩
              intro x hx
              rcases List.mem_cons.1 hx with rfl | hx
              · omega
              · have := (List.pairwise_cons.1 hpw).1 x hx
                omega
          · rintro ⟨hne, hpw⟩
            exact ⟨fun x hx => hne x (by simp [hx]), (List.pairwise_cons.1 hpw).2⟩
  cases l with
  | nil => simp [validate, NonEmpty]
  | cons e es =>
    unfold validate
    by_cases h1 : e.start ≥ e.stop
    · simp only [h1, if_true, reduceCtorEq, false_iff, not_and]
      intro hne; exfalso; have := hne e (by simp); omega
    · rw [if_neg h1, key es e (by omega)]
      constructor
      · rintro ⟨hne, hpw⟩
        refine ⟨?_, hpw⟩
        intro x hx
        rcases List.mem_cons.1 hx with rfl | hx
        · omega
        · exact hne x hx
      · rintro ⟨hne, hpw⟩
        exact ⟨fun x hx => hne x (by simp [hx]), hpw⟩

theorem sortAndValidate_ok {S : Sorter} {l r : List Edge} (h : sortAndValidate S l = .ok r) :
    r = S.run l ∧ Tidy r := by
  unfold sortAndValidate at h
  split at h
  · rename_i hv
    cases h
    exact ⟨rfl, (validate_none_iff _).1 hv⟩
  · cases h

/-- Acceptance depends only on the multiset of ranges: all non-empty and pairwise disjoint. -/
theorem sortAndValidate_iff {S : Sorter} {l : List Edge} :
    (∃ r, sortAndValidate S l = .ok r) ↔ NonEmpty l ∧ l.Pairwise NoOverlap := by
  constructor
  · rintro ⟨r, h⟩
    obtain ⟨rfl, hne, hpw⟩ := sortAndValidate_ok h
    have hne' : NonEmpty l := fun e he => hne e ((S.perm l).mem_iff.2 he)
    refine ⟨hne', ?_⟩
    refine ((S.perm l).pairwise_iff (fun h => noOverlap_symm h)).1 ?_
    refine List.Pairwise.imp_of_mem ?_ hpw
    intro a b ha hb hab
    exact (noOverlap_iff (hne a ha) (hne b hb)).2 (Or.inl hab)
  · rintro ⟨hne, hpw⟩
    have hne' : NonEmpty (S.run l) := fun e he => hne e ((S.perm l).mem_iff.1 he)
    have hpw' := ((S.perm l).pairwise_iff (fun h => noOverlap_symm h)).2 hpw
    have hs := S.sorted l
    have : validate none (S.run l) = .ok () := by
      rw [validate_none_iff]
      refine ⟨hne', ?_⟩
      refine List.Pairwise.imp_of_mem ?_ (hpw'.and hs)
      rintro a b ha hb ⟨hno, hlt⟩
      have h1 := hne' a ha
      have h2 := hne' b hb
      have := (noOverlap_iff h1 h2).1 hno
      simp [Edge.less] at hlt
      split at hlt <;> omega
    exact ⟨S.run l, by simp [sortAndValidate, this]⟩

theorem wrapSlotsOriginal_mem {ss : List Str} {id : Str} {r : List Edge}
    (h : wrapSlotsOriginal ss id = .ok r) (e : Edge) :
    e ∈ r ↔ e.value = id ∧ ∃ s ∈ ss, formatInt s = .ok (e.start, e.stop) := by
  induction ss generalizing r with
  | nil => simp [wrapSlotsOriginal] at h; subst h; simp
  | cons s ss ih =>
    unfold wrapSlotsOriginal at h
    split at h
    · cases h
    · rename_i a b hf
      split at h
      · cases h
      · rename_i r' hr'
        cases h
        simp only [List.mem_cons, ih hr']
        constructor
        · rintro (rfl | ⟨hv, s', hs', hf'⟩)
          · exact ⟨rfl, s, Or.inl rfl, hf⟩
          · exact ⟨hv, s', Or.inr hs', hf'⟩
        · rintro ⟨hv, s', (rfl | hs'), hf'⟩
          · left
            rw [hf] at hf'
            cases e; simp at hf' hv; simp [hf', hv]
          · exact Or.inr ⟨hv, s', hs', hf'⟩

theorem wrapSlotsOriginal_ok_iff {ss : List Str} {id : Str} :
    (∃ r, wrapSlotsOriginal ss id = .ok r) ↔ ∀ s ∈ ss, ∃ p, formatInt s = .ok p := by
  induction ss with
  | nil => simp [wrapSlotsOriginal]
  | cons s ss ih =>
    unfold wrapSlotsOriginal
    cases hf : formatInt s with
    | error e => simp [hf]
    | ok p =>
      obtain ⟨a, b⟩ := p
      cases hw : wrapSlotsOriginal ss id with
      | error e =>
        have : ¬ ∃ r, wrapSlotsOriginal ss id = .ok r := by rw [hw]; simp
        rw [ih] at this
        simpa [hf] using this
      | ok r =>
        have := ih.1 ⟨r, hw⟩
        simpa [hf] using this

theorem collectSlots_mem {m : List (Str × List Str)} {r : List Edge}
    (h : collectSlots m = .ok r) (e : Edge) :
    e ∈ r ↔ Published m e.value e.start e.stop := by
  induction m generalizing r with
  | nil => simp [collectSlots] at h; subst h; simp [Published]
  | cons p m ih =>
    obtain ⟨id, ss⟩ := p
    unfold collectSlots at h
    split at h
    · cases h
    · rename_i r1 hr1
      split at h
      · cases h
      · rename_i r2 hr2
        cases h
        rw [List.mem_append, ih hr2, wrapSlotsOriginal_mem hr1]
        constructor
        · rintro (⟨hv, s, hs, hf⟩ | ⟨ss', hm, hs⟩)
          · exact ⟨ss, by simp [hv], s, hs, hf⟩
          · exact ⟨ss', by simp [hm], hs⟩
        · rintro ⟨ss', hm, hs⟩
          rcases List.mem_cons.1 hm with heq | hm
          · cases heq; exact Or.inl ⟨rfl, hs⟩
          · exact Or.inr ⟨ss', hm, hs⟩

theorem wrapSlots_ok {S : Sorter} {m : List (Str × List Str)} {t : List Edge}
    (h : wrapSlots S m = .ok t) :
    Tidy t ∧ ∀ e, e ∈ t ↔ Published m e.value e.start e.stop := by
  unfold wrapSlots at h
  split at h
  · cases h
  · split at h
    · cases h
    · rename_i r hr
      obtain ⟨rfl, ht⟩ := sortAndValidate_ok h
      refine ⟨ht, fun e => ?_⟩
      rw [(S.perm r).mem_iff, collectSlots_mem hr]

theorem wrapSlotsToEdges_ok {S : Sorter} {ss : List Str} {id : Str} {t : List Edge}
    (h : wrapSlotsToEdges S ss id = .ok t) :
    Tidy t ∧ ∀ e, e ∈ t ↔ e.value = id ∧ ∃ s ∈ ss, formatInt s = .ok (e.start, e.stop) := by
  unfold wrapSlotsToEdges at h
  split at h
  · cases h
  · rename_i r hr
    obtain ⟨rfl, ht⟩ := sortAndValidate_ok h
    refine ⟨ht, fun e => ?_⟩
    rw [(S.perm r).mem_iff, wrapSlotsOriginal_mem hr]

/-! ### combine -/

theorem mergeInto_spec (last : Edge) (l : List Edge) (h0 : last.start < last.stop)
    (hne : NonEmpty l) (hs : ∀ e ∈ l, last.start ≤ e.start)
    (hsort : l.Pairwise fun a b => a.start ≤ b.start) :
    Canonical (mergeInto last l) ∧
    (∀ e ∈ mergeInto last l, last.start ≤ e.start) ∧
    (∀ x, Covers (mergeInto last l) x ↔ (last.start ≤ x ∧ x < last.stop) ∨ Covers l x) := by
  induction l generalizing last with
  | nil =>
    simp [mergeInto, Canonical, NonEmpty, Covers, h0]
  | cons e es ih =>
    have he := hne e (by simp)
    have hes := hs e (by simp)
    have hne' : NonEmpty es := fun x hx => hne x (by simp [hx])
    have hsort' := (List.pairwise_cons.1 hsort)
    unfold mergeInto
    by_cases h : e.start ≤ last.stop
    · rw [if_pos h]
      obtain ⟨hc, hst, hcov⟩ := ih ⟨min last.start e.start, max last.stop e.stop, last.value⟩
        (by simp; omega) hne'
        (by intro x hx; have := hsort'.1 x hx; simp; omega) hsort'.2
      refine ⟨hc, ?_, ?_⟩
      · intro x hx; have := hst x hx; simp at this; omega
      · intro x
        rw [hcov]
        simp only [Covers, List.mem_cons, exists_eq_or_imp]
        constructor
        · rintro (h1 | h1)
          · by_cases hx : x < last.stop
            · left; omega
            · right; left; omega
          · exact Or.inr (Or.inr h1)
        · rintro (h1 | h1 | h1)
          · left; omega
          · left; omega
          · exact Or.inr h1
    · rw [if_neg h]
      obtain ⟨hc, hst, hcov⟩ := ih e he hne' hsort'.1 hsort'.2
      refine ⟨⟨?_, ?_⟩, ?_, ?_⟩
      · intro x hx
        rcases List.mem_cons.1 hx with rfl | hx
        · exact h0
        · exact hc.1 x hx
      · refine List.pairwise_cons.2 ⟨?_, hc.2⟩
        intro x hx
        have := hst x hx
        omega
      · intro x hx
        rcases List.mem_cons.1 hx with rfl | hx
        · omega
        · have := hst x hx; omega
      · intro x
        have := hcov x
        simp only [Covers, List.mem_cons, exists_eq_or_imp] at this ⊢
        rw [this]

theorem mergeInto_value (last : Edge) (l : List Edge) (v : Str) (h0 : last.value = v)
    (h : ∀ e ∈ l, e.value = v) : ∀ e ∈ mergeInto last l, e.value = v := by
  induction l generalizing last with
  | nil => simpa [mergeInto] using h0
  | cons e es ih =>
    unfold mergeInto
    split
    · exact ih _ h0 (fun x hx => h x (by simp [hx]))
    · intro x hx
      rcases List.mem_cons.1 hx with rfl | hx
      · exact h0
      · exact ih e (h e (by simp)) (fun x hx => h x (by simp [hx])) x hx

theorem combineEdges_spec (S : Sorter) (src dest : List Edge) (h1 : NonEmpty src)
    (h2 : NonEmpty dest) :
    Canonical (combineEdges S src dest) ∧
    ∀ x, Covers (combineEdges S src dest) x ↔ Covers src x ∨ Covers dest x := by
  have hp := S.perm (src ++ dest)
  have hs := S.sorted (src ++ dest)
  have hne : NonEmpty (S.run (src ++ dest)) := by
    intro e he
    rcases List.mem_append.1 (hp.mem_iff.1 he) with h | h
    · exact h1 e h
    · exact h2 e h
  have hcov : ∀ x, Covers (S.run (src ++ dest)) x ↔ Covers src x ∨ Covers dest x := by
    intro x
    simp only [Covers, hp.mem_iff, List.mem_append]
    constructor
    · rintro ⟨e, he | he, hx⟩
      · exact Or.inl ⟨e, he, hx⟩
      · exact Or.inr ⟨e, he, hx⟩
    · rintro (⟨e, he, hx⟩ | ⟨e, he, hx⟩)
      · exact ⟨e, Or.inl he, hx⟩
      · exact ⟨e, Or.inr he, hx⟩
  unfold combineEdges
  cases hr : S.run (src ++ dest) with
  | nil =>
    rw [hr] at hcov
    refine ⟨by simp [Canonical, NonEmpty], fun x => ?_⟩
    exact hcov x
  | cons e es =>
    rw [hr] at hne hcov hs
    have hs' : (e :: es).Pairwise fun a b => a.start ≤ b.start := by
      refine List.Pairwise.imp ?_ hs
      intro a b hab
      simp [Edge.less] at hab
      split at hab <;> omega
    have := mergeInto_spec e es (hne e (by simp)) (fun x hx => hne x (by simp [hx]))
      (List.pairwise_cons.1 hs').1 (List.pairwise_cons.1 hs').2
    refine ⟨this.1, fun x => ?_⟩
    have h3 := this.2.2 x
    rw [← hcov x, h3]
    simp [Covers]

theorem combineEdges_value (S : Sorter) (src dest : List Edge) (v : Str)
    (h1 : ∀ e ∈ src, e.value = v) (h2 : ∀ e ∈ dest, e.value = v) :
    ∀ e ∈ combineEdges S src dest, e.value = v := by
  have hp := S.perm (src ++ dest)
  have h : ∀ e ∈ S.run (src ++ dest), e.value = v := by
    intro e he
    rcases List.mem_append.1 (hp.mem_iff.1 he) with h | h
    · exact h1 e h
    · exact h2 e h
  unfold combineEdges
  cases hr : S.run (src ++ dest) with
  | nil => simp
  | cons e es =>
    rw [hr] at h
    exact mergeInto_value e es v (h e (by simp)) (fun x hx => h x (by simp [hx]))

theorem canonical_tidy {l : List Edge} (h : Canonical l) : Tidy l :=
  ⟨h.1, h.2.imp (fun h => by omega)⟩

/-! ### remove -/

theorem cutEdge_cover (del e : Edge) (_hd : del.start < del.stop) (v : Str) (x : Int) :
    Owns (cutEdge del e) v x ↔
      (e.value = v ∧ e.start ≤ x ∧ x < e.stop) ∧ ¬ (del.start ≤ x ∧ x < del.stop) := by
  unfold cutEdge
  split
  · simp only [Owns, List.mem_singleton, exists_eq_left]
    constructor
    · intro h; exact ⟨h, by omega⟩
    · intro h; exact h.1
  · simp only [Owns, List.mem_append]
    constructor
    · rintro ⟨f, hf | hf, hv, h1, h2⟩
      · split at hf
        · simp at hf; subst hf; simp only at *; exact ⟨⟨hv, by omega, by omega⟩, by omega⟩
        · simp at hf
      · split at hf
        · simp at hf; subst hf; simp only at *; exact ⟨⟨hv, by omega, by omega⟩, by omega⟩
        · simp at hf
    · rintro ⟨⟨hv, h1, h2⟩, h3⟩
      by_cases hx : x < del.start
      · refine ⟨⟨e.start, del.start, e.value⟩, Or.inl ?_, hv, h1, hx⟩
        rw [if_pos (by omega)]; simp
      · refine ⟨⟨del.stop, e.stop, e.value⟩, Or.inr ?_, hv, by simp only; omega, h2⟩
        rw [if_pos (by omega)]; simp

theorem cutEdge_within (del e : Edge) (h : e.start < e.stop) (_hd : del.start < del.stop) :
    Tidy (cutEdge del e) ∧ ∀ f ∈ cutEdge del e, e.start ≤ f.start ∧ f.stop ≤ e.stop := by
  unfold cutEdge
  split
  · refine ⟨⟨?_, by simp⟩, ?_⟩
    · intro f hf; simp at hf; subst hf; exact h
    · intro f hf; simp at hf; subst hf; omega
  · refine ⟨⟨?_, ?_⟩, ?_⟩
    · intro f hf
      rcases List.mem_append.1 hf with hf | hf
      · split at hf <;> simp at hf; subst hf; simpa
      · split at hf <;> simp at hf; subst hf; simp; omega
    · split <;> split <;> simp
      omega
    · intro f hf
      rcases List.mem_append.1 hf with hf | hf
      · split at hf <;> simp at hf; subst hf; simp; omega
      · split at hf <;> simp at hf; subst hf; simp; omega

theorem flatMap_cut_tidy (del : Edge) (hd : del.start < del.stop) (l : List Edge) (h : Tidy l) :
    Tidy (l.flatMap (cutEdge del)) := by
  induction l with
  | nil => simp [Tidy, NonEmpty]
  | cons e es ih =>
    have he := h.1 e (by simp)
    have hpw := List.pairwise_cons.1 h.2
    have hes : Tidy es := ⟨fun x hx => h.1 x (by simp [hx]), hpw.2⟩
    obtain ⟨ht, hw⟩ := cutEdge_within del e he hd
    have ih' := ih hes
    rw [List.flatMap_cons]
    refine ⟨?_, ?_⟩
    · intro x hx
      rcases List.mem_append.1 hx with hx | hx
      · exact ht.1 x hx
      · exact ih'.1 x hx
    · refine List.pairwise_append.2 ⟨ht.2, ih'.2, ?_⟩
      intro a ha b hb
      obtain ⟨f, hf, hbf⟩ := List.mem_flatMap.1 hb
      have h1 := (hw a ha).2
      have h2 := hpw.1 f hf
      have h3 := ((cutEdge_within del f (hes.1 f hf) hd).2 b hbf).1
      omega

theorem flatMap_cut_owns (del : Edge) (hd : del.start < del.stop) (l : List Edge) (v : Str) (x : Int) :
    Owns (l.flatMap (cutEdge del)) v x ↔ Owns l v x ∧ ¬ (del.start ≤ x ∧ x < del.stop) := by
  constructor
  · rintro ⟨f, hf, hv, h1, h2⟩
    obtain ⟨e, he, hfe⟩ := List.mem_flatMap.1 hf
    have := (cutEdge_cover del e hd v x).1 ⟨f, hfe, hv, h1, h2⟩
    exact ⟨⟨e, he, this.1⟩, this.2⟩
  · rintro ⟨⟨e, he, h1⟩, h2⟩
    obtain ⟨f, hf, h3⟩ := (cutEdge_cover del e hd v x).2 ⟨h1, h2⟩
    exact ⟨f, List.mem_flatMap.2 ⟨e, he, hf⟩, h3⟩

theorem removeEdges_spec (src dest : List Edge) (h : Tidy src) (hd : NonEmpty dest) :
    Tidy (removeEdges src dest) ∧
    ∀ v x, Owns (removeEdges src dest) v x ↔ Owns src v x ∧ ¬ Covers dest x := by
  unfold removeEdges
  induction dest generalizing src with
  | nil => simp [Covers, h]
  | cons del dest ih =>
    have hdel := hd del (by simp)
    obtain ⟨h1, h2⟩ := ih (src.flatMap (cutEdge del)) (flatMap_cut_tidy del hdel src h)
      (fun x hx => hd x (by simp [hx]))
    refine ⟨h1, fun v x => ?_⟩
    rw [List.foldl_cons, h2, flatMap_cut_owns del hdel]
    simp only [Covers, List.mem_cons, exists_eq_or_imp, not_or, and_assoc]

theorem covers_iff_owns (l : List Edge) (x : Int) : Covers l x ↔ ∃ v, Owns l v x := by
  constructor
  · rintro ⟨e, he, h⟩; exact ⟨e.value, e, he, rfl, h⟩
  · rintro ⟨v, e, he, _, h⟩; exact ⟨e, he, h⟩

theorem owns_of_value {l : List Edge} {v : Str} (h : ∀ e ∈ l, e.value = v) (w : Str) (x : Int) :
    Owns l w x ↔ w = v ∧ Covers l x := by
  constructor
  · rintro ⟨e, he, hv, hx⟩; exact ⟨by rw [← hv, h e he], e, he, hx⟩
  · rintro ⟨rfl, e, he, hx⟩; exact ⟨e, he, h e he, hx⟩

/-! ### text form -/

theorem fmtInt_natCast (n : Nat) : fmtInt (n : Int) = fmtNat n := rfl

theorem formatInt_edgeString (a b : Nat) (v : Str) (ha : a < 2 ^ 63) (hb : b < 2 ^ 63) :
    formatInt (edgeString ⟨a, b, v⟩) = .ok ((a : Int), (b : Int)) := by
  have h1 : '-' ∉ fmtNat a := fmtNat_not_mem (by decide)
  have h2 : '-' ∉ fmtNat b := fmtNat_not_mem (by decide)
  unfold formatInt edgeString
  simp only [fmtInt_natCast]
  rw [splitOn_append h1, splitOn_of_not_mem h2]
  simp only [atoi_fmtNat ha, atoi_fmtNat hb]
  rw [if_neg (by omega), if_neg (by omega)]

/-! ### range queries -/

/-- Number of slots of `e` in `[start, stop)` as counted by the loop. -/
theorem findRangeLoop_mem (start stop : Int) (l : List Edge) (rl : Int) (p : Edge) :
    p ∈ (findRangeLoop start stop l rl).1 ↔ ∃ e ∈ l, p.value = e.value ∧
      p.stop = min e.stop stop ∧
      ((e.start < start ∧ start < e.stop ∧ p.start = start) ∨
       (start ≤ e.start ∧ e.start < stop ∧ p.start = e.start)) := by
  induction l generalizing rl with
  | nil => simp [findRangeLoop]
  | cons e es ih =>
    simp only [findRangeLoop]
    split
    · rename_i h
      simp only [List.mem_cons, ih, exists_eq_or_imp]
      constructor
      · rintro (rfl | h')
        · exact Or.inl ⟨rfl, rfl, Or.inl ⟨h.1, h.2, rfl⟩⟩
        · exact Or.inr h'
      · rintro (⟨hv, hs, h' | h'⟩ | h')
        · left; cases p; simp at *; simp [hv, hs, h']
        · omega
        · exact Or.inr h'
    · split
      · rename_i h1 h
        simp only [List.mem_cons, ih, exists_eq_or_imp]
        constructor
        · rintro (rfl | h')
          · exact Or.inl ⟨rfl, rfl, Or.inr ⟨h.1, h.2, rfl⟩⟩
          · exact Or.inr h'
        · rintro (⟨hv, hs, h' | h'⟩ | h')
          · omega
          · left; cases p; simp at *; simp [hv, hs, h']
          · exact Or.inr h'
      · rename_i h1 h2
        simp only [List.mem_cons, ih, exists_eq_or_imp]
        constructor
        · intro h'; exact Or.inr h'
        · rintro (⟨_, _, h' | h'⟩ | h')
          · omega
          · omega
          · exact h'

theorem findRangeLoop_rest (start stop : Int) (l : List Edge) (rl : Int) :
    (findRangeLoop start stop l rl).2 =
      rl - ((findRangeLoop start stop l rl).1.map fun p => p.stop - p.start).sum := by
  induction l generalizing rl with
  | nil => simp [findRangeLoop]
  | cons e es ih =>
    simp only [findRangeLoop]
    split
    · simp only [List.map_cons, List.sum_cons]; rw [ih]; omega
    · split
      · simp only [List.map_cons, List.sum_cons]; rw [ih]; omega
      · exact ih rl

/-- Pieces of a tidy table are tidy, provided the queried range is not empty. -/
theorem findRangeLoop_tidy (start stop : Int) (hlt : start < stop) (l : List Edge) (rl : Int)
    (h : Tidy l) :
    Tidy (findRangeLoop start stop l rl).1 ∧
    ∀ p ∈ (findRangeLoop start stop l rl).1, start ≤ p.start ∧ p.stop ≤ stop := by
  induction l generalizing rl with
  | nil => simp [findRangeLoop, Tidy, NonEmpty]
  | cons e es ih =>
    have he := h.1 e (by simp)
    have hpw := List.pairwise_cons.1 h.2
    have hes : Tidy es := ⟨fun x hx => h.1 x (by simp [hx]), hpw.2⟩
    simp only [findRangeLoop]
    have key : ∀ (p0 : Edge) (rl' : Int), p0.start < p0.stop → start ≤ p0.start →
        p0.stop = min e.stop stop →
        Tidy (p0 :: (findRangeLoop start stop es rl').1) ∧
        ∀ p ∈ (p0 :: (findRangeLoop start stop es rl').1), start ≤ p.start ∧ p.stop ≤ stop := by
      intro p0 rl' h0 h1 h2
      obtain ⟨ht, hb⟩ := ih rl' hes
      refine ⟨⟨?_, ?_⟩, ?_⟩
      · intro x hx
        rcases List.mem_cons.1 hx with rfl | hx
        · exact h0
        · exact ht.1 x hx
      · refine List.pairwise_cons.2 ⟨?_, ht.2⟩
        intro x hx
        obtain ⟨f, hf, _, hs, hst⟩ := (findRangeLoop_mem _ _ _ _ _).1 hx
        have := hpw.1 f hf
        omega
      · intro x hx
        rcases List.mem_cons.1 hx with rfl | hx
        · omega
        · exact hb x hx
    split
    · exact key ⟨start, min e.stop stop, e.value⟩ _ (by simp only; omega) (by simp) rfl
    · split
      · exact key ⟨e.start, min e.stop stop, e.value⟩ _ (by simp only; omega) (by simp only; omega) rfl
      · exact ih rl hes

/-- A tidy list of total length `n` inside an interval of length `n` covers it. -/
theorem tidy_sum_le (l : List Edge) (h : Tidy l) : ∀ (a b : Int), a ≤ b →
    (∀ p ∈ l, a ≤ p.start ∧ p.stop ≤ b) → (l.map fun p => p.stop - p.start).sum ≤ b - a := by
  induction l with
  | nil => intro a b hab _; simp; omega
  | cons e es ih =>
    intro a b hab hb
    have hpw := List.pairwise_cons.1 h.2
    have hes : Tidy es := ⟨fun x hx => h.1 x (by simp [hx]), hpw.2⟩
    have h0 := hb e (by simp)
    have := ih hes e.stop b h0.2 (fun p hp => ⟨hpw.1 p hp, (hb p (by simp [hp])).2⟩)
    simp only [List.map_cons, List.sum_cons]
    have := h.1 e (by simp)
    omega

theorem tidy_sum_cover (l : List Edge) (h : Tidy l) : ∀ (a b : Int), a ≤ b →
    (∀ p ∈ l, a ≤ p.start ∧ p.stop ≤ b) →
    ((l.map fun p => p.stop - p.start).sum = b - a ↔ ∀ x, a ≤ x → x < b → Covers l x) := by
  induction l with
  | nil =>
    intro a b hab _
    simp only [List.map_nil, List.sum_nil, Covers, List.not_mem_nil, false_and, exists_false]
    constructor
    · intro h x hx1 hx2; omega
    · intro h
      by_cases hlt : a < b
      · exact (h a (by omega) hlt).elim
      · omega
  | cons e es ih =>
    intro a b hab hb
    have hpw := List.pairwise_cons.1 h.2
    have hes : Tidy es := ⟨fun x hx => h.1 x (by simp [hx]), hpw.2⟩
    have h0 := hb e (by simp)
    have hne := h.1 e (by simp)
    have hb' : ∀ p ∈ es, e.stop ≤ p.start ∧ p.stop ≤ b :=
      fun p hp => ⟨hpw.1 p hp, (hb p (by simp [hp])).2⟩
    have hle := tidy_sum_le es hes e.stop b h0.2 hb'
    have hi := ih hes e.stop b h0.2 hb'
    simp only [List.map_cons, List.sum_cons]
    constructor
    · intro hsum x hx1 hx2
      by_cases hx : x < e.stop
      · exact ⟨e, by simp, by omega, hx⟩
      · obtain ⟨f, hf, hfx⟩ := hi.1 (by omega) x (by omega) hx2
        exact ⟨f, by simp [hf], hfx⟩
    · intro hcov
      have hae : a = e.start := by
        by_cases hlt : a < e.start
        · obtain ⟨f, hf, h1, h2⟩ := hcov a (by omega) (by omega)
          rcases List.mem_cons.1 hf with rfl | hf
          · omega
          · have := (hb' f hf).1; omega
        · omega
      have := hi.2 (by
        intro x hx1 hx2
        obtain ⟨f, hf, h1, h2⟩ := hcov x (by omega) hx2
        rcases List.mem_cons.1 hf with rfl | hf
        · omega
        · exact ⟨f, hf, h1, h2⟩)
      omega

/-- The pieces cover exactly the owned part of the queried range. -/
theorem findRangeLoop_owns (start stop : Int) (l : List Edge) (rl : Int) (v : Str) (x : Int) :
    Owns (findRangeLoop start stop l rl).1 v x ↔ Owns l v x ∧ start ≤ x ∧ x < stop := by
  constructor
  · rintro ⟨p, hp, hv, h1, h2⟩
    obtain ⟨e, he, hv', hs, hst⟩ := (findRangeLoop_mem _ _ _ _ _).1 hp
    exact ⟨⟨e, he, by rw [← hv', hv], by omega, by omega⟩, by omega, by omega⟩
  · rintro ⟨⟨e, he, hv, h1, h2⟩, h3, h4⟩
    by_cases hs : e.start < start
    · refine ⟨⟨start, min e.stop stop, e.value⟩, (findRangeLoop_mem _ _ _ _ _).2
        ⟨e, he, rfl, rfl, Or.inl ⟨hs, by omega, rfl⟩⟩, hv, h3, by simp only; omega⟩
    · refine ⟨⟨e.start, min e.stop stop, e.value⟩, (findRangeLoop_mem _ _ _ _ _).2
        ⟨e, he, rfl, rfl, Or.inr ⟨by omega, by omega, rfl⟩⟩, hv, h1, by simp only; omega⟩

end Verif.HashSlot
