import Verif.HashSlot.Lemmas

/-!
# Properties of slot tables (C01 – C08)
-/

namespace Verif.HashSlot

open Verif

/-- A small published table used in the examples: two servers, three ranges, unsorted. -/
def sample : List (Str × List Str) :=
  [("B".toList, ["100-16384".toList]), ("A".toList, ["50-100".toList, "0-50".toList])]

/-- A sorter that evaluates inside the kernel (insertion sort), for the examples. -/
def insertEdge (e : Edge) : List Edge → List Edge
  | [] => [e]
  | f :: fs => if f.less e then f :: insertEdge e fs else e :: f :: fs

theorem insertEdge_perm (e : Edge) (l : List Edge) : (insertEdge e l).Perm (e :: l) := by
  induction l with
  | nil => exact List.Perm.refl _
  | cons f fs ih =>
    unfold insertEdge
    split
    · exact (List.Perm.cons f ih).trans (List.Perm.swap _ _ _)
    · exact List.Perm.refl _

theorem insertEdge_sorted (e : Edge) (l : List Edge)
    (h : l.Pairwise fun a b => b.less a = false) :
    (insertEdge e l).Pairwise fun a b => b.less a = false := by
  induction l with
  | nil => simp [insertEdge]
  | cons f fs ih =>
    have hp := List.pairwise_cons.1 h
    unfold insertEdge
    split
    · rename_i hlt
      refine List.pairwise_cons.2 ⟨?_, ih hp.2⟩
      intro x hx
      rcases List.mem_cons.1 ((insertEdge_perm e fs).mem_iff.1 hx) with rfl | hx
      · simp [Edge.less] at *; grind
      · exact hp.1 x hx
    · rename_i hlt
      refine List.pairwise_cons.2 ⟨?_, h⟩
      intro x hx
      rcases List.mem_cons.1 hx with rfl | hx
      · simpa using hlt
      · have := hp.1 x hx
        simp [Edge.less] at *; grind

def insertionSorter : Sorter where
  run l := l.foldr insertEdge []
  perm l := by
    induction l with
    | nil => exact List.Perm.refl _
    | cons e es ih => exact (insertEdge_perm e _).trans (List.Perm.cons e ih)
  sorted l := by
    induction l with
    | nil => simp
    | cons e es ih => exact insertEdge_sorted e _ ih

/-- The sample table is accepted. -/
def sampleTable : List Edge :=
  [⟨0, 50, "A".toList⟩, ⟨50, 100, "A".toList⟩, ⟨100, 16384, "B".toList⟩]

theorem sample_ok : wrapSlots insertionSorter sample = .ok sampleTable := by rfl

/-! ## C01 -/

/-- **C01** For every accepted table, the lookup of slot `x` answers server `id` exactly when
`id` published a range containing `x`. -/
theorem C01_lookup_owner (S : Sorter) (m : List (Str × List Str)) (t : List Edge)
    (h : wrapSlots S m = .ok t) (x : Int) (id : Str) :
    getSlotIdentify x t = some id ↔ ∃ a b, Published m id a b ∧ a ≤ x ∧ x < b := by
  obtain ⟨ht, hm⟩ := wrapSlots_ok h
  rw [getSlotIdentify_iff ht]
  constructor
  · rintro ⟨e, he, rfl, h1, h2⟩
    exact ⟨e.start, e.stop, (hm e).1 he, h1, h2⟩
  · rintro ⟨a, b, hp, h1, h2⟩
    exact ⟨⟨a, b, id⟩, (hm _).2 hp, rfl, h1, h2⟩

/-- **C01** (failure case) the lookup fails exactly when nobody published a range containing `x`. -/
theorem C01_lookup_fails (S : Sorter) (m : List (Str × List Str)) (t : List Edge)
    (h : wrapSlots S m = .ok t) (x : Int) :
    getSlotIdentify x t = none ↔ ¬ ∃ id a b, Published m id a b ∧ a ≤ x ∧ x < b := by
  constructor
  · rintro hn ⟨id, hp⟩
    rw [(C01_lookup_owner S m t h x id).2 hp] at hn
    cases hn
  · intro hn
    cases hg : getSlotIdentify x t with
    | none => rfl
    | some id => exact absurd ⟨id, (C01_lookup_owner S m t h x id).1 hg⟩ hn

/-- **C01** (single server view) the membership test of a server's own slots, used by the request
filter of the metadata server, is exact. -/
theorem C01_member (S : Sorter) (ss : List Str) (id : Str) (t : List Edge)
    (h : wrapSlotsToEdges S ss id = .ok t) (x : Int) :
    isSlotInEdges x t = true ↔ ∃ s ∈ ss, ∃ a b, formatInt s = .ok (a, b) ∧ a ≤ x ∧ x < b := by
  obtain ⟨ht, hm⟩ := wrapSlotsToEdges_ok h
  rw [isSlotInEdges_iff ht]
  constructor
  · rintro ⟨e, he, h1, h2⟩
    obtain ⟨_, s, hs, hf⟩ := (hm e).1 he
    exact ⟨s, hs, e.start, e.stop, hf, h1, h2⟩
  · rintro ⟨s, hs, a, b, hf, h1, h2⟩
    exact ⟨⟨a, b, id⟩, (hm _).2 ⟨rfl, s, hs, hf⟩, h1, h2⟩

/-- The hypotheses of C01 hold for a table with three ranges, and both answers occur. -/
example : wrapSlots insertionSorter sample = .ok sampleTable ∧
    getSlotIdentify 50 sampleTable = some "A".toList ∧
    getSlotIdentify 100 sampleTable = some "B".toList ∧
    getSlotIdentify 16384 sampleTable = none := ⟨sample_ok, by decide, by decide, by decide⟩

/-! ## C02 -/

/-- All ranges published in `m`, with their owners (only meaningful if all of them parse). -/
def allRanges (m : List (Str × List Str)) : List Edge :=
  m.flatMap fun p => p.2.filterMap fun s =>
    match formatInt s with
    | .ok (a, b) => some ⟨a, b, p.1⟩
    | .error _ => none

theorem collectSlots_eq {m : List (Str × List Str)} {r : List Edge} (h : collectSlots m = .ok r) :
    r = allRanges m := by
  have h1 : ∀ (ss : List Str) (id : Str) (r : List Edge), wrapSlotsOriginal ss id = .ok r →
      r = ss.filterMap fun s =>
        match formatInt s with
        | .ok (a, b) => some ⟨a, b, id⟩
        | .error _ => none := by
    intro ss id
    induction ss with
    | nil => intro r h; simp [wrapSlotsOriginal] at h; simp [h]
    | cons s ss ih =>
      intro r h
      unfold wrapSlotsOriginal at h
      split at h
      · cases h
      · rename_i a b hf
        split at h
        · cases h
        · rename_i r' hr'
          cases h
          simp [hf, ih r' hr']
  induction m generalizing r with
  | nil => simp [collectSlots] at h; simp [allRanges, h]
  | cons p m ih =>
    obtain ⟨id, ss⟩ := p
    unfold collectSlots at h
    split at h
    · cases h
    · rename_i r1 hr1
      split at h
      · cases h
      · rename_i r2 hr2
        cases h
        simp only [allRanges, List.flatMap_cons]
        rw [h1 ss id r1 hr1, ih hr2]
        rfl

theorem collectSlots_ok_iff {m : List (Str × List Str)} :
    (∃ r, collectSlots m = .ok r) ↔ ∀ p ∈ m, ∀ s ∈ p.2, ∃ q, formatInt s = .ok q := by
  induction m with
  | nil => simp [collectSlots]
  | cons p m ih =>
    obtain ⟨id, ss⟩ := p
    unfold collectSlots
    cases hw : wrapSlotsOriginal ss id with
    | error e =>
      have : ¬ ∃ r, wrapSlotsOriginal ss id = .ok r := by rw [hw]; simp
      rw [wrapSlotsOriginal_ok_iff] at this
      constructor
      · rintro ⟨r, hr⟩; cases hr
      · intro hall; exact absurd (hall (id, ss) (by simp)) this
    | ok r1 =>
      have h1 := wrapSlotsOriginal_ok_iff.1 ⟨r1, hw⟩
      cases hc : collectSlots m with
      | error e =>
        have : ¬ ∃ r, collectSlots m = .ok r := by rw [hc]; simp
        rw [ih] at this
        constructor
        · rintro ⟨r, hr⟩; cases hr
        · intro hall; exact absurd (fun p hp => hall p (by simp [hp])) this
      | ok r2 =>
        have h2 := ih.1 ⟨r2, hc⟩
        constructor
        · intro _ p hp
          rcases List.mem_cons.1 hp with rfl | hp
          · exact h1
          · exact h2 p hp
        · intro _; exact ⟨r1 ++ r2, rfl⟩

/-- **C02** A set of published ranges is accepted iff it is not empty, every text parses, every
range is non-empty and no two of the ranges (of the same or of different servers) share a slot. -/
theorem C02_accepted_iff_disjoint (S : Sorter) (m : List (Str × List Str)) :
    (∃ t, wrapSlots S m = .ok t) ↔
      m ≠ [] ∧ (∀ p ∈ m, ∀ s ∈ p.2, ∃ q, formatInt s = .ok q) ∧
      (∀ e ∈ allRanges m, e.start < e.stop) ∧ (allRanges m).Pairwise NoOverlap := by
  unfold wrapSlots
  by_cases hm : m = []
  · simp [hm]
  · rw [if_neg hm]
    cases hc : collectSlots m with
    | error e =>
      have : ¬ ∃ r, collectSlots m = .ok r := by rw [hc]; simp
      rw [collectSlots_ok_iff] at this
      constructor
      · rintro ⟨t, ht⟩; cases ht
      · rintro ⟨_, h, _⟩; exact absurd h this
    | ok r =>
      have h1 := collectSlots_ok_iff.1 ⟨r, hc⟩
      have h2 := collectSlots_eq hc
      simp only
      rw [sortAndValidate_iff, h2]
      constructor
      · rintro ⟨a, b⟩; exact ⟨hm, h1, a, b⟩
      · rintro ⟨_, _, a, b⟩; exact ⟨a, b⟩

/-- **C02** In an accepted table no slot has two owners. -/
theorem C02_single_owner (S : Sorter) (m : List (Str × List Str)) (t : List Edge)
    (h : wrapSlots S m = .ok t) (x : Int) (id id' : Str) (a b a' b' : Int)
    (h1 : Published m id a b) (h2 : a ≤ x ∧ x < b)
    (h3 : Published m id' a' b') (h4 : a' ≤ x ∧ x < b') : id = id' ∧ a = a' ∧ b = b' := by
  obtain ⟨ht, hm⟩ := wrapSlots_ok h
  have := tidy_unique ht ((hm ⟨a, b, id⟩).2 h1) ((hm ⟨a', b', id'⟩).2 h3) (x := x) h2 h4
  simp at this
  simp [this]

/-- The sample is accepted; an overlapping and an empty range are refused. -/
example : (∃ t, wrapSlots insertionSorter sample = .ok t) ∧
    wrapSlots insertionSorter [("A".toList, ["0-10".toList]), ("B".toList, ["9-20".toList])]
      = .error .overlap ∧
    wrapSlots insertionSorter [("A".toList, ["7-7".toList])] = .error .order :=
  ⟨⟨_, sample_ok⟩, by rfl, by rfl⟩

/-! ## C03 -/

/-- **C03** Every key has a slot between 0 and 16383. -/
theorem C03_slot_range (key : Str) : 0 ≤ calcBytesSlot key ∧ calcBytesSlot key < 16384 := by
  unfold calcBytesSlot
  refine ⟨Int.natCast_nonneg _, ?_⟩
  have : (crc32 key &&& BitVec.ofNat 32 maxSlot).toNat ≤ (BitVec.ofNat 32 maxSlot).toNat := by
    rw [BitVec.toNat_and]; exact Nat.and_le_right
  have h2 : (BitVec.ofNat 32 maxSlot).toNat = 16383 := by decide
  omega

/-- **C03** When the accepted table covers all 16384 slots, every key is routed to one server, the
only one that published a range containing the key's slot. -/
theorem C03_every_key_routed (S : Sorter) (m : List (Str × List Str)) (t : List Edge)
    (h : wrapSlots S m = .ok t)
    (hfull : ∀ x : Int, 0 ≤ x → x < 16384 → ∃ id a b, Published m id a b ∧ a ≤ x ∧ x < b)
    (key : Str) :
    ∃ id, getStringIdentify key t = some id ∧
      (∃ a b, Published m id a b ∧ a ≤ calcBytesSlot key ∧ calcBytesSlot key < b) ∧
      ∀ id' a b, Published m id' a b → a ≤ calcBytesSlot key → calcBytesSlot key < b → id' = id := by
  obtain ⟨h1, h2⟩ := C03_slot_range key
  obtain ⟨id, a, b, hp, hab⟩ := hfull _ h1 h2
  refine ⟨id, ?_, ⟨a, b, hp, hab⟩, ?_⟩
  · exact (C01_lookup_owner S m t h _ id).2 ⟨a, b, hp, hab⟩
  · intro id' a' b' hp' h3 h4
    exact (C02_single_owner S m t h _ id' id a' b' a b hp' ⟨h3, h4⟩ hp hab).1

set_option maxRecDepth 4000 in
/-- The check value of CRC-32/IEEE, and the route of a concrete key. -/
example : crc32 "123456789".toList = 0xCBF43926#32 ∧
    calcBytesSlot "bucket/object".toList = 2166 ∧
    getStringIdentify "bucket/object".toList sampleTable = some "B".toList := by decide

/-- The sample covers every slot, so the hypotheses of `C03_every_key_routed` are satisfiable. -/
example : ∀ x : Int, 0 ≤ x → x < 16384 → ∃ id a b, Published sample id a b ∧ a ≤ x ∧ x < b := by
  have ht := wrapSlots_ok sample_ok
  intro x h1 h2
  have : ∃ e ∈ sampleTable, e.start ≤ x ∧ x < e.stop := by
    simp [sampleTable]; omega
  obtain ⟨e, he, hx⟩ := this
  exact ⟨e.value, e.start, e.stop, (ht.2 e).1 he, hx⟩

/-! ## C04 -/

/-- **C04** Merging slot ranges yields the set union, as sorted ranges that do not touch. -/
theorem C04_combine_is_union (S : Sorter) (src dest : List Edge) (h1 : NonEmpty src)
    (h2 : NonEmpty dest) :
    Canonical (combineEdges S src dest) ∧
    ∀ x, Covers (combineEdges S src dest) x ↔ Covers src x ∨ Covers dest x :=
  combineEdges_spec S src dest h1 h2

/-- **C04** (owner) if both lists belong to `v`, so does the result. -/
theorem C04_combine_owner (S : Sorter) (src dest : List Edge) (v : Str)
    (h1 : ∀ e ∈ src, e.value = v) (h2 : ∀ e ∈ dest, e.value = v) :
    ∀ e ∈ combineEdges S src dest, e.value = v := combineEdges_value S src dest v h1 h2

example : NonEmpty [⟨0, 100, []⟩, ⟨120, 500, []⟩] ∧ NonEmpty [⟨100, 110, []⟩, ⟨105, 120, []⟩] ∧
    combineEdges insertionSorter [⟨0, 100, []⟩, ⟨120, 500, []⟩] [⟨100, 110, []⟩, ⟨105, 119, []⟩]
      = [⟨0, 119, []⟩, ⟨120, 500, []⟩] := by
  refine ⟨by simp [NonEmpty], by simp [NonEmpty], by rfl⟩

/-! ## C05 -/

/-- **C05** Removing slot ranges yields the set difference (owner by owner), sorted and disjoint. -/
theorem C05_remove_is_difference (src dest : List Edge) (h : Tidy src) (hd : NonEmpty dest) :
    Tidy (removeEdges src dest) ∧
    ∀ v x, Owns (removeEdges src dest) v x ↔ Owns src v x ∧ ¬ Covers dest x :=
  removeEdges_spec src dest h hd

example : Tidy [⟨0, 8000, []⟩, ⟨9000, 9500, []⟩] ∧ NonEmpty [⟨7000, 9200, []⟩] ∧
    removeEdges [⟨0, 8000, []⟩, ⟨9000, 9500, []⟩] [⟨7000, 9200, []⟩]
      = [⟨0, 7000, []⟩, ⟨9200, 9500, []⟩] := by
  refine ⟨by simp [Tidy, NonEmpty], by simp [NonEmpty], by decide⟩

/-! ## C06 -/

/-- **C06** Conservation: source `v` gives the ranges `del`, all of which it owns, to target `w`.
After removing them from the source's list and merging them into the target's list, the target
owns its old slots plus `del`, the source owns its old slots minus `del`, together they own what
they owned before, no slot has two owners, and both lists are well formed. -/
theorem C06_migration_conserves (S : Sorter) (src tgt del : List Edge) (v w : Str)
    (hs : Tidy src) (ht : NonEmpty tgt) (hd : NonEmpty del)
    (htw : ∀ e ∈ tgt, e.value = w) (hdw : ∀ e ∈ del, e.value = w)
    (hdisj : ∀ x, ¬ (Covers src x ∧ Covers tgt x))
    (hown : ∀ x, Covers del x → Covers src x) :
    let src' := removeEdges src del
    let tgt' := combineEdges S tgt del
    (∀ x, Owns tgt' w x ↔ Owns tgt w x ∨ Covers del x) ∧
    (∀ x, Owns src' v x ↔ Owns src v x ∧ ¬ Covers del x) ∧
    (∀ x, Covers src' x ∨ Covers tgt' x ↔ Covers src x ∨ Covers tgt x) ∧
    (∀ x, ¬ (Covers src' x ∧ Covers tgt' x)) ∧
    Tidy src' ∧ Canonical tgt' := by
  obtain ⟨hc, hcu⟩ := combineEdges_spec S tgt del ht hd
  have hcv := combineEdges_value S tgt del w htw hdw
  obtain ⟨hr, hru⟩ := removeEdges_spec src del hs hd
  have hsc : ∀ x, Covers (removeEdges src del) x ↔ Covers src x ∧ ¬ Covers del x := by
    intro x
    rw [covers_iff_owns, covers_iff_owns src]
    constructor
    · rintro ⟨u, hu⟩; have := (hru u x).1 hu; exact ⟨⟨u, this.1⟩, this.2⟩
    · rintro ⟨⟨u, hu⟩, h⟩; exact ⟨u, (hru u x).2 ⟨hu, h⟩⟩
  refine ⟨?_, fun x => hru v x, ?_, ?_, hr, hc⟩
  · intro x
    rw [owns_of_value hcv, owns_of_value htw, hcu]
    simp
  · intro x
    rw [hsc, hcu]
    constructor
    · rintro (⟨h, _⟩ | h | h)
      · exact Or.inl h
      · exact Or.inr h
      · exact Or.inl (hown x h)
    · rintro (h | h)
      · by_cases hdel : Covers del x
        · exact Or.inr (Or.inr hdel)
        · exact Or.inl ⟨h, hdel⟩
      · exact Or.inr (Or.inl h)
  · rintro x ⟨h1, h2⟩
    rw [hsc] at h1
    rw [hcu] at h2
    rcases h2 with h2 | h2
    · exact hdisj x ⟨h1.1, h2⟩
    · exact h1.2 h2

/-- A concrete migration meeting the hypotheses of C06. -/
example :
    let src : List Edge := [⟨0, 100, ['v']⟩, ⟨200, 300, ['v']⟩]
    let tgt : List Edge := [⟨100, 200, ['w']⟩]
    let del : List Edge := [⟨50, 100, ['w']⟩, ⟨200, 250, ['w']⟩]
    Tidy src ∧ NonEmpty tgt ∧ NonEmpty del ∧ (∀ x, ¬ (Covers src x ∧ Covers tgt x)) ∧
    (∀ x, Covers del x → Covers src x) ∧
    removeEdges src del = [⟨0, 50, ['v']⟩, ⟨250, 300, ['v']⟩] ∧
    combineEdges insertionSorter tgt del = [⟨50, 250, ['w']⟩] := by
  refine ⟨by simp [Tidy, NonEmpty], by simp [NonEmpty], by simp [NonEmpty], ?_, ?_, by decide, by rfl⟩
  · intro x; simp [Covers]; omega
  · intro x; simp [Covers]; omega

/-! ## C07 -/

/-- **C07** Publishing a range list as text and reading it back gives the same ranges, for every
tidy list with a single owner and bounds below 2^63. -/
theorem C07_text_roundtrip (S : Sorter) (l : List Edge) (id : Str) (ht : Tidy l)
    (hv : ∀ e ∈ l, e.value = id) (hb : ∀ e ∈ l, 0 ≤ e.start ∧ e.stop < 2 ^ 63) :
    wrapSlotsToEdges S (edgeStrings l) id = .ok l := by
  have hf : ∀ e ∈ l, formatInt (edgeString e) = .ok (e.start, e.stop) := by
    intro e he
    have h0 := hb e he
    have h1 := ht.1 e he
    obtain ⟨a, ha⟩ := Int.eq_ofNat_of_zero_le h0.1
    obtain ⟨b, hb'⟩ := Int.eq_ofNat_of_zero_le (show 0 ≤ e.stop by omega)
    have : e = ⟨a, b, e.value⟩ := by cases e; simp at ha hb'; simp [ha, hb']
    rw [this]
    exact formatInt_edgeString a b _ (by omega) (by omega)
  have hw : wrapSlotsOriginal (edgeStrings l) id = .ok l := by
    clear ht hb
    induction l with
    | nil => rfl
    | cons e es ih =>
      simp only [edgeStrings, List.map_cons]
      unfold wrapSlotsOriginal
      rw [hf e (by simp)]
      have := ih (fun x hx => hv x (by simp [hx])) (fun x hx => hf x (by simp [hx]))
      simp only [edgeStrings] at this
      rw [this]
      simp only [Except.ok.injEq, List.cons.injEq, and_true]
      have := hv e (by simp)
      cases e; simp at this; simp [this]
  unfold wrapSlotsToEdges
  rw [hw]
  -- the list is already sorted, so any sorter returns it unchanged
  have hrun : S.run l = l := by
    have h1 : (S.run l).Pairwise fun a b => b.less a = false := S.sorted l
    have h2 : l.Pairwise fun a b => b.less a = false := by
      refine List.Pairwise.imp_of_mem ?_ ht.2
      intro a b ha hb' hab
      have := ht.1 a ha
      simp [Edge.less]; split <;> omega
    refine (S.perm l).eq_of_pairwise (le := fun a b => b.less a = false) ?_ h1 h2
    intro a b ha hb' h3 h4
    have ha' := (S.perm l).mem_iff.1 ha
    have hval : a.value = b.value := by rw [hv a ha', hv b hb']
    have : a.start = b.start ∧ a.stop = b.stop := by
      simp [Edge.less] at h3 h4
      split at h3 <;> split at h4 <;> omega
    cases a; cases b; simp at *; exact ⟨this.1, this.2, hval⟩
  have hval : validate none (S.run l) = .ok () := by
    rw [hrun, validate_none_iff]; exact ht
  simp [sortAndValidate, hrun] at hval ⊢
  rw [hval]

example : wrapSlotsToEdges insertionSorter
    (edgeStrings [⟨0, 10, ['A']⟩, ⟨10, 16384, ['A']⟩]) ['A'] =
      .ok [⟨0, 10, ['A']⟩, ⟨10, 16384, ['A']⟩] := by rfl

/-! ## C08 -/

/-- **C08** (query) the range query returns pieces that cover exactly the owned part of the queried
range, and its flag tells whether the whole range is owned. -/
theorem C08_range_query (start stop : Int) (hlt : start ≤ stop) (t : List Edge) (h : Tidy t) :
    (∀ v x, Owns (findRangeCurrentData start stop t).1 v x ↔ Owns t v x ∧ start ≤ x ∧ x < stop) ∧
    ((findRangeCurrentData start stop t).2 = true ↔ ∀ x, start ≤ x → x < stop → Covers t x) := by
  refine ⟨fun v x => findRangeLoop_owns start stop t _ v x, ?_⟩
  have hrest := findRangeLoop_rest start stop t (stop - start)
  simp only [findRangeCurrentData, decide_eq_true_eq]
  by_cases heq : start = stop
  · subst heq
    -- an empty query: nothing but empty pieces
    have : ((findRangeLoop start start t (start - start)).1.map fun p => p.stop - p.start).sum = 0 := by
      have : ∀ p ∈ (findRangeLoop start start t (start - start)).1, p.stop - p.start = 0 := by
        intro p hp
        obtain ⟨e, he, _, h2, h3⟩ := (findRangeLoop_mem _ _ _ _ _).1 hp
        have := h.1 e he
        omega
      generalize (findRangeLoop start start t (start - start)).1 = l at this
      induction l with
      | nil => rfl
      | cons p ps ih =>
        simp only [List.map_cons, List.sum_cons]
        rw [ih (fun q hq => this q (by simp [hq])), this p (by simp)]
        rfl
    constructor
    · intro _ x h1 h2; omega
    · intro _; omega
  · obtain ⟨htd, hb⟩ := findRangeLoop_tidy start stop (by omega) t (stop - start) h
    have := tidy_sum_cover _ htd start stop hlt hb
    constructor
    · intro h0 x h1 h2
      have hc := this.1 (by omega) x h1 h2
      obtain ⟨v, hv⟩ := (covers_iff_owns _ _).1 hc
      exact (covers_iff_owns _ _).2 ⟨v, ((findRangeLoop_owns _ _ _ _ _ _).1 hv).1⟩
    · intro hcov
      have := this.2 (by
        intro x h1 h2
        obtain ⟨v, hv⟩ := (covers_iff_owns _ _).1 (hcov x h1 h2)
        exact (covers_iff_owns _ _).2 ⟨v, (findRangeLoop_owns _ _ _ _ _ _).2 ⟨hv, h1, h2⟩⟩)
      omega

/-- **C08** (soundness) a range that passes the ownership check is owned entirely by the server
named in the request. -/
theorem C08_valid_sound (t : List Edge) (h : Tidy t) (e : Edge) (hv : isValidEdge e t = true) :
    ∀ x, e.start ≤ x → x < e.stop → Owns t e.value x := by
  intro x h1 h2
  obtain ⟨hown, hfull⟩ := C08_range_query e.start e.stop (by omega) t h
  unfold isValidEdge at hv
  split at hv
  · cases hv
  · rename_i p heq
    rw [heq] at hfull hown
    simp at hfull hv
    obtain ⟨w, hw⟩ := (covers_iff_owns _ _).1 (hfull x h1 h2)
    obtain ⟨q, hq, hqv, _⟩ := (hown w x).2 ⟨hw, h1, h2⟩
    simp at hq
    subst hq
    rw [← hv, hqv]; exact hw
  · cases hv

/-- **C08** full statement: the check passes iff every slot of the (non-empty) range is owned by
the named server. -/
def C08_statement (t : List Edge) : Prop :=
  ∀ e : Edge, e.start < e.stop →
    (isValidEdge e t = true ↔ ∀ x, e.start ≤ x → x < e.stop → Owns t e.value x)

/-- **C08** the full statement is false of the code: a range that spans two adjacent ranges of the
same server is refused although the server owns all of it. -/
theorem C08_statement_fails :
    ∃ t, Tidy t ∧ ¬ C08_statement t := by
  refine ⟨[⟨0, 100, ['A']⟩, ⟨100, 200, ['A']⟩], by simp [Tidy, NonEmpty], ?_⟩
  intro h
  have h1 := (h ⟨50, 150, ['A']⟩ (by decide)).2 (by
    intro x h1 h2
    simp only at h1 h2
    by_cases hx : x < 100
    · exact ⟨⟨0, 100, ['A']⟩, by simp, rfl, by simp only; omega, hx⟩
    · exact ⟨⟨100, 200, ['A']⟩, by simp, rfl, by simp only; omega, by simp only; omega⟩)
  revert h1
  decide

/-- **C08** partial: the equivalence holds for tables in which the ranges of the named server do
not touch each other.  Missing: tables with touching ranges of one owner, where
`C08_statement_fails` shows that the check refuses owned ranges. -/
theorem C08_valid_iff_partial (t : List Edge) (h : Tidy t) (e : Edge) (hlt : e.start < e.stop)
    (hsep : ∀ a ∈ t, ∀ b ∈ t, a.value = e.value → b.value = e.value → a.stop ≠ b.start) :
    isValidEdge e t = true ↔ ∀ x, e.start ≤ x → x < e.stop → Owns t e.value x := by
  refine ⟨C08_valid_sound t h e, ?_⟩
  intro hall
  obtain ⟨f, hf, hfv, hf1, hf2⟩ := hall e.start (by omega) hlt
  -- the edge that owns the first slot owns the whole range
  have hcov : e.stop ≤ f.stop := by
    apply Int.not_lt.1
    intro hlt2
    obtain ⟨g, hg, hgv, hg1, hg2⟩ := hall f.stop (by omega) (by omega)
    obtain ⟨i, hi, rfl⟩ := List.getElem_of_mem hf
    obtain ⟨j, hj, rfl⟩ := List.getElem_of_mem hg
    have hne := h.1 t[i] hf
    rcases Nat.lt_trichotomy i j with h' | h' | h'
    · have hp := List.pairwise_iff_getElem.1 h.2 i j hi hj h'
      exact hsep _ hf _ hg hfv hgv (by omega)
    · subst h'; omega
    · have hp := List.pairwise_iff_getElem.1 h.2 j i hj hi h'; omega
  obtain ⟨hown, hfull⟩ := C08_range_query e.start e.stop (by omega) t h
  have hfull' := hfull.2 (fun x h1 h2 => (covers_iff_owns _ _).2 ⟨_, hall x h1 h2⟩)
  obtain ⟨htd, hbd⟩ := findRangeLoop_tidy e.start e.stop hlt t (e.stop - e.start) h
  have hsame : ∀ p ∈ (findRangeLoop e.start e.stop t (e.stop - e.start)).1,
      p = ⟨e.start, e.stop, e.value⟩ := by
    intro p hp
    obtain ⟨g, hg, hgv, hg1, hg2⟩ := (findRangeLoop_mem _ _ _ _ _).1 hp
    have hgne := h.1 g hg
    have hpb := hbd p hp
    have hpn := htd.1 p hp
    have hgf : g = f := tidy_unique h hg hf (x := p.start) (by omega) (by omega)
    subst hgf
    cases p
    simp at *
    exact ⟨by omega, by omega, by rw [hgv, hfv]⟩
  unfold isValidEdge
  have hpair : findRangeCurrentData e.start e.stop t =
      ((findRangeLoop e.start e.stop t (e.stop - e.start)).1, true) := by
    rw [← hfull']; rfl
  rw [hpair]
  generalize (findRangeLoop e.start e.stop t (e.stop - e.start)).1 = l at *
  match l, hsame, htd with
  | [], _, _ =>
    exfalso
    have : Owns ([] : List Edge) e.value e.start := by
      have h3 := (hown e.value e.start).2 ⟨hall e.start (by omega) hlt, by omega, hlt⟩
      rw [hpair] at h3; exact h3
    obtain ⟨_, h4, _⟩ := this
    simp at h4
  | [p], hs, _ => simp [hs p (by simp)]
  | p :: q :: r, hs, htd =>
    exfalso
    have h1 := hs p (by simp)
    have h2 := hs q (by simp)
    have h3 := (List.pairwise_cons.1 htd.2).1 q (by simp)
    rw [h1, h2] at h3
    simp only at h3
    omega

/-- Hypotheses of the partial theorem on a concrete table; both outcomes occur. -/
example :
    let t : List Edge := [⟨0, 100, ['A']⟩, ⟨100, 150, ['B']⟩, ⟨150, 200, ['A']⟩]
    Tidy t ∧ (∀ a ∈ t, ∀ b ∈ t, a.value = ['A'] → b.value = ['A'] → a.stop ≠ b.start) ∧
    isValidEdge ⟨10, 100, ['A']⟩ t = true ∧ isValidEdge ⟨10, 101, ['A']⟩ t = false := by
  refine ⟨by simp [Tidy, NonEmpty], by simp, by decide, by decide⟩

/-- **C02** The copy handed to the migration (hashslot_service.go:77) with an empty id owns exactly what
the table owns; with an id exactly what this id owns. -/
theorem C02_copy (t : List Edge) (id v : Str) (x : Int) :
    Owns (copyOfEdges id t) v x ↔ Owns t v x ∧ (id = [] ∨ v = id) := by
  simp only [Owns, copyOfEdges, List.mem_filter, Bool.or_eq_true, decide_eq_true_eq]
  constructor
  · rintro ⟨e, ⟨h1, h2⟩, h3⟩
    refine ⟨⟨e, h1, h3⟩, ?_⟩
    rcases h2 with h2 | h2
    · exact Or.inl h2
    · exact Or.inr (by grind)
  · rintro ⟨⟨e, h1, h3⟩, h2⟩
    refine ⟨e, ⟨h1, ?_⟩, h3⟩
    grind

example : copyOfEdges ['A'] [⟨0, 10, ['A']⟩, ⟨10, 20, ['B']⟩] = [⟨0, 10, ['A']⟩] ∧
    copyOfEdges [] [⟨0, 10, ['A']⟩, ⟨10, 20, ['B']⟩] = [⟨0, 10, ['A']⟩, ⟨10, 20, ['B']⟩] := by decide

end Verif.HashSlot
