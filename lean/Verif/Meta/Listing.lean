import Verif.Meta.Props

/-!
# Prefix listing: C26
-/

namespace Verif.Meta

open Verif

/-- In an ordered list, what follows the first key without the prefix has no prefix either. -/
theorem takeWhile_prefix {α : Type} (l : List (Str × α)) (p : Str)
    (hs : l.Pairwise fun a b => strLt a.1 b.1 = true) (hge : ∀ e ∈ l, strLt e.1 p = false) :
    l.takeWhile (fun e => hasPrefix e.1 p) = l.filter (fun e => hasPrefix e.1 p) := by
  induction l with
  | nil => rfl
  | cons e r ih =>
    have hp := List.pairwise_cons.1 hs
    rw [List.takeWhile_cons, List.filter_cons]
    split
    · rw [ih hp.2 (fun x hx => hge x (List.mem_cons_of_mem _ hx))]
    · rename_i h
      symm
      rw [List.filter_eq_nil_iff]
      intro x hx
      have := no_prefix_after (hge e (List.mem_cons_self ..)) (by simpa using h) (hp.1 x hx)
      simp [this]

theorem seek_filter_prefix {α : Type} (m : KMap α) (p : Str) :
    (m.seek p).takeWhile (fun e => hasPrefix e.1 p) = m.entries.filter (fun e => hasPrefix e.1 p) := by
  rw [takeWhile_prefix _ _ (m.sorted.sublist (KMap.seek_sublist m p))
    (fun e he => ((KMap.mem_seek_iff m p e).1 he).2), KMap.seek_eq_filter, List.filter_filter]
  apply List.filter_congr
  intro e _
  by_cases h : hasPrefix e.1 p
  · obtain ⟨t, ht⟩ := (hasPrefix_iff _ _).1 h
    have := not_lt_of_hasPrefix p t
    rw [← ht] at this
    simp [h, this]
  · simp [h]

/-- The specification: the entries whose key has the prefix, in key order. -/
def withPrefix {α : Type} (m : KMap α) (p : Str) : List (Str × α) :=
  m.entries.filter fun e => hasPrefix e.1 p

/-- `withPrefix` really is what its name says: exactly the stored entries with the prefix, strictly
ascending (hence each once). -/
theorem withPrefix_spec {α : Type} (m : KMap α) (p : Str) :
    (∀ k v, (k, v) ∈ withPrefix m p ↔ m.get k = some v ∧ ∃ t, k = p ++ t) ∧
    (withPrefix m p).Pairwise fun a b => strLt a.1 b.1 = true := by
  constructor
  · intro k v
    unfold withPrefix
    rw [List.mem_filter, KMap.mem_iff_get, hasPrefix_iff]
  · exact m.sorted.sublist List.filter_sublist

/-- **C26** Listing returns the first `limit` entries with the prefix, in byte order of the names,
for every store, prefix (also the empty one) and limit. -/
theorem C26_entries {α : Type} (m : KMap α) (p : Str) (limit : Nat) :
    (listPrefix m p limit).1 = ((withPrefix m p).take limit).map (·.2) := by
  unfold listPrefix
  split
  · rw [seek_filter_prefix]; rfl
  · rename_i h
    simp only [ne_eq, Classical.not_not] at h
    subst h
    have : withPrefix m [] = m.entries := by
      unfold withPrefix
      rw [List.filter_eq_self]
      intro e _; rfl
    rw [this]

/-- **C26** at the API: objects and buckets. -/
theorem C26_objects (s : Store) (p : Str) (limit : Nat) :
    (listMetadata s p limit).1 = ((withPrefix s.metas p).take limit).map (·.2) := by
  unfold listMetadata
  split
  · rename_i h; subst h; simp
  · exact C26_entries _ _ _

theorem C26_buckets (s : Store) (p : Str) (limit : Nat) :
    (listBuckets s p limit).1 = ((withPrefix s.buckets p).take limit).map (·.2) := C26_entries _ _ _

/-- Two objects "b/a", "b/c" and one "c/a". -/
def listStore : Store := (run .empty
  [.addMeta "b/c".toList (sampleMeta 1), .addMeta "c/a".toList (sampleMeta 3),
   .addMeta "b/a".toList (sampleMeta 2)]).2

example : (listMetadata listStore "b/".toList 5).1 = [sampleMeta 2, sampleMeta 1] ∧
    (listMetadata listStore [] 2).1 = [sampleMeta 2, sampleMeta 1] := ⟨rfl, rfl⟩

/-- The claim about the total in C26: the number of stored names with the prefix. -/
def TotalExact (s : Store) (p : Str) (limit : Nat) : Prop :=
  (listMetadata s p limit).2 = (withPrefix s.metas p).length

/-- **C26** The reported total is *not* always the number of matching names: with a prefix it is the
number of returned entries, so a limit below the number of matches hides the rest (two objects
match, one is reported); and a limit of 0 reports 0. -/
theorem C26_total_statement_fails :
    ¬ ∀ s, Reachable s → ∀ p limit, TotalExact s p limit := by
  intro h
  have := h listStore ⟨_, rfl⟩ "b/".toList 1
  revert this
  unfold TotalExact
  decide

/-- **C26** (total, partial) The reported total is exact when no prefix is given, or the limit is not
below the number of matches.  Missing: prefix listings cut by the limit (see the counterexample). -/
theorem C26_total_partial {α : Type} (m : KMap α) (p : Str) (limit : Nat)
    (h : p = [] ∨ (withPrefix m p).length ≤ limit) :
    (listPrefix m p limit).2 = (withPrefix m p).length := by
  unfold listPrefix
  split
  · rename_i hp
    rcases h with h | h
    · exact absurd h hp
    · rw [seek_filter_prefix]
      show _ = (withPrefix m p).length
      unfold withPrefix at h ⊢
      simp only [List.length_map, List.length_take]
      omega
  · rename_i hp
    simp only [ne_eq, Classical.not_not] at hp
    subst hp
    unfold withPrefix
    have : (m.entries.filter fun e => hasPrefix e.1 []) = m.entries := by
      rw [List.filter_eq_self]; intro e _; rfl
    rw [this]; rfl

/-- In general the total is the number of entries returned when a prefix is given. -/
theorem C26_total_with_prefix {α : Type} (m : KMap α) (p : Str) (hp : p ≠ []) (limit : Nat) :
    (listPrefix m p limit).2 = min limit (withPrefix m p).length := by
  unfold listPrefix
  rw [if_pos hp, seek_filter_prefix]
  simp [withPrefix]

example : (listMetadata listStore "b/".toList 5).2 = 2 ∧ (listMetadata listStore [] 1).2 = 3 := by decide

end Verif.Meta
