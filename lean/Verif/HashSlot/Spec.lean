import Verif.HashSlot.Model

/-!
# Specification of slot tables

A slot table means a set of (owner, slot) pairs.  Everything below is phrased with
the text ranges that servers publish and with membership of a slot in a range;
none of the table algorithms is used.
-/

namespace Verif.HashSlot

/-- Server `id` published a text range that denotes `[a, b)`. -/
def Published (m : List (Str × List Str)) (id : Str) (a b : Int) : Prop :=
  ∃ ss, (id, ss) ∈ m ∧ ∃ s ∈ ss, formatInt s = .ok (a, b)

/-- Some range of the list covers slot `x`. -/
def Covers (l : List Edge) (x : Int) : Prop := ∃ e ∈ l, e.start ≤ x ∧ x < e.stop

/-- Some range of the list with owner `v` covers slot `x`. -/
def Owns (l : List Edge) (v : Str) (x : Int) : Prop :=
  ∃ e ∈ l, e.value = v ∧ e.start ≤ x ∧ x < e.stop

/-- Two ranges share no slot. -/
def NoOverlap (a b : Edge) : Prop := ∀ x, ¬ ((a.start ≤ x ∧ x < a.stop) ∧ (b.start ≤ x ∧ x < b.stop))

/-- Every range is non-empty. -/
def NonEmpty (l : List Edge) : Prop := ∀ e ∈ l, e.start < e.stop

/-- Sorted, non-empty and pairwise disjoint. -/
def Tidy (l : List Edge) : Prop := NonEmpty l ∧ l.Pairwise fun a b => a.stop ≤ b.start

/-- Like `Tidy`, and neighbouring ranges do not even touch. -/
def Canonical (l : List Edge) : Prop := NonEmpty l ∧ l.Pairwise fun a b => a.stop < b.start

end Verif.HashSlot
