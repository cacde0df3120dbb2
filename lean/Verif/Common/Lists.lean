import Verif.Common.Str

/-!
# Lists: lengths of duplicate-free lists, sorting by a text key
-/

namespace Verif

theorem strLt_trichotomy (a b : Str) : strLt a b = true ∨ a = b ∨ strLt b a = true := by
  cases h1 : strLt a b with
  | true => exact Or.inl rfl
  | false =>
    cases h2 : strLt b a with
    | true => exact Or.inr (Or.inr rfl)
    | false => exact Or.inr (Or.inl (strLt_total h1 h2))

/-- A duplicate-free list contained in another one is not longer. -/
theorem nodup_length_le {α : Type} {l m : List α} (hn : l.Nodup) (hs : ∀ x ∈ l, x ∈ m) :
    l.length ≤ m.length := by
  induction l generalizing m with
  | nil => simp
  | cons a l ih =>
    obtain ⟨h1, h2⟩ := List.nodup_cons.1 hn
    obtain ⟨s, t, rfl⟩ := List.append_of_mem (hs a (List.mem_cons_self ..))
    have := ih (m := s ++ t) h2 (fun x hx => by
      have hxm := hs x (List.mem_cons_of_mem _ hx)
      have hne : x ≠ a := by rintro rfl; exact h1 hx
      simp only [List.mem_append, List.mem_cons] at hxm ⊢
      rcases hxm with h | h | h
      · exact Or.inl h
      · exact absurd h hne
      · exact Or.inr h)
    simp only [List.length_append, List.length_cons] at this ⊢
    omega

/-- The contract of `sort.Slice` with `less(i, j) = id(l[i]) < id(l[j])`: a permutation in which no
element is less than an earlier one.  `sort.Slice` is not stable, so models take *any* function
with this contract. -/
structure TextSorter (α : Type) (id : α → Str) where
  run : List α → List α
  perm : ∀ l, (run l).Perm l
  sorted : ∀ l, (run l).Pairwise fun a b => strLt (id b) (id a) = false

/-- Insertion by text key. -/
def insertText {α : Type} (id : α → Str) (a : α) : List α → List α
  | [] => [a]
  | b :: l => if strLt (id b) (id a) then b :: insertText id a l else a :: b :: l

/-- Insertion sort by text key: a sorter that meets the contract (used in examples). -/
def sortText {α : Type} (id : α → Str) : List α → List α
  | [] => []
  | a :: l => insertText id a (sortText id l)

theorem insertText_perm {α : Type} (id : α → Str) (a : α) (l : List α) :
    (insertText id a l).Perm (a :: l) := by
  induction l with
  | nil => exact List.Perm.refl _
  | cons b l ih =>
    unfold insertText
    split
    · exact (List.Perm.cons b ih).trans (List.Perm.swap a b l)
    · exact List.Perm.refl _

theorem sortText_perm {α : Type} (id : α → Str) (l : List α) : (sortText id l).Perm l := by
  induction l with
  | nil => exact List.Perm.refl _
  | cons a l ih => exact (insertText_perm id a _).trans (List.Perm.cons a ih)

theorem strLt_false_trans {a b c : Str} (h1 : strLt b a = false) (h2 : strLt c b = false) :
    strLt c a = false := by
  cases h : strLt c a with
  | false => rfl
  | true =>
    rcases strLt_trichotomy a b with h3 | h3 | h3
    · rw [strLt_trans h h3] at h2; cases h2
    · subst h3; rw [h] at h2; cases h2
    · rw [h3] at h1; cases h1

theorem sortText_sorted {α : Type} (id : α → Str) (l : List α) :
    (sortText id l).Pairwise fun a b => strLt (id b) (id a) = false := by
  induction l with
  | nil => exact List.Pairwise.nil
  | cons a l ih =>
    show (insertText id a (sortText id l)).Pairwise _
    generalize sortText id l = s at ih
    induction s with
    | nil => simp [insertText]
    | cons b s ih2 =>
      obtain ⟨h1, h2⟩ := List.pairwise_cons.1 ih
      unfold insertText
      split
      · rename_i hlt
        refine List.pairwise_cons.2 ⟨?_, ih2 h2⟩
        intro x hx
        rcases List.mem_cons.1 ((insertText_perm id a s).mem_iff.1 hx) with rfl | hx
        · cases h : strLt (id x) (id b) with
          | false => rfl
          | true => exact absurd (strLt_trans h hlt) (by rw [strLt_irrefl]; simp)
        · exact h1 x hx
      · rename_i hlt
        refine List.pairwise_cons.2 ⟨?_, ih⟩
        intro x hx
        have hba : strLt (id b) (id a) = false := by simpa using hlt
        rcases List.mem_cons.1 hx with rfl | hx
        · exact hba
        · exact strLt_false_trans hba (h1 x hx)

/-- A sorter that meets the contract. -/
def TextSorter.insertion {α : Type} (id : α → Str) : TextSorter α id :=
  ⟨sortText id, sortText_perm id, sortText_sorted id⟩

/-- Two lists in strictly ascending order of their keys with the same members are equal. -/
theorem textSorted_ext {α : Type} {id : α → Str} {l m : List α}
    (hl : l.Pairwise fun a b => strLt (id a) (id b) = true)
    (hm : m.Pairwise fun a b => strLt (id a) (id b) = true)
    (h : ∀ x, x ∈ l ↔ x ∈ m) : l = m := by
  induction l generalizing m with
  | nil =>
    cases m with
    | nil => rfl
    | cons b m => exact absurd ((h b).2 (List.mem_cons_self ..)) (by simp)
  | cons a l ih =>
    cases m with
    | nil => exact absurd ((h a).1 (List.mem_cons_self ..)) (by simp)
    | cons b m =>
      obtain ⟨l1, l2⟩ := List.pairwise_cons.1 hl
      obtain ⟨m1, m2⟩ := List.pairwise_cons.1 hm
      have hab : a = b := by
        rcases List.mem_cons.1 ((h a).1 (List.mem_cons_self ..)) with e | ha
        · exact e
        · rcases List.mem_cons.1 ((h b).2 (List.mem_cons_self ..)) with e | hb
          · exact e.symm
          · have := strLt_trans (l1 b hb) (m1 a ha)
            rw [strLt_irrefl] at this; cases this
      subst hab
      congr 1
      refine ih l2 m2 fun x => ?_
      constructor
      · intro hx
        rcases List.mem_cons.1 ((h x).1 (List.mem_cons_of_mem _ hx)) with rfl | hx'
        · have := l1 _ hx; rw [strLt_irrefl] at this; cases this
        · exact hx'
      · intro hx
        rcases List.mem_cons.1 ((h x).2 (List.mem_cons_of_mem _ hx)) with rfl | hx'
        · have := m1 _ hx; rw [strLt_irrefl] at this; cases this
        · exact hx'

/-- When the keys are pairwise distinct, sorting gives a strictly ascending list. -/
theorem TextSorter.strict {α : Type} {id : α → Str} (S : TextSorter α id) {l : List α}
    (hd : l.Pairwise fun a b => id a ≠ id b) :
    (S.run l).Pairwise fun a b => strLt (id a) (id b) = true := by
  have h1 : (S.run l).Pairwise fun a b => id a ≠ id b :=
    ((S.perm l).pairwise_iff (fun h => Ne.symm h)).2 hd
  refine (S.sorted l).imp₂ ?_ h1
  intro a b h2 h3
  rcases strLt_trichotomy (id a) (id b) with h | h | h
  · exact h
  · exact absurd h h3
  · rw [h] at h2; cases h2

theorem textSorted_nodup {α : Type} {id : α → Str} {l : List α}
    (hl : l.Pairwise fun a b => strLt (id a) (id b) = true) : l.Nodup := by
  refine hl.imp ?_
  rintro a b h rfl
  rw [strLt_irrefl] at h; cases h

theorem textSorted_ne {α : Type} {id : α → Str} {l : List α}
    (hl : l.Pairwise fun a b => strLt (id a) (id b) = true) : l.Pairwise fun a b => id a ≠ id b := by
  refine hl.imp ?_
  intro a b h e
  rw [e, strLt_irrefl] at h; cases h

end Verif
