import Mathlib.FieldTheory.Finite.GaloisField
import Mathlib.LinearAlgebra.Lagrange
import Verif.Object.Code

/-!
# The contract of the erasure code can be met

For every `k ≥ 1` and `k + m ≤ 256` (the limit of the library) there is a `Code k m`: the shards are the
values of a polynomial of degree below `k` over the field with 256 elements at `k + m` different points,
chosen such that the values at the first `k` points are the data.  This is the construction of the
library (a Vandermonde matrix normalised to the identity on top), up to the choice of the points.
-/

namespace Verif.Object

open Polynomial

instance : Fact (Nat.Prime 2) := ⟨Nat.prime_two⟩

abbrev GF := GaloisField 2 8

/-- Bytes as field elements; which bijection is used does not matter. -/
noncomputable def byteEquiv : UInt8 ≃ GF :=
  Equiv.trans ⟨UInt8.toFin, UInt8.ofFin, fun _ => rfl, fun _ => rfl⟩
    (Finite.equivFinOfCardEq (by rw [GaloisField.card 2 8 (by decide)]; norm_num)).symm

/-- The evaluation points. -/
noncomputable def pt (i : Nat) : GF := byteEquiv (UInt8.ofNat i)

theorem pt_inj {i j : Nat} (hi : i < 256) (hj : j < 256) (h : pt i = pt j) : i = j := by
  have h1 := byteEquiv.injective h
  have h2 := congrArg UInt8.toNat h1
  simpa [Nat.mod_eq_of_lt, hi, hj] using h2

/-- The value of byte `p` of a shard. -/
noncomputable def val (x : Bytes) (p : Nat) : GF := byteEquiv (x.getD p 0)

/-- The polynomial through the shards with indices in `S`, for byte `p`. -/
noncomputable def poly (S : Finset Nat) (sh : Nat → Bytes) (p : Nat) : GF[X] :=
  Lagrange.interpolate S pt fun i => val (sh i) p

/-- Shard `i` computed from the shards in `S`. -/
noncomputable def shardFrom (S : Finset Nat) (sh : Nat → Bytes) (L i : Nat) : Bytes :=
  (List.range L).map fun p => byteEquiv.symm ((poly S sh p).eval (pt i))

theorem shardFrom_length (S : Finset Nat) (sh : Nat → Bytes) (L i : Nat) :
    (shardFrom S sh L i).length = L := by simp [shardFrom]

theorem val_shardFrom (S : Finset Nat) (sh : Nat → Bytes) (L i p : Nat) (hp : p < L) :
    val (shardFrom S sh L i) p = (poly S sh p).eval (pt i) := by
  simp [val, shardFrom, hp]

theorem injOn_pt {S : Finset Nat} (hS : ∀ i ∈ S, i < 256) : Set.InjOn pt S :=
  fun i hi j hj h => pt_inj (hS i hi) (hS j hj) h

/-- A shard that is in the set is recomputed unchanged. -/
theorem shardFrom_mem {S : Finset Nat} (hS : ∀ i ∈ S, i < 256) (sh : Nat → Bytes) (L i : Nat)
    (hi : i ∈ S) (hl : (sh i).length = L) : shardFrom S sh L i = sh i := by
  apply List.ext_getElem
  · simp [shardFrom, hl]
  · intro p h1 h2
    simp only [shardFrom, List.getElem_map, List.getElem_range, poly]
    rw [Lagrange.eval_interpolate_at_node _ (injOn_pt hS) hi]
    simp [val, h2]

/-- Any large enough set of shards of a code word yields the same polynomial. -/
theorem poly_eq {k : Nat} {S T : Finset Nat} (hS : ∀ i ∈ S, i < 256) (hT : ∀ i ∈ T, i < 256)
    (hSk : S.card = k) (hTk : k ≤ T.card) (sh sh' : Nat → Bytes) (p : Nat)
    (h : ∀ i ∈ T, val (sh' i) p = (poly S sh p).eval (pt i)) : poly S sh p = poly T sh' p := by
  apply Lagrange.eq_interpolate_of_eval_eq _ (injOn_pt hT)
  · refine lt_of_lt_of_le (Lagrange.degree_interpolate_lt _ (injOn_pt hS)) ?_
    rw [hSk]; exact_mod_cast hTk
  · intro i hi
    exact (h i hi).symm

/-- The indices of the shards that are there. -/
def presentSet (s : List (Option Bytes)) : Finset Nat :=
  (Finset.range s.length).filter fun i => (s[i]?.join).isSome = true

theorem presentSet_card (s : List (Option Bytes)) : (presentSet s).card = presentCount s := by
  have hs : s = (List.range s.length).map fun i => s[i]?.join := by
    apply List.ext_getElem
    · simp
    · intro i h1 h2; simp [h1]
  unfold presentCount
  conv => rhs; rw [hs, List.countP_map]
  rw [presentSet, Finset.card_def]
  simp only [Finset.filter_val, Finset.range_val, Multiset.range, Multiset.filter_coe, Multiset.coe_card]
  rw [List.countP_eq_length_filter]
  congr 1
  apply List.filter_congr
  intro i _
  simp

/-- Shard `i` of a list, empty if there is none. -/
def dataAt (d : List Bytes) (i : Nat) : Bytes := d.getD i []

/-- The size of the shards. -/
def sizeOf' (s : List (Option Bytes)) : Nat := ((s.filterMap id).headD []).length

noncomputable def rsParity (k m : Nat) (d : List Bytes) : List Bytes :=
  (List.range m).map fun j => shardFrom (Finset.range k) (dataAt d) (d.headD []).length (k + j)

open Classical in
noncomputable def rsRecon (k m : Nat) (s : List (Option Bytes)) : Except RsErr (List Bytes) :=
  if presentCount s < k then .error .tooFewShards
  else if ∃ x y, some x ∈ s ∧ some y ∈ s ∧ x.length ≠ y.length then .error .shardSize
  else .ok ((List.range (k + m)).map fun i =>
    shardFrom (presentSet s) (fun i => (s[i]?.join).getD []) (sizeOf' s) i)

theorem head_length {d : List Bytes} {L : Nat} (hl : ∀ x ∈ d, x.length = L) (hd : d ≠ []) :
    (d.headD []).length = L := by
  cases d with
  | nil => exact absurd rfl hd
  | cons x d => exact hl x (by simp)

noncomputable def rsCode (k m : Nat) (hk : 0 < k) (h : k + m ≤ 256) : Code k m where
  parity := rsParity k m
  recon := rsRecon k m
  parity_shape d L hd hl := by
    have hne : d ≠ [] := by intro h0; simp [h0] at hd; omega
    refine ⟨by simp [rsParity], fun x hx => ?_⟩
    simp only [rsParity, List.mem_map, List.mem_range] at hx
    obtain ⟨j, _, rfl⟩ := hx
    rw [shardFrom_length, head_length hl hne]
  recon_ok d L s hd hL hl he hp := by
    have hne : d ≠ [] := by intro h0; simp [h0] at hd; omega
    have hhead := head_length hl hne
    -- the code word
    have hlen : (d ++ rsParity k m d).length = k + m := by simp [rsParity, hd]
    have hword : ∀ i, i < k + m → (d ++ rsParity k m d)[i]? =
        some (shardFrom (Finset.range k) (dataAt d) L i) := by
      intro i hi
      by_cases hik : i < k
      · rw [List.getElem?_append_left (by omega)]
        have hmem : (dataAt d i).length = L := by
          rw [dataAt, List.getD_eq_getElem?_getD, List.getElem?_eq_getElem (by omega)]
          exact hl _ (List.getElem_mem _)
        rw [shardFrom_mem (fun j hj => by have := Finset.mem_range.1 hj; omega) _ _ _
          (Finset.mem_range.2 hik) hmem]
        rw [dataAt, List.getD_eq_getElem?_getD, List.getElem?_eq_getElem (by omega)]
        rfl
      · rw [List.getElem?_append_right (by omega)]
        simp only [rsParity, hhead, hd, List.getElem?_map]
        rw [List.getElem?_range (by omega), Option.map_some]
        congr 2
        omega
    have hpres : ∀ i x, s[i]? = some (some x) → i < k + m ∧
        x = shardFrom (Finset.range k) (dataAt d) L i := by
      intro i x hx
      have h1 := he.2 i x hx
      have hi : i < k + m := by
        have := (List.getElem?_eq_some_iff.1 h1).1
        omega
      rw [hword i hi] at h1
      exact ⟨hi, (Option.some.inj h1).symm⟩
    have hsz : ∀ x, some x ∈ s → x.length = L := by
      intro x hx
      obtain ⟨i, hi⟩ := List.getElem?_of_mem hx
      rw [(hpres i x hi).2, shardFrom_length]
    have hsize : sizeOf' s = L := by
      unfold sizeOf'
      have hmem : ∀ x ∈ s.filterMap id, x.length = L := by
        intro x hx
        apply hsz
        simpa using hx
      apply head_length hmem
      intro h0
      have : presentCount s = 0 := by
        unfold presentCount
        rw [List.countP_eq_zero]
        intro a ha hs
        cases a with
        | none => cases hs
        | some x =>
          have : x ∈ s.filterMap id := by simpa using ha
          rw [h0] at this; simp at this
      omega
    have hS : ∀ i ∈ Finset.range k, i < 256 := fun j hj => by have := Finset.mem_range.1 hj; omega
    have hin : ∀ i ∈ presentSet s, ∃ x, s[i]? = some (some x) := by
      intro i hi
      simp only [presentSet, Finset.mem_filter, Finset.mem_range] at hi
      obtain ⟨h1, h2⟩ := hi
      rw [List.getElem?_eq_getElem h1] at h2 ⊢
      cases hx : s[i] with
      | none => rw [hx] at h2; simp at h2
      | some x => exact ⟨x, rfl⟩
    have hT : ∀ i ∈ presentSet s, i < 256 := by
      intro i hi
      obtain ⟨x, hx⟩ := hin i hi
      have := (hpres i x hx).1
      omega
    simp only [rsRecon]
    rw [if_neg (by omega), if_neg]
    · congr 1
      apply List.ext_getElem?
      intro i
      by_cases hi : i < k + m
      · rw [hword i hi, List.getElem?_map, List.getElem?_range hi, Option.map_some, hsize]
        congr 1
        unfold shardFrom
        apply List.map_congr_left
        intro p hp'
        rw [← poly_eq (k := k) hS hT (by simp) (by rw [presentSet_card]; exact hp) (dataAt d)]
        intro j hj
        obtain ⟨x, hx⟩ := hin j hj
        simp only [hx, Option.join_some, Option.getD_some]
        rw [(hpres j x hx).2, val_shardFrom _ _ _ _ _ (List.mem_range.1 hp')]
      · rw [List.getElem?_eq_none (by simp; omega), List.getElem?_eq_none (by omega)]
    · rintro ⟨x, y, hx, hy, hne⟩
      exact hne (by rw [hsz x hx, hsz y hy])
  recon_few s hs := ⟨.tooFewShards, by simp [rsRecon, hs]⟩
  recon_sizes s x y hx hy hne := by
    by_cases hs : presentCount s < k
    · exact ⟨.tooFewShards, by simp [rsRecon, hs]⟩
    · refine ⟨.shardSize, ?_⟩
      simp only [rsRecon]
      rw [if_neg hs, if_pos ⟨x, y, hx, hy, hne⟩]

/-- The contract assumed of the library is satisfiable for every shape the library accepts. -/
theorem code_exists (k m : Nat) (hk : 0 < k) (h : k + m ≤ 256) : Nonempty (Code k m) :=
  ⟨rsCode k m hk h⟩

example : Nonempty (Code 4 2) := code_exists 4 2 (by decide) (by decide)

end Verif.Object
