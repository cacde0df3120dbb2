import Verif.Common.Str

/-!
# The name under which an object is stored: C42

`ObjectService.UniqueHash` (src/apiserver/internal/usecase/service/object_service.go:55-62).
-/

namespace Verif.Api

open Verif

/-- `entity.MultiReplication`, src/apiserver/internal/entity/metadata.go:21-26 (`1 << iota`). -/
def multiReplication : Int := 2
/-- `entity.ECReedSolomon`, metadata.go:24. -/
def ecReedSolomon : Int := 1

/-- `fmt.Sprint` of a bool. -/
def fmtBool : Bool → Str
  | true => ['t', 'r', 'u', 'e']
  | false => ['f', 'a', 'l', 's', 'e']

/-- The text that is hashed by `UniqueHash`, object_service.go:56-61: `fmt.Sprint` puts a blank between two
operands when neither is a string, so there is none between the digest and the strategy. -/
def uniquePre (digest : Str) (ss ds ps : Int) (compress : Bool) : Str :=
  let (ds, ps) := if ss = multiReplication then (0, 0) else (ds, ps)
  digest ++ fmtInt ss ++ [' '] ++ fmtInt ds ++ [' '] ++ fmtInt ps ++ [' '] ++ fmtBool compress

/-- `UniqueHash`; `sha` is `crypto.SHA256`. -/
def uniqueHash (sha : Str → Str) (digest : Str) (ss ds ps : Int) (compress : Bool) : Str :=
  sha (uniquePre digest ss ds ps compress)

/-! ## Specification -/

/-- Content and layout of a stored object. -/
structure Obj where
  digest : Str
  ss : Int
  ds : Int
  ps : Int
  compress : Bool
  deriving DecidableEq

/-- The same content, stored in the same way; the numbers of shards do not matter for copies, every copy is
the whole object. -/
def Obj.Same (a b : Obj) : Prop :=
  a.digest = b.digest ∧ a.ss = b.ss ∧ a.compress = b.compress ∧
    (a.ss = multiReplication ∨ (a.ds = b.ds ∧ a.ps = b.ps))

def Obj.key (sha : Str → Str) (a : Obj) : Str := uniqueHash sha a.digest a.ss a.ds a.ps a.compress

/-! ## Proofs -/

theorem fmtInt_no_blank (i : Int) : ' ' ∉ fmtInt i := by
  cases i with
  | ofNat n => exact fmtNat_not_mem (by decide)
  | negSucc n =>
    intro h
    rcases List.mem_cons.1 h with h | h
    · exact absurd h (by decide)
    · exact fmtNat_not_mem (by decide) h

theorem fmtInt_inj {i j : Int} (h : fmtInt i = fmtInt j) : i = j := by
  cases i with
  | ofNat a =>
    cases j with
    | ofNat b => rw [fmtNat_inj (a := a) (b := b) h]
    | negSucc b =>
      exfalso
      have : '-' ∈ fmtNat a := by rw [show fmtNat a = '-' :: fmtNat (b + 1) from h]; simp
      exact fmtNat_not_mem (by decide) this
  | negSucc a =>
    cases j with
    | ofNat b =>
      exfalso
      have : '-' ∈ fmtNat b := by rw [← show '-' :: fmtNat (a + 1) = fmtNat b from h]; simp
      exact fmtNat_not_mem (by decide) this
    | negSucc b =>
      have h2 : fmtNat (a + 1) = fmtNat (b + 1) := (List.cons.inj h).2
      have := fmtNat_inj h2
      congr 1
      omega

theorem fmtBool_inj {a b : Bool} (h : fmtBool a = fmtBool b) : a = b := by
  cases a <;> cases b <;> first | rfl | (exact absurd h (by decide))

/-- A text up to its first blank is determined. -/
theorem cut_blank {x y u v : Str} (hx : ' ' ∉ x) (hy : ' ' ∉ y) (h : x ++ ' ' :: u = y ++ ' ' :: v) :
    x = y ∧ u = v := by
  have h1 := cutOn_append (b := u) hx
  have h2 := cutOn_append (b := v) hy
  rw [h, h2] at h1
  simp only [Option.some.injEq, Prod.mk.injEq] at h1
  exact ⟨h1.1.symm, h1.2.symm⟩

theorem uniquePre_tail {x y : Str} {ss ss' ds ds' ps ps' : Int} {c c' : Bool}
    (hd : x.length = y.length)
    (h : x ++ fmtInt ss ++ [' '] ++ fmtInt ds ++ [' '] ++ fmtInt ps ++ [' '] ++ fmtBool c =
      y ++ fmtInt ss' ++ [' '] ++ fmtInt ds' ++ [' '] ++ fmtInt ps' ++ [' '] ++ fmtBool c') :
    x = y ∧ ss = ss' ∧ ds = ds' ∧ ps = ps' ∧ c = c' := by
  simp only [List.append_assoc, List.singleton_append] at h
  obtain ⟨h1, h2⟩ := List.append_inj h hd
  obtain ⟨h3, h4⟩ := cut_blank (fmtInt_no_blank _) (fmtInt_no_blank _) h2
  obtain ⟨h5, h6⟩ := cut_blank (fmtInt_no_blank _) (fmtInt_no_blank _) h4
  obtain ⟨h7, h8⟩ := cut_blank (fmtInt_no_blank _) (fmtInt_no_blank _) h6
  exact ⟨h1, fmtInt_inj h3, fmtInt_inj h5, fmtInt_inj h7, fmtBool_inj h8⟩

/-- **C42**: two objects with digests of the same length (as SHA256 digests are) are stored under the same
name only if they have the same content digest and layout, or the two hashed texts are a collision of
SHA256.  Missing for the full property: nothing checks the length of the digest a client announces
(`C42_digest_lengths`). -/
theorem C42_same_key_partial (sha : Str → Str) (a b : Obj) (hlen : a.digest.length = b.digest.length)
    (hk : a.key sha = b.key sha) :
    a.Same b ∨ (uniquePre a.digest a.ss a.ds a.ps a.compress ≠ uniquePre b.digest b.ss b.ds b.ps b.compress ∧
      sha (uniquePre a.digest a.ss a.ds a.ps a.compress) =
        sha (uniquePre b.digest b.ss b.ds b.ps b.compress)) := by
  by_cases he : uniquePre a.digest a.ss a.ds a.ps a.compress = uniquePre b.digest b.ss b.ds b.ps b.compress
  · left
    unfold uniquePre at he
    simp only at he
    by_cases ha : a.ss = multiReplication
    · by_cases hb : b.ss = multiReplication
      · simp only [if_pos ha, if_pos hb] at he
        obtain ⟨h1, h2, _, _, h5⟩ := uniquePre_tail hlen he
        exact ⟨h1, h2, h5, Or.inl ha⟩
      · simp only [if_pos ha, if_neg hb] at he
        obtain ⟨h1, h2, _, _, h5⟩ := uniquePre_tail hlen he
        exact ⟨h1, h2, h5, Or.inl ha⟩
    · by_cases hb : b.ss = multiReplication
      · simp only [if_neg ha, if_pos hb] at he
        obtain ⟨_, h2, _, _, _⟩ := uniquePre_tail hlen he
        exact absurd (h2.trans hb) ha
      · simp only [if_neg ha, if_neg hb] at he
        obtain ⟨h1, h2, h3, h4, h5⟩ := uniquePre_tail hlen he
        exact ⟨h1, h2, h5, Or.inr ⟨h3, h4⟩⟩
  · exact Or.inr ⟨he, hk⟩

/-- Two layouts of the same content have different names (with a collision free hash). -/
example : let a : Obj := ⟨['a', 'b'], 1, 4, 2, true⟩; let b : Obj := ⟨['a', 'b'], 1, 4, 2, false⟩
    a.digest.length = b.digest.length ∧ a.key id ≠ b.key id := by decide

/-- The converse: the same content stored in the same way has the same name, so it is stored once. -/
theorem C42_same_object (sha : Str → Str) (a b : Obj) (h : a.Same b) : a.key sha = b.key sha := by
  obtain ⟨h1, h2, h3, h4⟩ := h
  unfold Obj.key uniqueHash uniquePre
  rw [h1, h2, h3]
  rcases h4 with h4 | ⟨h4, h5⟩
  · rw [h2] at h4
    rw [if_pos h4, if_pos h4]
  · rw [h4, h5]

example : (⟨['a'], 2, 3, 0, false⟩ : Obj).Same ⟨['a'], 2, 5, 1, false⟩ := by
  refine ⟨rfl, rfl, rfl, Or.inl rfl⟩

/-- The full statement of C42, for a hash without collisions. -/
def NoConfusion : Prop :=
  ∀ (sha : Str → Str), Function.Injective sha → ∀ a b : Obj, a.key sha = b.key sha → a.Same b

/-- **C42 fails**: there is no separator between the digest and the strategy, and the digest a client
announces is not checked to be one, so two different contents can be given the same name without any
collision of SHA256: digest `a` with strategy 11 and digest `a1` with strategy 1. -/
theorem C42_digest_lengths : ¬ NoConfusion := by
  intro h
  have := h id (fun _ _ h => h) ⟨['a'], 11, 4, 2, false⟩ ⟨['a', '1'], 1, 4, 2, false⟩ (by decide)
  exact absurd this.1 (by decide)

end Verif.Api
