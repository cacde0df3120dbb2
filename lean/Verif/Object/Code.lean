/-!
# The erasure code

The erasure code itself is the library github.com/klauspost/reedsolomon, which is not part of /repo.
It appears in the model as a parameter that meets the documented contract of the library (`New`,
`Split`, `Encode`, `Reconstruct`).  `Verif.Object.Lagrange` proves that the contract is met by
interpolation over a field with 256 elements, for all shard counts the library supports.
-/

namespace Verif.Object

abbrev Bytes := List UInt8

/-- The errors of the library that the code passes on. -/
inductive RsErr
  | tooFewShards
  | shardSize
  | noData
  | shortData
  deriving DecidableEq, Repr

/-- How many shards are there. -/
def presentCount (s : List (Option Bytes)) : Nat := s.countP Option.isSome

/-- `s` is `all` with some shards missing. -/
def ErasureOf (s : List (Option Bytes)) (all : List Bytes) : Prop :=
  s.length = all.length ∧ ∀ (i : Nat) (x : Bytes), s[i]? = some (some x) → all[i]? = some x

/-- The contract of the library for `k` data shards and `m` parity shards: `parity` is `Encode`,
`recon` is `Reconstruct` (a missing shard is nil or empty). -/
structure Code (k m : Nat) where
  parity : List Bytes → List Bytes
  recon : List (Option Bytes) → Except RsErr (List Bytes)
  /-- `Encode` fills `m` parity shards of the same size. -/
  parity_shape : ∀ (d : List Bytes) (L : Nat), d.length = k → (∀ x ∈ d, x.length = L) →
    (parity d).length = m ∧ ∀ x ∈ parity d, x.length = L
  /-- `Reconstruct` recreates the missing shards when at least `k` are there. -/
  recon_ok : ∀ (d : List Bytes) (L : Nat) (s : List (Option Bytes)), d.length = k → 0 < L →
    (∀ x ∈ d, x.length = L) → ErasureOf s (d ++ parity d) → k ≤ presentCount s →
    recon s = .ok (d ++ parity d)
  /-- "If there are too few shards to reconstruct the missing ones, ErrTooFewShards will be returned";
  without any shard it is ErrShardNoData. -/
  recon_few : ∀ s, presentCount s < k → ∃ e, recon s = .error e
  /-- Shards of different sizes are refused. -/
  recon_sizes : ∀ (s : List (Option Bytes)) (x y : Bytes), some x ∈ s → some y ∈ s →
    x.length ≠ y.length → ∃ e, recon s = .error e

/-! ## A small computable code: two data shards and their exclusive or -/

def xorBytes (a b : Bytes) : Bytes := List.zipWith (· ^^^ ·) a b

theorem xorBytes_length (a b : Bytes) (h : a.length = b.length) : (xorBytes a b).length = a.length := by
  simp [xorBytes, h]

theorem xor_cancel_left (a b : Bytes) (h : a.length = b.length) : xorBytes a (xorBytes a b) = b := by
  induction a generalizing b with
  | nil => cases b with
    | nil => rfl
    | cons _ _ => simp at h
  | cons x a ih => cases b with
    | nil => simp at h
    | cons y b =>
      simp only [xorBytes, List.zipWith_cons_cons] at ih ⊢
      rw [ih b (by simpa using h)]
      simp [← UInt8.xor_assoc]

theorem xorBytes_comm (a b : Bytes) : xorBytes a b = xorBytes b a := by
  simp only [xorBytes]
  rw [List.zipWith_comm]
  congr 1
  funext x y
  exact UInt8.xor_comm ..

theorem xor_cancel_right (a b : Bytes) (h : a.length = b.length) : xorBytes b (xorBytes a b) = a := by
  rw [xorBytes_comm a b, xor_cancel_left b a h.symm]

def xorRecon (s : List (Option Bytes)) : Except RsErr (List Bytes) :=
  match s with
  | [some a, some b, some c] =>
    if a.length = b.length ∧ b.length = c.length then .ok [a, b, c] else .error .shardSize
  | [some a, some b, none] => if a.length = b.length then .ok [a, b, xorBytes a b] else .error .shardSize
  | [some a, none, some c] => if a.length = c.length then .ok [a, xorBytes a c, c] else .error .shardSize
  | [none, some b, some c] => if b.length = c.length then .ok [xorBytes b c, b, c] else .error .shardSize
  | _ => .error .tooFewShards

def xorParity (d : List Bytes) : List Bytes :=
  match d with
  | [a, b] => [xorBytes a b]
  | _ => []

def xorCode : Code 2 1 where
  parity := xorParity
  recon := xorRecon
  parity_shape d L hd hl := by
    match d, hd with
    | [a, b], _ =>
      have ha := hl a (by simp)
      have hb := hl b (by simp)
      simp [xorParity, xorBytes_length a b (by omega), ha]
  recon_ok d L s hd _ hl he hp := by
    match d, hd with
    | [a, b], _ =>
      have ha := hl a (by simp)
      have hb := hl b (by simp)
      obtain ⟨h1, h2⟩ := he
      have hx := xorBytes_length a b (by omega)
      match s, h1 with
      | [x, y, z], _ =>
        have e0 := h2 0
        have e1 := h2 1
        have e2 := h2 2
        simp only [xorParity, List.cons_append, List.nil_append, List.getElem?_cons_zero,
          List.getElem?_cons_succ, Option.some.injEq] at e0 e1 e2
        cases x <;> cases y <;> cases z <;>
          simp [presentCount] at hp <;>
          simp only [Option.some.injEq, forall_eq', reduceCtorEq, false_implies, implies_true] at e0 e1 e2
        · subst e1 e2
          simp [xorRecon, xorParity, hx, ha, hb, xor_cancel_right a b (by omega)]
        · subst e0 e2
          simp [xorRecon, xorParity, hx, ha, xor_cancel_left a b (by omega)]
        · subst e0 e1
          simp [xorRecon, xorParity, ha, hb]
        · subst e0 e1 e2
          simp [xorRecon, xorParity, ha, hb, hx]
  recon_few s hs := by
    unfold xorRecon
    split <;> simp [presentCount] at hs ⊢
  recon_sizes s x y hx hy hne := by
    unfold xorRecon
    split
    · split
      · simp only [List.mem_cons, Option.some.injEq, List.not_mem_nil, or_false] at hx hy
        rcases hx with rfl | rfl | rfl <;> rcases hy with rfl | rfl | rfl <;> omega
      · exact ⟨_, rfl⟩
    · split
      · simp only [List.mem_cons, Option.some.injEq, List.not_mem_nil, or_false, reduceCtorEq] at hx hy
        rcases hx with rfl | rfl <;> rcases hy with rfl | rfl <;> omega
      · exact ⟨_, rfl⟩
    · split
      · simp only [List.mem_cons, Option.some.injEq, List.not_mem_nil, or_false, reduceCtorEq,
          false_or] at hx hy
        rcases hx with rfl | rfl <;> rcases hy with rfl | rfl <;> omega
      · exact ⟨_, rfl⟩
    · split
      · simp only [List.mem_cons, Option.some.injEq, List.not_mem_nil, or_false, reduceCtorEq,
          false_or] at hx hy
        rcases hx with rfl | rfl <;> rcases hy with rfl | rfl <;> omega
      · exact ⟨_, rfl⟩
    · exact ⟨_, rfl⟩

end Verif.Object
