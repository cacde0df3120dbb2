import Verif.Msgp.Prim

/-!
# Lemmas about the MessagePack primitives

* `read (append v ++ t) = (v, t)` for every primitive;
* locality: a reader that succeeds on some bytes succeeds in the same way on every extension;
* the append functions produce bytes.
-/

namespace Verif.Msgp

/-! ## Take and big endian numbers -/

theorem takeN_append (p t : Bytes) : takeN p.length (p ++ t) = some (p, t) := by
  induction p with
  | nil => cases t <;> rfl
  | cons x p ih => simp only [List.length_cons, List.cons_append, takeN, ih]

theorem takeN_ext {n : Nat} {b p r : Bytes} (h : takeN n b = some (p, r)) (t : Bytes) :
    takeN n (b ++ t) = some (p, r ++ t) := by
  induction n generalizing b p r with
  | zero => cases b <;> cases t <;> simp_all [takeN]
  | succ n ih =>
    cases b with
    | nil => simp [takeN] at h
    | cons x b =>
      simp only [takeN] at h
      cases hq : takeN n b with
      | none => simp [hq] at h
      | some q =>
        obtain ⟨p', r'⟩ := q
        simp only [hq, Option.some.injEq, Prod.mk.injEq] at h
        obtain ⟨rfl, rfl⟩ := h
        simp only [List.cons_append, takeN, ih hq]

theorem takeN_some {n : Nat} {b p r : Bytes} (h : takeN n b = some (p, r)) :
    b = p ++ r ∧ p.length = n := by
  induction n generalizing b p r with
  | zero => cases b <;> simp_all [takeN]
  | succ n ih =>
    cases b with
    | nil => simp [takeN] at h
    | cons x b =>
      simp only [takeN] at h
      cases hq : takeN n b with
      | none => simp [hq] at h
      | some q =>
        obtain ⟨p', r'⟩ := q
        simp only [hq, Option.some.injEq, Prod.mk.injEq] at h
        obtain ⟨rfl, rfl⟩ := h
        obtain ⟨rfl, rfl⟩ := ih hq
        simp

theorem readBE_1 (n : Nat) (t : Bytes) : readBE 1 (n :: t) = .ok (n, t) := by
  cases t <;> simp [readBE, takeN, ofBE]

theorem readBE_be16 (n : Nat) (h : n < 65536) (t : Bytes) :
    readBE 2 (be16 n ++ t) = .ok (n, t) := by
  have : ofBE (be16 n) = n := by simp only [ofBE, be16, List.foldl]; omega
  rw [readBE, show 2 = (be16 n).length from rfl, takeN_append]
  simp only [this]

theorem readBE_be32 (n : Nat) (h : n < 4294967296) (t : Bytes) :
    readBE 4 (be32 n ++ t) = .ok (n, t) := by
  have : ofBE (be32 n) = n := by simp only [ofBE, be32, List.foldl]; omega
  rw [readBE, show 4 = (be32 n).length from rfl, takeN_append]
  simp only [this]

theorem readBE_be64 (n : Nat) (h : n < 18446744073709551616) (t : Bytes) :
    readBE 8 (be64 n ++ t) = .ok (n, t) := by
  have : ofBE (be64 n) = n := by
    simp only [ofBE, be64, be32, List.foldl, List.cons_append, List.nil_append]; omega
  rw [readBE, show 8 = (be64 n).length from rfl, takeN_append]
  simp only [this]

/-! ## Two's complement -/

theorem twos_lt (w : Nat) (i : Int) : twos w i < 2 ^ w := by
  unfold twos
  have hp : (0 : Int) < (2 : Int) ^ w := Int.pow_pos (by decide)
  have h1 := Int.emod_nonneg i (Int.ne_of_gt hp)
  have h2 := Int.emod_lt_of_pos i hp
  have hc : ((2 ^ w : Nat) : Int) = (2 : Int) ^ w := by norm_cast
  omega

theorem signed_twos8 (i : Int) (h1 : -128 ≤ i) (h2 : i ≤ 127) : signed 8 (twos 8 i) = i := by
  unfold signed
  by_cases hc : 2 * twos 8 i < 2 ^ 8
  · rw [if_pos hc]; unfold twos at *; omega
  · rw [if_neg hc]; unfold twos at *; omega

theorem signed_twos16 (i : Int) (h1 : -32768 ≤ i) (h2 : i ≤ 32767) : signed 16 (twos 16 i) = i := by
  unfold signed
  by_cases hc : 2 * twos 16 i < 2 ^ 16
  · rw [if_pos hc]; unfold twos at *; omega
  · rw [if_neg hc]; unfold twos at *; omega

theorem signed_twos32 (i : Int) (h1 : -2147483648 ≤ i) (h2 : i ≤ 2147483647) :
    signed 32 (twos 32 i) = i := by
  unfold signed
  by_cases hc : 2 * twos 32 i < 2 ^ 32
  · rw [if_pos hc]; unfold twos at *; omega
  · rw [if_neg hc]; unfold twos at *; omega

theorem signed_twos64 (i : Int) (h1 : -9223372036854775808 ≤ i) (h2 : i ≤ 9223372036854775807) :
    signed 64 (twos 64 i) = i := by
  unfold signed
  by_cases hc : 2 * twos 64 i < 2 ^ 64
  · rw [if_pos hc]; unfold twos at *; omega
  · rw [if_neg hc]; unfold twos at *; omega


/-! ## Round trip of the primitives -/

/-- The range of int64. -/
def InInt64 (i : Int) : Prop := -9223372036854775808 ≤ i ∧ i ≤ 9223372036854775807

theorem readInt64_appendInt (i : Int) (h : InInt64 i) (t : Bytes) :
    readInt64 (appendInt i ++ t) = .ok (i, t) := by
  obtain ⟨h1, h2⟩ := h
  unfold appendInt
  split
  · rename_i h0
    split
    · simp only [List.cons_append, List.nil_append, readInt64]
      rw [if_pos (by omega)]
      congr 2
      omega
    · split
      · simp only [List.cons_append, readInt64]
        simp only [Nat.reduceLeDiff, Nat.reduceEqDiff, if_true, if_false]
        rw [readBE_be16 _ (twos_lt 16 i)]
        simp only [mapR]
        rw [signed_twos16 i (by omega) (by omega)]
      · split
        · simp only [List.cons_append, readInt64]
          simp only [Nat.reduceLeDiff, Nat.reduceEqDiff, if_true, if_false]
          rw [readBE_be32 _ (twos_lt 32 i)]
          simp only [mapR]
          rw [signed_twos32 i (by omega) (by omega)]
        · simp only [List.cons_append, readInt64]
          simp only [Nat.reduceLeDiff, Nat.reduceEqDiff, if_true, if_false]
          rw [readBE_be64 _ (twos_lt 64 i)]
          simp only [mapR]
          rw [signed_twos64 i (by omega) (by omega)]
  · split
    · simp only [List.cons_append, List.nil_append, readInt64]
      have e : twos 8 i = (i + 256).toNat := by unfold twos; omega
      rw [if_neg (by omega), if_pos (by omega), signed_twos8 i (by omega) (by omega)]
    · split
      · simp only [List.cons_append, List.nil_append, readInt64]
        simp only [Nat.reduceLeDiff, if_true, if_false]
        rw [readBE_1]
        simp only [mapR]
        rw [signed_twos8 i (by omega) (by omega)]
      · split
        · simp only [List.cons_append, readInt64]
          simp only [Nat.reduceLeDiff, Nat.reduceEqDiff, if_true, if_false]
          rw [readBE_be16 _ (twos_lt 16 i)]
          simp only [mapR]
          rw [signed_twos16 i (by omega) (by omega)]
        · split
          · simp only [List.cons_append, readInt64]
            simp only [Nat.reduceLeDiff, Nat.reduceEqDiff, if_true, if_false]
            rw [readBE_be32 _ (twos_lt 32 i)]
            simp only [mapR]
            rw [signed_twos32 i (by omega) (by omega)]
          · simp only [List.cons_append, readInt64]
            simp only [Nat.reduceLeDiff, Nat.reduceEqDiff, if_true, if_false]
            rw [readBE_be64 _ (twos_lt 64 i)]
            simp only [mapR]
            rw [signed_twos64 i (by omega) (by omega)]

/-- The range of int8 / int32, as the Go types give it. -/
def InInt8 (i : Int) : Prop := -128 ≤ i ∧ i ≤ 127
def InInt32 (i : Int) : Prop := -2147483648 ≤ i ∧ i ≤ 2147483647

theorem readInt8_appendInt (i : Int) (h : InInt8 i) (t : Bytes) :
    readIntW 8 (appendInt i ++ t) = .ok (i, t) := by
  obtain ⟨h1, h2⟩ := h
  rw [readIntW, readInt64_appendInt i ⟨by omega, by omega⟩]
  simp only [checkR]
  rw [if_pos]
  simp
  omega

theorem readInt32_appendInt (i : Int) (h : InInt32 i) (t : Bytes) :
    readIntW 32 (appendInt i ++ t) = .ok (i, t) := by
  obtain ⟨h1, h2⟩ := h
  rw [readIntW, readInt64_appendInt i ⟨by omega, by omega⟩]
  simp only [checkR]
  rw [if_pos]
  simp
  omega

/-- The range of uint64 / uint32. -/
def InUint64 (u : Nat) : Prop := u < 18446744073709551616
def InUint32 (u : Nat) : Prop := u < 4294967296

theorem readUint64_appendUint (u : Nat) (h : InUint64 u) (t : Bytes) :
    readUint64 (appendUint u ++ t) = .ok (u, t) := by
  unfold InUint64 at h
  unfold appendUint
  split
  · simp only [List.cons_append, List.nil_append, readUint64]
    rw [if_pos (by omega)]
  · split
    · simp only [List.cons_append, List.nil_append, readUint64]
      simp only [Nat.reduceLeDiff, Nat.reduceEqDiff, if_true, if_false]
      rw [readBE_1]
    · split
      · simp only [List.cons_append, readUint64]
        simp only [Nat.reduceLeDiff, Nat.reduceEqDiff, if_true, if_false]
        rw [readBE_be16 _ (by omega)]
      · split
        · simp only [List.cons_append, readUint64]
          simp only [Nat.reduceLeDiff, Nat.reduceEqDiff, if_true, if_false]
          rw [readBE_be32 _ (by omega)]
        · simp only [List.cons_append, readUint64]
          simp only [Nat.reduceLeDiff, Nat.reduceEqDiff, if_true, if_false]
          rw [readBE_be64 _ (by omega)]

theorem readUint32_appendUint (u : Nat) (h : InUint32 u) (t : Bytes) :
    readUint32 (appendUint u ++ t) = .ok (u, t) := by
  unfold InUint32 at h
  rw [readUint32, readUint64_appendUint u (by unfold InUint64; omega)]
  simp only [checkR]
  rw [if_pos]
  simp
  omega

theorem readBool_appendBool (b : Bool) (t : Bytes) :
    readBool (appendBool b ++ t) = .ok (b, t) := by
  cases b <;> rfl

theorem readFloat_appendFloat (u : Nat) (h : InUint64 u) (t : Bytes) :
    readFloat (appendFloat u ++ t) = .ok (u, t) := by
  simp only [appendFloat, List.cons_append, readFloat, if_true]
  exact readBE_be64 u h t

/-- The length of a Go string or slice that fits a uint32. -/
def LenOk {α : Type} (s : List α) : Prop := s.length < 4294967296

theorem readSized_ok (s t : Bytes) : readSized (.ok (s.length, s ++ t)) = .ok (s, t) := by
  simp only [readSized, takeN_append]

theorem readStr_appendStr (s : Bytes) (h : LenOk s) (t : Bytes) :
    readStr (appendStr s ++ t) = .ok (s, t) := by
  unfold LenOk at h
  unfold appendStr strHeader
  rw [List.append_assoc]
  split
  · simp only [List.cons_append, List.nil_append, readStr]
    rw [if_pos (by omega), show 0xa0 + s.length - 0xa0 = s.length by omega]
    exact readSized_ok s t
  · split
    · simp only [List.cons_append, List.nil_append, readStr]
      rw [if_neg (by omega)]
      simp only [if_true]
      rw [readBE_1]
      exact readSized_ok s t
    · split
      · simp only [List.cons_append, readStr]
        rw [if_neg (by omega)]
        simp only [Nat.reduceEqDiff, if_true, if_false]
        rw [readBE_be16 _ (by omega)]
        exact readSized_ok s t
      · simp only [List.cons_append, readStr]
        rw [if_neg (by omega)]
        simp only [Nat.reduceEqDiff, if_true, if_false]
        rw [Nat.mod_eq_of_lt h, readBE_be32 _ h]
        exact readSized_ok s t

theorem readArrayHeader_append (n : Nat) (h : n < 4294967296) (t : Bytes) :
    readArrayHeader (appendArrayHeader n ++ t) = .ok (n, t) := by
  unfold appendArrayHeader
  rw [Nat.mod_eq_of_lt h]
  simp only
  split
  · simp only [List.cons_append, List.nil_append, readArrayHeader]
    rw [if_pos (by omega), show 0x90 + n - 0x90 = n by omega]
  · split
    · simp only [List.cons_append, readArrayHeader]
      rw [if_neg (by omega)]
      simp only [if_true]
      exact readBE_be16 n (by omega) t
    · simp only [List.cons_append, readArrayHeader]
      rw [if_neg (by omega)]
      simp only [Nat.reduceEqDiff, if_true, if_false]
      exact readBE_be32 n h t

theorem readMapHeader_append (n : Nat) (h : n < 4294967296) (t : Bytes) :
    readMapHeader (appendMapHeader n ++ t) = .ok (n, t) := by
  unfold appendMapHeader
  rw [Nat.mod_eq_of_lt h]
  simp only
  split
  · simp only [List.cons_append, List.nil_append, readMapHeader]
    rw [if_pos (by omega), show 0x80 + n - 0x80 = n by omega]
  · split
    · simp only [List.cons_append, readMapHeader]
      rw [if_neg (by omega)]
      simp only [if_true]
      exact readBE_be16 n (by omega) t
    · simp only [List.cons_append, readMapHeader]
      rw [if_neg (by omega)]
      simp only [Nat.reduceEqDiff, if_true, if_false]
      exact readBE_be32 n h t

theorem readStrsN_append (xs : List Bytes) (h : ∀ s ∈ xs, LenOk s) (t : Bytes) :
    readStrsN xs.length ((xs.map appendStr).flatten ++ t) = .ok (xs, t) := by
  induction xs with
  | nil => cases t <;> rfl
  | cons s xs ih =>
    simp only [List.length_cons, List.map_cons, List.flatten_cons, List.append_assoc, readStrsN]
    rw [readStr_appendStr s (h s (by simp))]
    simp only
    rw [ih (fun x hx => h x (by simp [hx]))]

theorem readStrs_appendStrs (xs : List Bytes) (hl : LenOk xs) (h : ∀ s ∈ xs, LenOk s) (t : Bytes) :
    readStrs (appendStrs xs ++ t) = .ok (xs, t) := by
  rw [readStrs, appendStrs, List.append_assoc, readArrayHeader_append _ hl]
  exact readStrsN_append xs h t

theorem readMapKey_eq_readStr (s t : Bytes) : readMapKey (appendStr s ++ t) = readStr (appendStr s ++ t) := by
  have hne : ∃ lead r, appendStr s ++ t = lead :: r ∧ lead ≠ 0xc4 ∧ lead ≠ 0xc5 ∧ lead ≠ 0xc6 := by
    unfold appendStr strHeader
    split
    · exact ⟨_, _, rfl, by omega, by omega, by omega⟩
    · split
      · exact ⟨_, _, rfl, by omega, by omega, by omega⟩
      · split
        · exact ⟨_, _, rfl, by omega, by omega, by omega⟩
        · exact ⟨_, _, rfl, by omega, by omega, by omega⟩
  obtain ⟨lead, r, he, h1, h2, h3⟩ := hne
  rw [he]
  simp only [readMapKey]
  rw [if_neg (by omega)]

theorem readMapKey_appendStr (s : Bytes) (h : LenOk s) (t : Bytes) :
    readMapKey (appendStr s ++ t) = .ok (s, t) := by
  rw [readMapKey_eq_readStr, readStr_appendStr s h]

end Verif.Msgp
