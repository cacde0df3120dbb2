import Verif.Common.Str

/-!
# Varint and array framing (C10, C11)

Model of `IntToBytes`, `BytesToInt`, `EncodeArrayMsgp`, `DecodeArrayMsgp`
(src/common/util/util.go:211-255, 284-293) and of the functions of `encoding/binary` they call.
A byte is a natural number; encoders only produce numbers below 256.
-/

namespace Verif.Codec

abbrev Bytes := List Nat

/-- The bytes written by `binary.PutUvarint` / `binary.AppendUvarint`: seven bits per byte, least
significant first, continuation bit 0x80.  `fuel` bounds the loop; ten bytes hold any uint64. -/
def uvarintLoop : Nat → Nat → Bytes
  | 0, _ => []
  | fuel + 1, x => if x < 128 then [x] else (x % 128 + 128) :: uvarintLoop fuel (x / 128)

/-- The varint of a uint64. -/
def uvarintBytes (x : Nat) : Bytes := uvarintLoop 10 x

/-- `binary.PutUvarint(buf, x)`: overwrites the first bytes of `buf` (`none` = index out of range
panic).  The bytes after the varint keep their old value. -/
def putUvarint (buf : Bytes) (x : Nat) : Option Bytes :=
  let v := uvarintBytes x
  if v.length ≤ buf.length then some (v ++ buf.drop v.length) else none

/-- `binary.Uvarint(buf)`: value and number of bytes read; `none` stands for `n <= 0` (buffer too
small or overflow).  `i` is the loop index, `x` the accumulated value.  The bit operation
`x | uint64(b&0x7f)<<s` is written as an addition: `x < 2^s`, so the bits are disjoint. -/
def uvarintDec : Nat → Nat → Bytes → Option (Nat × Nat)
  | _, _, [] => none
  | i, x, b :: bs =>
    if i = 10 then none
    else if b < 128 then
      if i = 9 ∧ b > 1 then none else some (x + b * 2 ^ (7 * i), i + 1)
    else uvarintDec (i + 1) (x + b % 128 * 2 ^ (7 * i)) bs

/-- `binary.ReadUvarint(r)` with the error ignored: the value accumulated when the loop stops. -/
def readUvarint : Nat → Nat → Bytes → Nat
  | _, x, [] => x
  | i, x, b :: bs =>
    if i = 10 then x
    else if b < 128 then
      if i = 9 ∧ b > 1 then x else x + b * 2 ^ (7 * i)
    else readUvarint (i + 1) (x + b % 128 * 2 ^ (7 * i)) bs

/-- `IntToBytes(i)`, util.go:284-288: a fresh zeroed buffer of ten bytes. -/
def intToBytes (i : Nat) : Option Bytes := putUvarint (List.replicate 10 0) i

/-- `BytesToInt(b)`, util.go:290-293. -/
def bytesToInt (b : Bytes) : Nat := readUvarint 0 0 b

/-- `math.MaxInt32`. -/
def maxInt32 : Nat := 2 ^ 31 - 1

inductive EncErr
  | item      -- MarshalMsg failed
  | tooLarge  -- encoded object larger than MaxInt32
  deriving DecidableEq, Repr

/-- Body of the loop of `EncodeArrayMsgp`, util.go:218-234.  `size` is the five byte size buffer
that is reused for every item.  `enc` is `MarshalMsg` (appending to the emptied buffer). -/
def encodeLoop {α : Type} (enc : α → Option Bytes) : Bytes → Bytes → List α → Except EncErr Bytes
  | _, res, [] => .ok res
  | size, res, v :: vs =>
    match enc v with
    | none => .error .item
    | some buf =>
      if buf.length > maxInt32 then .error .tooLarge
      else
        match putUvarint size buf.length with
        | none => .error .item  -- panic, unreachable (five bytes hold any number up to MaxInt32)
        | some size' => encodeLoop enc size' (res ++ size' ++ buf) vs

/-- `EncodeArrayMsgp(arr)`, util.go:212-236. -/
def encodeArray {α : Type} (enc : α → Option Bytes) (arr : List α) : Except EncErr Bytes :=
  if arr.isEmpty then .ok [] else encodeLoop enc (List.replicate 5 0) [] arr

inductive DecRes (α : Type)
  | ok (arr : List α)
  | formatErr
  | itemErr
  | panic
  deriving DecidableEq, Repr

/-- `data[lo:hi]` where the backing array of `data` is `full`: Go bounds the slice by the capacity,
not by the length. -/
def slice (full : Bytes) (lo hi : Nat) : Option Bytes :=
  if hi ≤ full.length then some ((full.drop lo).take (hi - lo)) else none

/-- `DecodeArrayMsgp(data, constructor)`, util.go:239-255.  `full` is the backing array of `data`
(`data` and the capacity behind it), `len` the length of `data`.  `dec` is `UnmarshalMsg` on a
fresh item.  Each turn advances by at least five bytes, so `len` turns suffice. -/
def decodeLoop {α : Type} (dec : Bytes → Option α) (full : Bytes) (len : Nat) :
    Nat → Nat → List α → DecRes α
  | 0, _, _ => .panic  -- unreachable for fuel > len
  | fuel + 1, cur, arr =>
    if len ≤ cur then .ok arr
    else
      match slice full cur (cur + 5) with
      | none => .panic
      | some h =>
        match uvarintDec 0 0 h with
        | none => .formatErr
        | some (size, _) =>
          match slice full (cur + 5) (cur + 5 + size) with
          | none => .panic
          | some b =>
            match dec b with
            | none => .itemErr
            | some v => decodeLoop dec full len fuel (cur + 5 + size) (arr ++ [v])

def decodeArray {α : Type} (dec : Bytes → Option α) (data ext : Bytes) : DecRes α :=
  decodeLoop dec (data ++ ext) data.length (data.length + 1) 0 []

/-! ## Lemmas -/

theorem uvarintLoop_length (f x : Nat) : (uvarintLoop f x).length ≤ f := by
  induction f generalizing x with
  | zero => simp [uvarintLoop]
  | succ f ih =>
    unfold uvarintLoop
    split
    · simp
    · simp only [List.length_cons]; have := ih (x / 128); omega

theorem uvarintLoop_stable (k x : Nat) (hk : 0 < k) (h : x < 128 ^ k) (f : Nat) (hf : k ≤ f) :
    (uvarintLoop f x).length ≤ k := by
  induction k generalizing x f with
  | zero => omega
  | succ k ih =>
    obtain ⟨f, rfl⟩ : ∃ g, f = g + 1 := ⟨f - 1, by omega⟩
    unfold uvarintLoop
    split
    · simp
    · rename_i hx
      have hk0 : 0 < k := by
        apply Nat.pos_of_ne_zero
        rintro rfl
        simp at h; omega
      simp only [List.length_cons]
      have := ih (x / 128) hk0 (by
        rw [Nat.div_lt_iff_lt_mul (by omega)]; rw [Nat.pow_succ] at h; omega) f (by omega)
      omega

theorem pow_step (i : Nat) : 2 ^ (7 * (i + 1)) = 2 ^ (7 * i) * 128 := by
  rw [Nat.mul_succ, Nat.pow_add]

/-- Decoding what was encoded, in the middle of the loop. -/
theorem dec_uvarintLoop (f n i x : Nat) (rest : Bytes) (hf : n < 128 ^ f) (hf0 : 0 < f)
    (hi : n * 2 ^ (7 * i) < 2 ^ 64) (hi2 : i + (uvarintLoop f n).length ≤ 10) :
    uvarintDec i x (uvarintLoop f n ++ rest) =
      some (x + n * 2 ^ (7 * i), i + (uvarintLoop f n).length) ∧
    readUvarint i x (uvarintLoop f n ++ rest) = x + n * 2 ^ (7 * i) := by
  induction f generalizing n i x with
  | zero => omega
  | succ f ih =>
    unfold uvarintLoop at hi2 ⊢
    split
    · rename_i hn
      rw [if_pos hn] at hi2
      simp only [List.length_singleton] at hi2
      have h1 : ¬ (i = 9 ∧ n > 1) := by
        rintro ⟨rfl, h1⟩
        simp only [Nat.reducePow, Nat.reduceMul] at hi
        omega
      simp only [List.cons_append, List.nil_append, uvarintDec, readUvarint, List.length_singleton]
      rw [if_neg (by omega), if_pos hn, if_neg h1]
      rw [if_neg (by omega), if_pos hn, if_neg h1]
      exact ⟨rfl, rfl⟩
    · rename_i hn
      rw [if_neg hn] at hi2
      simp only [List.length_cons] at hi2
      have hf0' : 0 < f := by
        apply Nat.pos_of_ne_zero
        rintro rfl
        simp at hf; omega
      have hpos : 0 < 2 ^ (7 * i) := Nat.pow_pos (by omega)
      have hstep : n / 128 * 2 ^ (7 * (i + 1)) + n % 128 * 2 ^ (7 * i) = n * 2 ^ (7 * i) := by
        rw [pow_step, Nat.mul_comm (2 ^ (7 * i)) 128, ← Nat.mul_assoc, ← Nat.add_mul]
        congr 1
        omega
      have := ih (n / 128) (i + 1) (x + n % 128 * 2 ^ (7 * i))
        (by rw [Nat.div_lt_iff_lt_mul (by omega)]; rw [Nat.pow_succ] at hf; omega) hf0'
        (by omega) (by omega)
      have hm : (n % 128 + 128) % 128 = n % 128 := by omega
      simp only [List.cons_append, uvarintDec, readUvarint, List.length_cons]
      rw [if_neg (by omega), if_neg (by omega), hm]
      rw [if_neg (by omega), if_neg (by omega), this.1, this.2]
      constructor
      · congr 2 <;> omega
      · omega

theorem uvarintBytes_ne_nil (n : Nat) : 0 < (uvarintBytes n).length := by
  unfold uvarintBytes uvarintLoop
  split <;> simp

theorem putUvarint_five (size : Bytes) (hs : size.length = 5) (n : Nat) (hn : n ≤ maxInt32) :
    ∃ size', putUvarint size n = some size' ∧ size'.length = 5 ∧
      ∃ k, uvarintDec 0 0 size' = some (n, k) := by
  have hl : (uvarintBytes n).length ≤ 5 :=
    uvarintLoop_stable 5 n (by omega) (by unfold maxInt32 at hn; omega) 10 (by omega)
  refine ⟨uvarintBytes n ++ size.drop (uvarintBytes n).length, ?_, ?_, ?_⟩
  · simp only [putUvarint]; rw [if_pos (by omega)]
  · simp; omega
  · have := (dec_uvarintLoop 10 n 0 0 (size.drop (uvarintBytes n).length)
      (by unfold maxInt32 at hn; omega) (by omega) (by unfold maxInt32 at hn; omega)
      (by have := uvarintLoop_length 10 n; omega)).1
    refine ⟨0 + (uvarintLoop 10 n).length, ?_⟩
    rw [show uvarintBytes n = uvarintLoop 10 n from rfl] at this ⊢
    rw [this]
    simp

/-- The framed image of a list: for each item a five byte header that decodes to the length of the
encoding, followed by the encoding. -/
inductive Framed {α : Type} (enc : α → Option Bytes) : List α → Bytes → Prop
  | nil : Framed enc [] []
  | cons {v vs h b r k} : enc v = some b → b.length ≤ maxInt32 → h.length = 5 →
      uvarintDec 0 0 h = some (b.length, k) → Framed enc vs r → Framed enc (v :: vs) (h ++ b ++ r)

theorem encodeLoop_framed {α : Type} (enc : α → Option Bytes) (vs : List α) (size res out : Bytes)
    (hs : size.length = 5) (h : encodeLoop enc size res vs = .ok out) :
    ∃ r, out = res ++ r ∧ Framed enc vs r := by
  induction vs generalizing size res with
  | nil => simp [encodeLoop] at h; exact ⟨[], by simp [h], .nil⟩
  | cons v vs ih =>
    unfold encodeLoop at h
    split at h
    · cases h
    · rename_i b hb
      split at h
      · cases h
      · rename_i hlen
        obtain ⟨size', h1, h2, k, h3⟩ := putUvarint_five size hs b.length (by omega)
        rw [h1] at h
        obtain ⟨r, hr1, hr2⟩ := ih size' (res ++ size' ++ b) h2 h
        exact ⟨size' ++ b ++ r, by simp [hr1], .cons hb (by omega) h2 h3 hr2⟩

theorem encodeLoop_ok {α : Type} (enc : α → Option Bytes) (vs : List α) (size res : Bytes)
    (hs : size.length = 5) (hall : ∀ v ∈ vs, ∃ b, enc v = some b ∧ b.length ≤ maxInt32) :
    ∃ out, encodeLoop enc size res vs = .ok out := by
  induction vs generalizing size res with
  | nil => exact ⟨res, rfl⟩
  | cons v vs ih =>
    obtain ⟨b, hb, hlen⟩ := hall v (by simp)
    obtain ⟨size', h1, h2, k, h3⟩ := putUvarint_five size hs b.length hlen
    unfold encodeLoop
    rw [hb]
    simp only [h1]
    rw [if_neg (by omega)]
    exact ih size' _ h2 (fun v hv => hall v (by simp [hv]))

theorem slice_mid (a b c : Bytes) (lo hi : Nat) (h1 : lo = a.length) (h2 : hi = a.length + b.length) :
    slice (a ++ b ++ c) lo hi = some b := by
  subst h1; subst h2
  unfold slice
  rw [if_pos (by simp)]
  simp

theorem decodeLoop_framed {α : Type} (enc : α → Option Bytes) (dec : Bytes → Option α)
    (vs : List α) (hcodec : ∀ v ∈ vs, ∀ b, enc v = some b → dec b = some v) (r : Bytes) (hr : Framed enc vs r) (pre ext : Bytes) (fuel : Nat) (arr : List α)
    (hfuel : r.length < fuel) :
    decodeLoop dec (pre ++ r ++ ext) (pre.length + r.length) fuel pre.length arr =
      .ok (arr ++ vs) := by
  induction hr generalizing pre fuel arr with
  | nil =>
    obtain ⟨fuel, rfl⟩ : ∃ g, fuel = g + 1 := ⟨fuel - 1, by omega⟩
    simp [decodeLoop]
  | @cons v vs h b r k h1 h2 h3 h4 h5 ih =>
    obtain ⟨fuel, rfl⟩ : ∃ g, fuel = g + 1 := ⟨fuel - 1, by omega⟩
    unfold decodeLoop
    rw [if_neg (by simp; omega)]
    have hs1 : slice (pre ++ (h ++ b ++ r) ++ ext) pre.length (pre.length + 5) = some h := by
      have := slice_mid pre h (b ++ r ++ ext) pre.length (pre.length + 5) rfl (by omega)
      simpa using this
    rw [hs1]
    simp only [h4]
    have hs2 : slice (pre ++ (h ++ b ++ r) ++ ext) (pre.length + 5) (pre.length + 5 + b.length)
        = some b := by
      have := slice_mid (pre ++ h) b (r ++ ext) (pre.length + 5) (pre.length + 5 + b.length)
        (by simp; omega) (by simp; omega)
      simpa using this
    rw [hs2]
    simp only [hcodec v (by simp) b h1]
    have := ih (fun v hv => hcodec v (by simp [hv])) (pre ++ h ++ b) fuel (arr ++ [v]) (by simp at hfuel; omega)
    simp only [List.length_append, List.append_assoc] at this ⊢
    rw [h3] at this ⊢
    have e1 : pre.length + (5 + b.length) + r.length = pre.length + (5 + (b.length + r.length)) := by
      omega
    have e2 : pre.length + (5 + b.length) = pre.length + 5 + b.length := by omega
    rw [e1, e2] at this
    simpa using this

/-- What decoding a truncated framed image gives, with no spare capacity behind it. -/
theorem decodeLoop_truncated {α : Type} (enc : α → Option Bytes) (dec : Bytes → Option α)
    (vs : List α) (hcodec : ∀ v ∈ vs, ∀ b, enc v = some b → dec b = some v) (r : Bytes) (hr : Framed enc vs r) (pre : Bytes) (fuel : Nat) (arr : List α)
    (n : Nat) (hn : n ≤ r.length) (hfuel : n < fuel) :
    (∃ k, k ≤ vs.length ∧ Framed enc (vs.take k) (r.take n) ∧
      decodeLoop dec (pre ++ r.take n) (pre.length + n) fuel pre.length arr
        = .ok (arr ++ vs.take k)) ∨
    decodeLoop dec (pre ++ r.take n) (pre.length + n) fuel pre.length arr = .panic := by
  induction hr generalizing pre fuel arr n with
  | nil =>
    simp at hn
    subst hn
    obtain ⟨fuel, rfl⟩ : ∃ g, fuel = g + 1 := ⟨fuel - 1, by omega⟩
    exact Or.inl ⟨0, by simp, by simpa using Framed.nil, by simp [decodeLoop]⟩
  | @cons v vs h b r k h1 h2 h3 h4 h5 ih =>
    obtain ⟨fuel, rfl⟩ : ∃ g, fuel = g + 1 := ⟨fuel - 1, by omega⟩
    by_cases hn0 : n = 0
    · subst hn0
      exact Or.inl ⟨0, by simp, by simpa using Framed.nil, by simp [decodeLoop]⟩
    · have hlen : ((h ++ b ++ r).take n).length = n := by rw [List.length_take]; omega
      by_cases hn5 : n < 5
      · refine Or.inr ?_
        unfold decodeLoop
        rw [if_neg (by omega)]
        have : slice (pre ++ (h ++ b ++ r).take n) pre.length (pre.length + 5) = none := by
          unfold slice; rw [if_neg (by rw [List.length_append, hlen]; omega)]
        rw [this]
      · have ht1 : (h ++ b ++ r).take n = h ++ (b ++ r).take (n - 5) := by
          rw [List.append_assoc, List.take_append, List.take_of_length_le (by omega), h3]
        have hs1 : slice (pre ++ (h ++ b ++ r).take n) pre.length (pre.length + 5) = some h := by
          rw [ht1]
          have := slice_mid pre h ((b ++ r).take (n - 5)) pre.length (pre.length + 5) rfl (by omega)
          simpa using this
        by_cases hnb : n < 5 + b.length
        · refine Or.inr ?_
          unfold decodeLoop
          rw [if_neg (by omega), hs1]
          simp only [h4]
          have : slice (pre ++ (h ++ b ++ r).take n) (pre.length + 5) (pre.length + 5 + b.length)
              = none := by
            unfold slice; rw [if_neg (by rw [List.length_append, hlen]; omega)]
          rw [this]
        · have ht2 : (h ++ b ++ r).take n = h ++ b ++ r.take (n - 5 - b.length) := by
            rw [ht1, List.take_append, List.take_of_length_le (by omega)]; simp
          have hs2 : slice (pre ++ (h ++ b ++ r).take n) (pre.length + 5)
              (pre.length + 5 + b.length) = some b := by
            rw [ht2]
            have := slice_mid (pre ++ h) b (r.take (n - 5 - b.length)) (pre.length + 5)
              (pre.length + 5 + b.length) (by simp; omega) (by simp; omega)
            simpa using this
          have hdec : decodeLoop dec (pre ++ (h ++ b ++ r).take n) (pre.length + n) (fuel + 1)
              pre.length arr =
              decodeLoop dec (pre ++ h ++ b ++ r.take (n - 5 - b.length))
                ((pre ++ h ++ b).length + (n - 5 - b.length)) fuel (pre ++ h ++ b).length
                (arr ++ [v]) := by
            conv => lhs; unfold decodeLoop
            rw [if_neg (by omega), hs1]
            simp only [h4]
            rw [hs2]
            simp only [hcodec v (by simp) b h1]
            rw [ht2]
            simp only [List.length_append, List.append_assoc]
            congr 1 <;> omega
          rw [hdec]
          rcases ih (fun v hv => hcodec v (by simp [hv])) (pre ++ h ++ b) fuel (arr ++ [v]) (n - 5 - b.length)
            (by simp at hn; omega) (by omega) with ⟨j, hj, hfr, heq⟩ | hp
          · refine Or.inl ⟨j + 1, by simp; omega, ?_, ?_⟩
            · rw [ht2]
              simp only [List.take_succ_cons]
              exact .cons h1 h2 h3 h4 hfr
            · rw [heq]; simp
          · exact Or.inr hp

/-! ## Properties -/

/-- A record codec for the examples: a record is a list of bytes, stored as it is. -/
def rawEnc (b : Bytes) : Option Bytes := some b
def rawDec (b : Bytes) : Option Bytes := some b

/-- **C10** Every list of records, each with an encoding of at most `MaxInt32` bytes, is encoded
without error, and the buffer decodes to the same list in the same order, whatever lies in the
capacity behind the buffer. -/
theorem C10_array_roundtrip {α : Type} (enc : α → Option Bytes) (dec : Bytes → Option α)
    (vs : List α) (hcodec : ∀ v ∈ vs, ∀ b, enc v = some b → dec b = some v)
    (hall : ∀ v ∈ vs, ∃ b, enc v = some b ∧ b.length ≤ maxInt32) :
    ∃ data, encodeArray enc vs = .ok data ∧ ∀ ext, decodeArray dec data ext = .ok vs := by
  unfold encodeArray
  cases vs with
  | nil => exact ⟨[], rfl, fun ext => by simp [decodeArray, decodeLoop]⟩
  | cons v vs =>
    obtain ⟨out, ho⟩ := encodeLoop_ok enc (v :: vs) (List.replicate 5 0) [] (by simp) hall
    refine ⟨out, ?_, ?_⟩
    · simpa using ho
    · intro ext
      obtain ⟨r, hr1, hr2⟩ := encodeLoop_framed enc _ _ _ _ (by simp) ho
      simp at hr1
      subst hr1
      have := decodeLoop_framed enc dec _ hcodec _ hr2 [] ext (out.length + 1) [] (by omega)
      simpa [decodeArray] using this

/-- **C10** full statement for truncation: decoding a proper prefix of an encoded array reports
an error. -/
def C10_truncation_statement : Prop :=
  ∀ (vs : List Bytes) (data : Bytes) (n : Nat), encodeArray rawEnc vs = .ok data → n < data.length →
    0 < n →
    (decodeArray rawDec (data.take n) [] = .formatErr ∨ decodeArray rawDec (data.take n) [] = .itemErr)

/-- **C10** the truncation statement is false: a buffer cut between two records decodes without
error to fewer records, and a buffer cut inside a record makes the decoder panic. -/
theorem C10_truncation_statement_fails : ¬ C10_truncation_statement ∧
    (∃ (vs : List Bytes) (data : Bytes) (n : Nat), encodeArray rawEnc vs = .ok data ∧
      n < data.length ∧ decodeArray rawDec (data.take n) [] = .panic) := by
  constructor
  · intro h
    have := h [[7], [8]] [1, 0, 0, 0, 0, 7, 1, 0, 0, 0, 0, 8] 6 (by rfl) (by decide) (by decide)
    revert this; decide
  · exact ⟨[[7], [8]], [1, 0, 0, 0, 0, 7, 1, 0, 0, 0, 0, 8], 8, by rfl, by decide, by decide⟩

/-- **C10** partial: decoding any prefix of an encoded array (with no spare capacity) either yields
the first records, all of them intact, or panics; it never yields an altered record.  Missing:
detection of the truncation (see `C10_truncation_statement_fails`). -/
theorem C10_truncation_partial {α : Type} (enc : α → Option Bytes) (dec : Bytes → Option α)
    (vs : List α) (hcodec : ∀ v ∈ vs, ∀ b, enc v = some b → dec b = some v) (data : Bytes)
    (henc : encodeArray enc vs = .ok data) (n : Nat) (hn : n ≤ data.length) :
    (∃ k, k ≤ vs.length ∧ decodeArray dec (data.take n) [] = .ok (vs.take k)) ∨
    decodeArray dec (data.take n) [] = .panic := by
  have hf : Framed enc vs data := by
    unfold encodeArray at henc
    cases vs with
    | nil => simp at henc; subst henc; exact .nil
    | cons v vs =>
      simp at henc
      obtain ⟨r, hr1, hr2⟩ := encodeLoop_framed enc _ _ _ _ (by simp) henc
      simp at hr1; subst hr1; exact hr2
  have := decodeLoop_truncated enc dec vs hcodec data hf [] (n + 1) [] n hn (by omega)
  have hl : (data.take n).length = n := by rw [List.length_take]; omega
  simp only [decodeArray, hl, List.append_nil, List.nil_append, List.length_nil, Nat.zero_add] at this ⊢
  rcases this with ⟨k, hk, _, h⟩ | h
  · exact Or.inl ⟨k, hk, h⟩
  · exact Or.inr h

set_option maxRecDepth 4000 in
/-- Three records of different sizes; the second header inherits nothing from the first. -/
example : (∀ v ∈ [[1, 2, 3], [], List.replicate 130 9], ∃ b, rawEnc v = some b ∧ b.length ≤ maxInt32) ∧
    encodeArray rawEnc [List.replicate 130 9, [5]] =
      .ok ([130, 1, 0, 0, 0] ++ List.replicate 130 9 ++ [1, 1, 0, 0, 0, 5]) := by
  constructor
  · intro v hv
    refine ⟨v, rfl, ?_⟩
    simp at hv
    rcases hv with rfl | rfl | rfl <;> simp [maxInt32]
  · rfl

/-- **C11** Every 64 bit number stored as bytes is read back unchanged. -/
theorem C11_int_roundtrip (i : Nat) (h : i < 2 ^ 64) :
    ∃ b, intToBytes i = some b ∧ b.length = 10 ∧ bytesToInt b = i := by
  have hl := uvarintLoop_length 10 i
  refine ⟨uvarintBytes i ++ (List.replicate 10 0).drop (uvarintBytes i).length, ?_, ?_, ?_⟩
  · simp only [intToBytes, putUvarint]
    rw [if_pos (by simpa [uvarintBytes] using hl)]
  · simp [uvarintBytes]; omega
  · have := (dec_uvarintLoop 10 i 0 0 ((List.replicate 10 0).drop (uvarintBytes i).length)
      (by omega) (by omega) (by omega) (by omega)).2
    unfold bytesToInt uvarintBytes
    rw [uvarintBytes] at this
    rw [this]
    simp

example : intToBytes (2 ^ 64 - 1) = some [255, 255, 255, 255, 255, 255, 255, 255, 255, 1] ∧
    bytesToInt [172, 2, 0, 0, 0, 0, 0, 0, 0, 0] = 300 := by decide

end Verif.Codec
