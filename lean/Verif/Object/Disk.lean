import Verif.Object.Code

/-!
# Aligned readers (C49)

Models src/common/system/disk/aligend_reader.go and multi_reader.go, as used on Linux
(direct_io_unix.go:54, 57), and the copy loop of `io.CopyBuffer`.
-/

namespace Verif.Object

/-- `directio.BlockSize`, `cst.OS.PageSize`. -/
def pageSize : Nat := 4096

/-- `AlignedSize`, `AlignedSize64`, aligend_reader.go:12-25. -/
def alignedSize (n : Nat) : Nat := if n % pageSize > 0 then n - n % pageSize + pageSize else n

theorem alignedSize_dvd (n : Nat) : pageSize ∣ alignedSize n := by
  unfold alignedSize pageSize
  split <;> omega

theorem le_alignedSize (n : Nat) : n ≤ alignedSize n := by
  unfold alignedSize pageSize
  split
  · have := Nat.mod_lt n (show 4096 > 0 by decide); omega
  · omega

theorem alignedSize_lt (n : Nat) : alignedSize n < n + pageSize := by
  unfold alignedSize pageSize
  split <;> omega

theorem alignedSize_of_dvd {n : Nat} (h : pageSize ∣ n) : alignedSize n = n := by
  unfold alignedSize pageSize at *
  rw [if_neg (by omega)]

theorem alignedSize_le {n b : Nat} (hb : pageSize ∣ b) (h : n ≤ b) : alignedSize n ≤ b := by
  unfold alignedSize pageSize at *
  split <;> omega

/-- `alignedSize n` is the least multiple of 4096 that is not below `n`. -/
theorem C49_aligned_size (n : Nat) : pageSize ∣ alignedSize n ∧ n ≤ alignedSize n ∧
    ∀ b, pageSize ∣ b → n ≤ b → alignedSize n ≤ b :=
  ⟨alignedSize_dvd n, le_alignedSize n, fun _ hb h => alignedSize_le hb h⟩

inductive IoErr
  | eof
  | fail
  deriving DecidableEq

/-- A source of bytes; `fails`: it ends with an error instead of the end of the stream.  (A body that is cut
off, which `net/http` reports as `io.ErrUnexpectedEOF`, does not count as failing: aligend_reader.go:39-41
takes it for the end of the stream, see C113.) -/
structure Src where
  data : Bytes
  fails : Bool
  deriving DecidableEq

/-! ## The padded reader -/

/-- `AlignedReader.Read`, aligend_reader.go:36-46, with a buffer of `len` bytes.  `io.ReadFull` collects
short reads of the source.  (`slices.Fill` fills with zeros.) -/
def padRead (s : Src) (len : Nat) : Bytes × Option IoErr × Src :=
  let got := s.data.take len
  let err := if got.length = len then none else if s.fails then some .fail else some .eof
  let padEnd := min len (alignedSize got.length)
  (got ++ List.replicate (padEnd - got.length) 0, err, { s with data := s.data.drop len })

/-- The loop of `io.CopyBuffer`: what is written, and the error with which reading stopped.  One buffer
length per pass. -/
def padCopy : List Nat → Src → Bytes × Option IoErr
  | [], _ => ([], none)
  | n :: ns, s =>
    match padRead s n with
    | (b, some e, _) => (b, some e)
    | (b, none, s') => let r := padCopy ns s'; (b ++ r.1, r.2)

/-- Content followed by zeros up to a multiple of 4096. -/
def padded (b : Bytes) : Bytes := b ++ List.replicate (alignedSize b.length - b.length) 0

theorem padded_length (b : Bytes) : (padded b).length = alignedSize b.length := by
  have := le_alignedSize b.length
  simp only [padded, List.length_append, List.length_replicate]; omega

theorem alignedSize_add {a : Nat} (h : pageSize ∣ a) (b : Nat) :
    alignedSize (a + b) = a + alignedSize b := by
  unfold alignedSize pageSize at *
  split <;> split <;> omega

theorem padded_append (a b : Bytes) (h : pageSize ∣ a.length) : padded (a ++ b) = a ++ padded b := by
  unfold padded
  rw [List.length_append, alignedSize_add h]
  rw [show a.length + alignedSize b.length - (a.length + b.length) = alignedSize b.length - b.length by
    omega, List.append_assoc]

theorem padCopy_spec (ns : List Nat) (hn : ∀ n ∈ ns, 0 < n ∧ pageSize ∣ n) (s : Src) :
    (padCopy ns s = (padded s.data, some (if s.fails then .fail else .eof)) ∧ s.data.length < ns.sum) ∨
    (padCopy ns s = (s.data.take ns.sum, none) ∧ ns.sum ≤ s.data.length) := by
  induction ns generalizing s with
  | nil => exact .inr ⟨by simp [padCopy], by simp⟩
  | cons n ns ih =>
    have hn0 := hn n (by simp)
    by_cases hl : n ≤ s.data.length
    · have hr : padRead s n = (s.data.take n, none, { s with data := s.data.drop n }) := by
        have h1 : (s.data.take n).length = n := by rw [List.length_take]; omega
        simp only [padRead, h1, ↓reduceIte]
        rw [alignedSize_of_dvd hn0.2]; simp
      simp only [padCopy, hr]
      have hsplit : s.data = s.data.take n ++ s.data.drop n := (List.take_append_drop n _).symm
      have htl : (s.data.take n).length = n := by rw [List.length_take]; omega
      rcases ih (fun m hm => hn m (by simp [hm])) { s with data := s.data.drop n } with ⟨h1, h2⟩ | ⟨h1, h2⟩
      · refine .inl ⟨?_, ?_⟩
        · rw [h1]
          simp only
          congr 1
          conv => rhs; rw [hsplit]
          rw [padded_append _ _ (by rw [htl]; exact hn0.2)]
        · simp only [List.length_drop] at h2
          rw [List.sum_cons]; omega
      · refine .inr ⟨?_, ?_⟩
        · rw [h1]
          simp only
          congr 1
          rw [List.sum_cons, List.take_add]
        · simp only [List.length_drop] at h2
          rw [List.sum_cons]; omega
    · refine .inl ⟨?_, ?_⟩
      · have h1 : (s.data.take n) = s.data := List.take_of_length_le (by omega)
        have h2 : ¬ s.data.length = n := by omega
        have h3 : min n (alignedSize s.data.length) = alignedSize s.data.length :=
          Nat.min_eq_right (alignedSize_le hn0.2 (by omega))
        simp only [padCopy, padRead, h1, h2, ↓reduceIte, h3]
        by_cases hf : s.fails = true <;> simp [hf, padded]
      · rw [List.sum_cons]; omega

/-- **C49** The padded reader delivers the source followed by zeros up to the next multiple of 4096, for
every sequence of buffer lengths that are multiples of 4096, and then reports the end. -/
theorem C49_padded (ns : List Nat) (hn : ∀ n ∈ ns, 0 < n ∧ pageSize ∣ n) (src : Bytes)
    (hl : src.length < ns.sum) :
    padCopy ns ⟨src, false⟩ = (src ++ List.replicate (alignedSize src.length - src.length) 0, some .eof) := by
  rcases padCopy_spec ns hn ⟨src, false⟩ with ⟨h1, _⟩ | ⟨_, h2⟩
  · simpa [padded] using h1
  · simp at h2; omega

example : (∀ n ∈ [4096, 8192], 0 < n ∧ pageSize ∣ n) ∧ ([1, 2, 3] : Bytes).length < [4096, 8192].sum := by
  decide

/-- A source that breaks off is padded as well before its error is passed on, so the file ends with
zeros that were never sent. -/
theorem C49_padded_error (ns : List Nat) (hn : ∀ n ∈ ns, 0 < n ∧ pageSize ∣ n) (src : Bytes)
    (hl : src.length < ns.sum) :
    padCopy ns ⟨src, true⟩ = (src ++ List.replicate (alignedSize src.length - src.length) 0, some .fail) := by
  rcases padCopy_spec ns hn ⟨src, true⟩ with ⟨h1, _⟩ | ⟨_, h2⟩
  · simpa [padded] using h1
  · simp at h2; omega

/-- With buffers that are not multiples of 4096 nothing is guaranteed about the size: no padding here. -/
example : padCopy [3, 3] ⟨[1, 2, 3], false⟩ = ([1, 2, 3], some .eof) := by decide

/-! ## The limited reader -/

/-- What one call of the limited reader asks of the underlying reader, aligend_reader.go:58-60. -/
def limLen (N len : Nat) : Nat := if len > N then alignedSize N else len

/-- One call: buffer length and capacity, and how many bytes the underlying reader is willing to
deliver at once. -/
structure LimReq where
  len : Nat
  cap : Nat
  short : Nat

/-- `AlignedLimitedReader.Read`, aligend_reader.go:53-68.  State: `N` and what the underlying reader
still has.  `none`: slicing `p` beyond its capacity panics. -/
def limRead (st : Nat × Bytes) (q : LimReq) : Option (Bytes × Option IoErr × (Nat × Bytes)) :=
  if st.1 = 0 then some ([], some .eof, st)
  else
    let len' := limLen st.1 q.len
    if q.cap < len' then none
    else if len' = 0 then some ([], none, st)
    else if st.2 = [] then some ([], some .eof, st)
    else
      let k := max 1 (min q.short (min len' st.2.length))
      let n := min k st.1
      some (st.2.take n, none, (st.1 - n, st.2.drop k))

/-- Reading until the end is reported. -/
def limCopy : List LimReq → Nat × Bytes → Option (Bytes × Option IoErr)
  | [], _ => some ([], none)
  | q :: qs, st =>
    match limRead st q with
    | none => none
    | some (b, some e, _) => some (b, some e)
    | some (b, none, st') =>
      match limCopy qs st' with
      | none => none
      | some (bs, e) => some (b ++ bs, e)

theorem limCopy_spec (qs : List LimReq) (st : Nat × Bytes)
    (hq : ∀ q ∈ qs, 0 < q.len ∧ ∀ n ≤ st.1, limLen n q.len ≤ q.cap) :
    ∃ b e, limCopy qs st = some (b, e) ∧
      (e = some .eof ∧ b = st.2.take st.1 ∨ e = none ∧ b <+: st.2.take st.1 ∧ qs.length ≤ b.length) := by
  induction qs generalizing st with
  | nil => exact ⟨[], none, rfl, .inr ⟨rfl, List.nil_prefix, by simp⟩⟩
  | cons q qs ih =>
    obtain ⟨N, u⟩ := st
    have hq0 := hq q (by simp)
    simp only at hq0
    by_cases hN : N = 0
    · subst hN
      exact ⟨[], some .eof, by simp [limCopy, limRead], .inl ⟨rfl, by simp⟩⟩
    · have hcap := hq0.2 N (Nat.le_refl _)
      have hpos : limLen N q.len ≠ 0 := by
        unfold limLen
        split
        · have := le_alignedSize N; omega
        · omega
      by_cases hu : u = []
      · subst hu
        exact ⟨[], some .eof, by simp [limCopy, limRead, hN, Nat.not_lt.2 hcap, hpos], .inl ⟨rfl, by simp⟩⟩
      · have hul := List.length_pos_iff.2 hu
        generalize hk : max 1 (min q.short (min (limLen N q.len) u.length)) = k
        have hkl : k ≤ u.length := by omega
        have hr : limRead (N, u) q = some (u.take (min k N), none, (N - min k N, u.drop k)) := by
          simp only [limRead, hN, ↓reduceIte, Nat.not_lt.2 hcap, hpos, hu]
          rw [hk]
        obtain ⟨b, e, h1, h2⟩ := ih (N - min k N, u.drop k) (fun q' hq' =>
          ⟨(hq q' (by simp [hq'])).1, fun n hn => (hq q' (by simp [hq'])).2 n (by simp only at hn ⊢; omega)⟩)
        refine ⟨u.take (min k N) ++ b, e, by simp [limCopy, hr, h1], ?_⟩
        have key : u.take N = u.take (min k N) ++ (u.drop k).take (N - min k N) := by
          by_cases hkN : k ≤ N
          · rw [Nat.min_eq_left hkN]
            conv => lhs; rw [show N = k + (N - k) by omega, List.take_add]
          · rw [Nat.min_eq_right (by omega)]; simp
        simp only at h2 ⊢
        rcases h2 with ⟨h3, h4⟩ | ⟨h3, h4, h5⟩
        · exact .inl ⟨h3, by rw [key, h4]⟩
        · refine .inr ⟨h3, ?_, ?_⟩
          · rw [key]; exact (List.prefix_append_right_inj _).2 h4
          · simp only [List.length_append, List.length_take, List.length_cons]
            omega

/-- **C49** The limited reader delivers exactly the first `N` bytes of the underlying reader (all of it
if it is shorter) and then reports the end: for every sequence of buffers whose lengths are multiples of
4096 and every way in which the underlying reader delivers its bytes.  It never slices out of bounds. -/
theorem C49_limited (N : Nat) (under : Bytes) (qs : List LimReq)
    (hq : ∀ q ∈ qs, 0 < q.len ∧ pageSize ∣ q.len ∧ q.len ≤ q.cap) (hl : (under.take N).length < qs.length) :
    limCopy qs (N, under) = some (under.take N, some .eof) := by
  obtain ⟨b, e, h1, h2⟩ := limCopy_spec qs (N, under) (fun q hqm => by
    obtain ⟨a1, a2, a3⟩ := hq q hqm
    refine ⟨a1, fun n _ => ?_⟩
    unfold limLen
    split
    · have := alignedSize_le a2 (show n ≤ q.len by omega); omega
    · exact a3)
  rcases h2 with ⟨h3, h4⟩ | ⟨_, h4, h5⟩
  · rw [h1, h3, h4]
  · have := h4.length_le
    simp only at this hl
    omega

example : limCopy (List.replicate 6 ⟨4096, 4096, 2⟩) (5, [1, 2, 3, 4, 5, 6, 7]) =
    some ([1, 2, 3, 4, 5], some .eof) := by decide

/-- Buffers of other lengths can make the reader slice its buffer out of bounds. -/
theorem C49_limited_panics : limCopy [⟨5000, 5000, 2⟩, ⟨5000, 5000, 2⟩]
    (5000, [1, 2, 3, 4]) = none := by decide

/-- Lengths requested of a file opened for direct I/O are multiples of 4096 if the buffer length is. -/
theorem C49_requests_aligned (N len : Nat) (h : pageSize ∣ len) : pageSize ∣ limLen N len := by
  unfold limLen
  split
  · exact alignedSize_dvd N
  · exact h

/-! ## The reader that joins its sources -/

/-- One call of `multiReader.Read`, multi_reader.go:25-53, with `len` bytes left in the buffer.  A source
delivers all it can at once and reports its end separately; `none`: the loop never ends, because an error other than the end of the
source is retried for ever while the buffer is not full.  Result: bytes, "end reported", remaining
sources. -/
def multiRead : List Src → Nat → Option (Bytes × Bool × List Src)
  | [], _ => some ([], true, [])
  | s :: rest, len =>
    if len ≤ s.data.length then some (s.data.take len, false, { s with data := s.data.drop len } :: rest)
    else if s.fails then none
    else match multiRead rest (len - s.data.length) with
      | none => none
      | some (b, e, r) => some (s.data ++ b, e, r)

/-- **C49** Joining healthy sources: a call fills the buffer with the next bytes of the concatenation, and
reports the end exactly when there are not enough left. -/
theorem C49_multi (srcs : List Src) (hs : ∀ s ∈ srcs, s.fails = false) (len : Nat) :
    ∃ rest, multiRead srcs len =
        some (((srcs.map Src.data).flatten).take len,
          decide ((srcs.map Src.data).flatten.length < len) || srcs.isEmpty, rest) ∧
      (rest.map Src.data).flatten = (srcs.map Src.data).flatten.drop len ∧
      ∀ s ∈ rest, s.fails = false := by
  induction srcs generalizing len with
  | nil => exact ⟨[], by simp [multiRead], by simp, by simp⟩
  | cons s srcs ih =>
    have hs0 := hs s (by simp)
    simp only [multiRead]
    by_cases hl : len ≤ s.data.length
    · rw [if_pos hl]
      refine ⟨{ s with data := s.data.drop len } :: srcs, ?_, ?_, ?_⟩
      · simp only [List.map_cons, List.flatten_cons]
        rw [List.take_append_of_le_length hl]
        simp; omega
      · simp only [List.map_cons, List.flatten_cons]
        rw [List.drop_append_of_le_length hl]
      · intro x hx
        rcases List.mem_cons.1 hx with h | h
        · rw [h]; exact hs0
        · exact hs x (by simp [h])
    · rw [if_neg hl, hs0]
      obtain ⟨rest, h1, h2, h3⟩ := ih (fun x hx => hs x (by simp [hx])) (len - s.data.length)
      refine ⟨rest, ?_, ?_, h3⟩
      · rw [h1]
        simp only [Bool.false_eq_true, ↓reduceIte, List.map_cons, List.flatten_cons, List.isEmpty_cons,
          Bool.or_false]
        rw [List.take_append, List.take_of_length_le (show s.data.length ≤ len by omega)]
        congr 3
        cases srcs with
        | nil => simp; omega
        | cons a l =>
          simp only [List.isEmpty_cons, Bool.or_false, List.length_append]
          congr 1
          apply propext
          omega
      · simp only [List.map_cons, List.flatten_cons]
        rw [h2, List.drop_append, List.drop_of_length_le (show s.data.length ≤ len by omega),
          List.nil_append]

/-- A source that fails before the buffer is full makes the call loop for ever. -/
theorem C49_multi_hangs : multiRead [⟨[1, 2], false⟩, ⟨[3], true⟩] 8 = none := by decide

end Verif.Object
