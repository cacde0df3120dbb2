import Verif.Common.Str

/-!
# The header `Range`: C57

src/common/request/range.go and its use in src/apiserver/internal/entity/dto.go:70-74, 90-94 and
src/apiserver/internal/controller/http/objects_api.go:78-83.
-/

namespace Verif.Range

open Verif

/-- `strings.Cut(s, sep)`: what is behind the first occurrence of `sep`. -/
def cutAfter (sep : Str) : Str → Option Str
  | [] => if sep = [] then some [] else none
  | c :: cs => if hasPrefix (c :: cs) sep then some ((c :: cs).drop sep.length) else cutAfter sep cs

/-- White space for `strings.TrimSpace`.  Simplification: ASCII only; the header values the HTTP server hands on
contain no other control characters. -/
def isSpace (c : Char) : Bool :=
  c = ' ' || c = '\t' || c = '\n' || c = '\r' || c = Char.ofNat 11 || c = Char.ofNat 12

/-- `strings.TrimSpace`. -/
def trimSpace (s : Str) : Str := ((s.dropWhile isSpace).reverse.dropWhile isSpace).reverse

/-- `strconv.ParseInt(s, 10, 64)` with its error dropped, as in `util.ToInt64`, src/common/util/util.go:141-150:
0 for anything but digits with an optional sign, and the nearest number for values out of range. -/
def toInt64 (s : Str) : Int :=
  match s with
  | '-' :: r => -(min ((parseDigits r).getD 0) (2 ^ 63) : Int)
  | '+' :: r => min ((parseDigits r).getD 0) (2 ^ 63 - 1)
  | r => min ((parseDigits r).getD 0) (2 ^ 63 - 1)

/-- `bytes=`. -/
def bytesEq : Str := ['b', 'y', 't', 'e', 's', '=']

/-- One element of the list, range.go:46-53. -/
def convertOne (t : Str) : Int × Int :=
  match splitOn '-' (trimSpace t) with
  | [] => (0, 0)
  | [a] => (toInt64 a, 0)
  | a :: b :: _ => (toInt64 a, toInt64 b)

/-- `Range.ConvertFrom`, range.go:32-57: `none` is the result `false`.  (`strings.Split` never returns an
empty list, so range.go:41-43 never applies.) -/
def convertFrom (s : Str) : Option (List (Int × Int)) :=
  if s = [] then none else (cutAfter bytesEq s).map fun r => (splitOn ',' r).map convertOne

/-- `GetReq.Bind`, dto.go:85-96, as far as the range is concerned: `none` is status 400. -/
def bindRange (header : Str) : Option (List (Int × Int)) :=
  if header = [] then some [] else convertFrom header

/-- The body of an answer to a GET request, objects_api.go:78-85: the stream is moved forward by the first
number of the first range. -/
def getBody {α : Type} (ranges : List (Int × Int)) (content : List α) : List α :=
  match ranges with
  | [] => content
  | r :: _ => content.drop r.1.toNat

/-! ## Lemmas -/

theorem cutAfter_prefix (sep t : Str) (hs : sep ≠ []) : cutAfter sep (sep ++ t) = some t := by
  obtain ⟨c, cs, rfl⟩ : ∃ c cs, sep = c :: cs := by
    cases sep with
    | nil => exact absurd rfl hs
    | cons c cs => exact ⟨c, cs, rfl⟩
  rw [List.cons_append, cutAfter, if_pos ((hasPrefix_iff _ _).2 ⟨t, by simp⟩)]
  simp

theorem cutAfter_none_iff (sep s : Str) (hs : sep ≠ []) :
    cutAfter sep s = none ↔ ¬ ∃ a b, s = a ++ (sep ++ b) := by
  induction s with
  | nil =>
    simp only [cutAfter, if_neg hs, true_iff]
    rintro ⟨a, b, h⟩
    have := congrArg List.length h
    simp at this
    exact hs (List.length_eq_zero_iff.1 (by omega))
  | cons c cs ih =>
    unfold cutAfter
    by_cases h : hasPrefix (c :: cs) sep = true
    · rw [if_pos h]
      obtain ⟨t, ht⟩ := (hasPrefix_iff _ _).1 h
      constructor
      · intro hn; cases hn
      · intro hn; exact absurd ⟨[], t, ht⟩ hn
    · rw [if_neg h, ih]
      refine not_congr ⟨?_, ?_⟩
      · rintro ⟨a, b, rfl⟩; exact ⟨c :: a, b, rfl⟩
      · rintro ⟨a, b, hab⟩
        cases a with
        | nil => exact absurd ((hasPrefix_iff _ _).2 ⟨b, hab⟩) h
        | cons x a => cases hab; exact ⟨a, b, rfl⟩

theorem splitOn_no_sep (sep : Char) (s : Str) : ∀ x ∈ splitOn sep s, sep ∉ x := by
  induction s with
  | nil => intro x hx; simp [splitOn] at hx; simp [hx]
  | cons c cs ih =>
    intro x hx
    unfold splitOn at hx
    by_cases hc : c = sep
    · rw [if_pos hc] at hx
      rcases List.mem_cons.1 hx with rfl | hx
      · simp
      · exact ih x hx
    · rw [if_neg hc] at hx
      cases hsp : splitOn sep cs with
      | nil => exact absurd hsp (splitOn_ne_nil sep cs)
      | cons y ys =>
        rw [hsp] at hx ih
        rcases List.mem_cons.1 hx with rfl | hx
        · have := ih y (by simp)
          simp only [List.mem_cons, not_or]
          exact ⟨fun h => hc h.symm, this⟩
        · exact ih x (by simp [hx])

theorem toInt64_nonneg (s : Str) (h : '-' ∉ s) : 0 ≤ toInt64 s := by
  unfold toInt64
  split
  · simp at h
  · omega
  · omega

theorem toInt64_nil : toInt64 [] = 0 := by decide

theorem parseDigits_fmtNat (n : Nat) : parseDigits (fmtNat n) = some n := by
  unfold parseDigits
  rw [if_pos ⟨fmtNat_ne_nil n, List.all_eq_true.2 fun c hc => fmtNat_isDigit hc⟩]
  simp [fmtNat]

theorem toInt64_fmtNat (n : Nat) (h : n < 2 ^ 63) : toInt64 (fmtNat n) = n := by
  unfold toInt64
  split
  · rename_i r hr
    exact absurd (hr ▸ List.mem_cons_self .. : '-' ∈ fmtNat n) (fmtNat_not_mem (by decide))
  · rename_i r hr
    exact absurd (hr ▸ List.mem_cons_self .. : '+' ∈ fmtNat n) (fmtNat_not_mem (by decide))
  · rw [parseDigits_fmtNat]; simp only [Option.getD_some]; omega

theorem trim_id (s : Str) (h : ∀ c ∈ s, isSpace c = false) : trimSpace s = s := by
  have key : ∀ l : Str, (∀ c ∈ l, isSpace c = false) → l.dropWhile isSpace = l := by
    intro l hl
    cases l with
    | nil => rfl
    | cons c cs => rw [List.dropWhile_cons_of_neg (by simp [hl c (by simp)])]
  unfold trimSpace
  rw [key s h, key s.reverse (fun c hc => h c (List.mem_reverse.1 hc)), List.reverse_reverse]

theorem trim_spaces (n : Nat) (s : Str) (h : ∀ c ∈ s, isSpace c = false) :
    trimSpace (List.replicate n ' ' ++ s) = s := by
  induction n with
  | zero => exact trim_id s h
  | succ n ih =>
    rw [List.replicate_succ, List.cons_append]
    unfold trimSpace at *
    rw [List.dropWhile_cons_of_pos (by decide)]
    exact ih

/-- `a-b`, with `b` left out if there is none. -/
def fmtRange (r : Nat × Option Nat) : Str := fmtNat r.1 ++ '-' :: (r.2.map fmtNat).getD []

theorem fmtRange_chars (r : Nat × Option Nat) : ∀ c ∈ fmtRange r, isSpace c = false ∧ c ≠ ',' := by
  intro c hc
  unfold fmtRange at hc
  have hdig : ∀ n, ∀ c ∈ fmtNat n, isSpace c = false ∧ c ≠ ',' := by
    intro n c hc
    have hd := fmtNat_isDigit hc
    refine ⟨?_, ?_⟩
    · cases hs : isSpace c with
      | false => rfl
      | true =>
        simp only [isSpace, Bool.or_eq_true, decide_eq_true_eq] at hs
        rcases hs with ((((rfl | rfl) | rfl) | rfl) | rfl) | rfl <;> exact absurd hd (by decide)
    · rintro rfl; exact absurd hd (by decide)
  rcases List.mem_append.1 hc with hc | hc
  · exact hdig _ c hc
  · rcases List.mem_cons.1 hc with rfl | hc
    · decide
    · cases h2 : r.2 with
      | none => rw [h2] at hc; simp at hc
      | some b => rw [h2] at hc; exact hdig _ c hc

theorem convertOne_fmt (n : Nat) (r : Nat × Option Nat) (h1 : r.1 < 2 ^ 63) (h2 : ∀ b, r.2 = some b → b < 2 ^ 63) :
    convertOne (List.replicate n ' ' ++ fmtRange r) = ((r.1 : Int), (r.2.getD 0 : Int)) := by
  unfold convertOne
  rw [trim_spaces n _ fun c hc => (fmtRange_chars r c hc).1]
  unfold fmtRange
  rw [splitOn_append (fmtNat_not_mem (by decide))]
  cases hb : r.2 with
  | none =>
    simp [splitOn, toInt64_nil, toInt64_fmtNat _ h1]
  | some b =>
    simp only [Option.map_some, Option.getD_some]
    rw [splitOn_of_not_mem (fmtNat_not_mem (by decide))]
    simp only [toInt64_fmtNat _ h1, toInt64_fmtNat _ (h2 b hb)]

/-- A list of ranges, each after the given number of blanks. -/
def fmtRanges : List (Nat × Nat × Option Nat) → Str
  | [] => []
  | [(n, r)] => List.replicate n ' ' ++ fmtRange r
  | (n, r) :: rs => (List.replicate n ' ' ++ fmtRange r) ++ ',' :: fmtRanges rs

theorem one_no_comma (n : Nat) (r : Nat × Option Nat) : ',' ∉ List.replicate n ' ' ++ fmtRange r := by
  intro h
  rcases List.mem_append.1 h with h | h
  · have := (List.mem_replicate.1 h).2; cases this
  · exact (fmtRange_chars r _ h).2 rfl

theorem split_ranges (rs : List (Nat × Nat × Option Nat)) (hne : rs ≠ []) :
    splitOn ',' (fmtRanges rs) = rs.map fun x => List.replicate x.1 ' ' ++ fmtRange x.2 := by
  induction rs with
  | nil => exact absurd rfl hne
  | cons x rs ih =>
    obtain ⟨n, r⟩ := x
    cases rs with
    | nil => unfold fmtRanges; rw [splitOn_of_not_mem (one_no_comma n r)]; rfl
    | cons y rs =>
      unfold fmtRanges
      rw [splitOn_append (one_no_comma n r), ih (by simp)]
      rfl

/-! ## C57 -/

/-- **C57**: a list of intervals `bytes=a-b, c-d, e-` is read exactly; an open interval has the end 0. -/
theorem C57_intervals (rs : List (Nat × Nat × Option Nat)) (hne : rs ≠ [])
    (h : ∀ x ∈ rs, x.2.1 < 2 ^ 63 ∧ ∀ b, x.2.2 = some b → b < 2 ^ 63) :
    convertFrom (bytesEq ++ fmtRanges rs) = some (rs.map fun x => ((x.2.1 : Int), (x.2.2.getD 0 : Int))) := by
  unfold convertFrom
  rw [if_neg (by simp [bytesEq]), cutAfter_prefix _ _ (by decide), Option.map_some, split_ranges rs hne,
    List.map_map]
  congr 1
  apply List.map_congr_left
  intro x hx
  exact convertOne_fmt x.1 x.2 (h x hx).1 (h x hx).2

example : convertFrom "bytes=0-499, 600-, 7-8".toList = some [(0, 499), (600, 0), (7, 8)] := by decide

/-- **C57**: headers without `bytes=` are refused, and only those. -/
theorem C57_refused_partial (s : Str) : convertFrom s = none ↔ ¬ ∃ a b, s = a ++ (bytesEq ++ b) := by
  unfold convertFrom
  by_cases hs : s = []
  · subst hs
    simp [bytesEq]
  · rw [if_neg hs, Option.map_eq_none_iff, cutAfter_none_iff _ _ (by decide)]

example : convertFrom "items=1-2".toList = none := by decide

/-- **C57**: whatever the header is, no negative number comes out of it, so that a reader never moves
backwards. -/
theorem C57_never_negative (s : Str) (l : List (Int × Int)) (h : convertFrom s = some l) :
    l ≠ [] ∧ ∀ x ∈ l, 0 ≤ x.1 ∧ 0 ≤ x.2 := by
  unfold convertFrom at h
  by_cases hs : s = []
  · rw [if_pos hs] at h; cases h
  · rw [if_neg hs] at h
    obtain ⟨r, _, rfl⟩ := Option.map_eq_some_iff.1 h
    refine ⟨by simp [splitOn_ne_nil], ?_⟩
    intro x hx
    obtain ⟨t, _, rfl⟩ := List.mem_map.1 hx
    have hno := splitOn_no_sep '-' (trimSpace t)
    unfold convertOne
    split
    · exact ⟨by decide, by decide⟩
    · rename_i a ha
      rw [ha] at hno
      exact ⟨toInt64_nonneg _ (hno _ (by simp)), Int.le_refl 0⟩
    · rename_i a b rest ha
      rw [ha] at hno
      exact ⟨toInt64_nonneg _ (hno _ (by simp)), toInt64_nonneg _ (hno _ (by simp))⟩

example : convertFrom "bytes=--5".toList = some [(0, 0)] := by decide

/-- **C57** does not hold for malformed headers: text that is no number, text before `bytes=`, too many parts
and numbers out of range are accepted, and the suffix `-500` (the last 500 bytes) is read as `0-500`. -/
theorem C57_malformed_accepted :
    convertFrom "bytes=abc-x".toList = some [(0, 0)] ∧
    convertFrom "xbytes=1-2".toList = some [(1, 2)] ∧
    convertFrom "bytes=1-2-3".toList = some [(1, 2)] ∧
    convertFrom "bytes=".toList = some [(0, 0)] ∧
    convertFrom "bytes=9223372036854775808-".toList = some [(9223372036854775807, 0)] ∧
    convertFrom "bytes=-500".toList = convertFrom "bytes=0-500".toList := by decide

/-- A request with an open range gets the bytes from its start on. -/
theorem C57_get_open_range {α : Type} (a : Nat) (ha : a < 2 ^ 63) (content : List α) :
    (bindRange (bytesEq ++ fmtRange (a, none))).map (getBody · content) = some (content.drop a) := by
  have := C57_intervals [(0, a, none)] (by simp) (by simp [ha])
  unfold bindRange
  rw [if_neg (by simp [bytesEq])]
  have e : fmtRanges [(0, a, none)] = fmtRange (a, none) := by simp [fmtRanges]
  rw [e] at this
  rw [this]
  simp [getBody]

example : (bindRange "bytes=2-".toList).map (getBody · [10, 11, 12, 13]) = some [12, 13] := by decide

/-- The end of a range and all ranges but the first are ignored: a request for bytes 1 to 2 gets everything
from byte 1 on. -/
theorem C57_get_ignores_end :
    (bindRange "bytes=1-2".toList).map (getBody · [10, 11, 12, 13]) = some [11, 12, 13] ∧
    (bindRange "bytes=2-,0-1".toList).map (getBody · [10, 11, 12, 13]) = some [12, 13] := by decide

end Verif.Range
