import Verif.Object.Upload
import Verif.Object.Repair

/-!
# Reading replicated objects: C36, C37, C38

`CopyGetStream`, `GetStream` and `CopyFixStream` (copy_get_stream.go, get_stream.go, copy_fix_stream.go).
Copy `i` of an object is the file `hash.i`; `Cluster` (Verif.Object.Repair) says which server holds what.
-/

namespace Verif.Object

/-- What `NewCopyGetStream` decides, copy_get_stream.go:16-43. -/
structure CopyOpen where
  /-- the first copy whose server answered: index and server -/
  chosen : Option (Nat × Nat)
  /-- the copies before it: index and the server selected as replacement -/
  fails : List (Nat × Nat)
  deriving DecidableEq

/-- The loop, lines 21-30.  `pick i`: the server the selector returns for copy `i`. -/
def openCopies (holds : Cluster) (up : Nat → Bool) (pick : Nat → Nat) : Nat → List Nat → CopyOpen
  | _, [] => ⟨none, []⟩
  | i, s :: rest =>
    if up s && (holds s i).isSome then ⟨some (i, s), []⟩
    else
      let r := openCopies holds up pick (i + 1) rest
      ⟨r.chosen, (i, pick i) :: r.fails⟩

theorem openCopies_chosen (holds : Cluster) (up : Nat → Bool) (pick : Nat → Nat) (loc : List Nat) (k : Nat) :
    match (openCopies holds up pick k loc).chosen with
    | none => ∀ (i s : Nat), loc[i]? = some s → (up s && (holds s (k + i)).isSome) = false
    | some (i, s) => k ≤ i ∧ loc[i - k]? = some s ∧ up s = true ∧ (holds s i).isSome = true := by
  induction loc generalizing k with
  | nil => simp [openCopies]
  | cons s rest ih =>
    unfold openCopies
    by_cases h : (up s && (holds s k).isSome) = true
    · simp only [h, if_true]
      simp only [Bool.and_eq_true] at h
      exact ⟨Nat.le_refl _, by simp, h.1, h.2⟩
    · simp only [h, if_false, Bool.false_eq_true]
      have := ih (k + 1)
      cases hc : (openCopies holds up pick (k + 1) rest).chosen with
      | none =>
        rw [hc] at this
        intro i t hi
        cases i with
        | zero =>
          simp only [List.getElem?_cons_zero, Option.some.injEq] at hi
          subst hi; simpa using h
        | succ i =>
          rw [List.getElem?_cons_succ] at hi
          have := this i t hi
          rw [show k + (i + 1) = k + 1 + i by omega]; exact this
      | some p =>
        obtain ⟨i, t⟩ := p
        rw [hc] at this
        obtain ⟨a1, a2, a3⟩ := this
        refine ⟨by omega, ?_, a3⟩
        rw [show i - k = (i - (k + 1)) + 1 by omega, List.getElem?_cons_succ]
        exact a2

/-- The answer to reading the whole object (`off = none`) or from an offset: the request of `GetStream` is
always for the full size (get_stream.go:34-35, 46-51).  `none`: no copy found or panic. -/
def copyRead (lost : Nat) (holds : Cluster) (up : Nat → Bool) (pick : Nat → Nat) (loc : List Nat) (size : Nat)
    (off : Nat) : Option Bytes :=
  match (openCopies holds up pick 0 loc).chosen with
  | none => none
  | some (i, s) =>
    match holds s i with
    | none => none
    | some f => getFile lost f off size

/-- **C38**, reading: if at least one server recorded for a copy answers and has its file, the object is
read back, whatever happened to the others. -/
theorem C38_any_copy_suffices {B : Nat} (hB : 0 < B) (hpB : pageSize ∣ B) (lost : Nat) (hl : lost < pageSize)
    (data : Bytes) (hne : data ≠ []) (holds : Cluster) (up : Nat → Bool) (pick : Nat → Nat) (loc : List Nat)
    -- files are complete copies, stored in pieces as `C39_success_partial` says
    (hold : ∀ (i s : Nat) (f : Bytes), loc[i]? = some s → holds s i = some f →
      ∃ ps, AlignedPieces ps ∧ ps.flatten = data ∧ f = storePieces B ps)
    (hone : ∃ i s : Nat, loc[i]? = some s ∧ up s = true ∧ (holds s i).isSome = true) :
    copyRead lost holds up pick loc data.length 0 = some data := by
  have h := openCopies_chosen holds up pick loc 0
  unfold copyRead
  cases hc : (openCopies holds up pick 0 loc).chosen with
  | none =>
    rw [hc] at h
    obtain ⟨i, s, h1, h2, h3⟩ := hone
    have := h i s h1
    simp [h2, h3] at this
  | some p =>
    obtain ⟨i, s⟩ := p
    rw [hc] at h
    obtain ⟨_, a2, a3, a4⟩ := h
    simp only
    cases hf : holds s i with
    | none => rw [hf] at a4; simp at a4
    | some f =>
      obtain ⟨ps, b1, b2, b3⟩ := hold i s f (by simpa using a2) hf
      simp only
      rw [b3, ← b2]
      exact C48_store_partial hB hpB hl ps b1 (by rw [b2]; exact hne)

/-- Two of three copies lost. -/
def oneCopy : Cluster := fun s i => if s = 12 ∧ i = 2 then some (storePieces 32768 [[1, 2, 3]]) else none

example : (∀ (i s : Nat) (f : Bytes), [10, 11, 12][i]? = some s → oneCopy s i = some f →
      ∃ ps, AlignedPieces ps ∧ ps.flatten = [1, 2, 3] ∧ f = storePieces 32768 ps) ∧
    (∃ i s : Nat, [10, 11, 12][i]? = some s ∧ (fun s => s != 11) s = true ∧ (oneCopy s i).isSome = true) := by
  refine ⟨fun i s f _ hf => ⟨[[1, 2, 3]], trivial, rfl, ?_⟩, 2, 12, rfl, rfl, rfl⟩
  unfold oneCopy at hf
  split at hf
  · simpa using hf.symm
  · cases hf

/-- **C36** for replicated objects, what is true: the answer begins with the tail of the object; behind it
come as many zeros as the padding of the file (and the offset) allow. -/
theorem C36_copy_tail_partial {B : Nat} (hB : 0 < B) (hpB : pageSize ∣ B) (lost : Nat) (hl : lost ≤ 1)
    (data : Bytes) (hne : data ≠ []) (holds : Cluster) (up : Nat → Bool) (pick : Nat → Nat) (loc : List Nat)
    (hold : ∀ (i s : Nat) (f : Bytes), loc[i]? = some s → holds s i = some f →
      ∃ ps, AlignedPieces ps ∧ ps.flatten = data ∧ f = storePieces B ps)
    (hone : ∃ i s : Nat, loc[i]? = some s ∧ up s = true ∧ (holds s i).isSome = true)
    (off : Nat) (ho : off ≤ data.length) :
    copyRead lost holds up pick loc data.length off =
      some (data.drop off ++ List.replicate (min off (alignedSize data.length - data.length)) 0) := by
  have h := openCopies_chosen holds up pick loc 0
  unfold copyRead
  cases hc : (openCopies holds up pick 0 loc).chosen with
  | none =>
    rw [hc] at h
    obtain ⟨i, s, h1, h2, h3⟩ := hone
    have := h i s h1
    simp [h2, h3] at this
  | some p =>
    obtain ⟨i, s⟩ := p
    rw [hc] at h
    obtain ⟨_, a2, a3, a4⟩ := h
    simp only
    cases hf : holds s i with
    | none => rw [hf] at a4; simp at a4
    | some f =>
      obtain ⟨ps, b1, b2, b3⟩ := hold i s f (by simpa using a2) hf
      simp only
      have hlen : 0 < data.length := List.length_pos_iff.2 hne
      rw [b3, storePieces_eq hB hpB, alignedPieces_flatten _ b1, b2, getFile_ok hl _ _ _ hlen]
      congr 1
      unfold padded
      rw [List.drop_append_of_le_length ho, List.take_append, List.take_of_length_le (by simp)]
      congr 1
      simp only [List.length_drop, List.take_replicate]
      congr 1
      omega

/-- **C36** for replicated objects: exact for offset 0 and for sizes that are a multiple of 4096. -/
theorem C36_copy_exact {B : Nat} (hB : 0 < B) (hpB : pageSize ∣ B) (lost : Nat) (hl : lost ≤ 1)
    (data : Bytes) (hne : data ≠ []) (holds : Cluster) (up : Nat → Bool) (pick : Nat → Nat) (loc : List Nat)
    (hold : ∀ (i s : Nat) (f : Bytes), loc[i]? = some s → holds s i = some f →
      ∃ ps, AlignedPieces ps ∧ ps.flatten = data ∧ f = storePieces B ps)
    (hone : ∃ i s : Nat, loc[i]? = some s ∧ up s = true ∧ (holds s i).isSome = true)
    (off : Nat) (ho : off ≤ data.length) :
    copyRead lost holds up pick loc data.length off = some (data.drop off) ↔
      off = 0 ∨ pageSize ∣ data.length := by
  rw [C36_copy_tail_partial hB hpB lost hl data hne holds up pick loc hold hone off ho]
  have h1 := le_alignedSize data.length
  constructor
  · intro h
    simp only [Option.some.injEq] at h
    have := congrArg List.length h
    simp only [List.length_append, List.length_replicate, List.length_drop] at this
    by_cases h0 : off = 0
    · exact Or.inl h0
    · right
      have h2 : alignedSize data.length = data.length := by omega
      have := alignedSize_dvd data.length
      rwa [h2] at this
  · rintro (h | h)
    · subst h; simp
    · rw [alignedSize_of_dvd h]; simp

/-- **C36 fails** for replicated objects: bytes 1, 2, 3 from offset 1 come back as 2, 3, 0. -/
theorem C36_copy_zeros :
    copyRead 0 oneCopy (fun _ => true) (fun _ => 0) [10, 11, 12] 3 1 = some [2, 3, 0] := by
  have h := C36_copy_tail_partial (B := 32768) (by decide) (by decide) 0 (by decide) [1, 2, 3] (by simp) oneCopy
    (fun _ => true) (fun _ => 0) [10, 11, 12] (fun i s f _ hf => by
      refine ⟨[[1, 2, 3]], trivial, rfl, ?_⟩
      unfold oneCopy at hf
      split at hf
      · simpa using hf.symm
      · cases hf) ⟨2, 12, rfl, rfl, rfl⟩ 1 (by decide)
  exact h.trans (by decide)

/-! ## Repair of copies: C37 -/

/-- `CopyFixStream.Close`, copy_fix_stream.go:39-83: the bytes that were read (`buf`) are stored at the
replacement servers (`Put` does nothing if the file exists, objects_service.go:82-106); the locations
handed to the updater are those of the replacements.  Only when more copies failed than tolerated
(copy_get_stream.go:34-38), and only if something was read: data servers refuse empty bodies (`FilterEmptyRequest`,
objectserver/internal/controller/http/router.go:26), and then the locations stay (copy_fix_stream.go:69-72).
`none`: no repair. -/
def fixCopies (B tolerate : Nat) (holds : Cluster) (fails : List (Nat × Nat)) (buf : Bytes) :
    Option (Cluster × List Nat) :=
  if fails.length ≤ tolerate ∨ buf = [] then none
  else some (fun s i =>
    match holds s i with
    | some f => some f
    | none => if (i, s) ∈ fails then some (storePieces B [buf]) else none, fails.map (·.2))

/-- **C37** for replicated objects, content: after a complete read the replacement server of every failed
copy has a complete copy, and no existing file was changed.  Missing for the full property: the recorded
locations (`C37_copy_locations_lost`) and incomplete reads (`C37_copy_range_read`). -/
theorem C37_copy_content_partial {B : Nat} (hB : 0 < B) (hpB : pageSize ∣ B) (lost : Nat) (hl : lost < pageSize)
    (data : Bytes) (hne : data ≠ []) (tolerate : Nat) (holds : Cluster) (fails : List (Nat × Nat))
    (holds' : Cluster) (loc' : List Nat) (h : fixCopies B tolerate holds fails data = some (holds', loc')) :
    (∀ i s, (i, s) ∈ fails → holds s i = none →
      ∃ f, holds' s i = some f ∧ getFile lost f 0 data.length = some data) ∧
    (∀ i s f, holds s i = some f → holds' s i = some f) := by
  unfold fixCopies at h
  split at h
  · cases h
  · simp only [Option.some.injEq, Prod.mk.injEq] at h
    obtain ⟨h1, _⟩ := h
    subst h1
    refine ⟨fun i s hm hn => ⟨storePieces B [data], by simp [hn, hm], ?_⟩, fun i s f hf => by simp [hf]⟩
    have := C48_store_partial hB hpB hl [data] trivial (by simpa using hne)
    simpa using this

example : (fixCopies 32768 0 oneCopy [(0, 20), (1, 21)] [1, 2, 3]).isSome = true := by decide

theorem openCopies_fails {holds : Cluster} {up : Nat → Bool} {pick : Nat → Nat} : ∀ (loc : List Nat) (i k s : Nat),
    (openCopies holds up pick i loc).chosen = some (k, s) → (openCopies holds up pick i loc).fails.length + i = k := by
  intro loc
  induction loc with
  | nil => intro i k s h; cases h
  | cons a loc ih =>
    intro i k s h
    unfold openCopies at h ⊢
    split at h
    · rename_i hb
      simp only [hb, ↓reduceIte] at h ⊢
      cases h
      simp
    · rename_i hb
      simp only [hb] at h ⊢
      have := ih (i + 1) k s h
      simp only [Bool.false_eq_true, ↓reduceIte, List.length_cons]
      omega

/-- **C37** for replicated objects: a read through the `k`-th copy repairs exactly if more copies before it than tolerated are lost, and
something was read. -/
theorem C37_copy_tolerated (B tolerate : Nat) (holds : Cluster) (up : Nat → Bool) (pick : Nat → Nat) (loc : List Nat) (buf : Bytes) (k s : Nat)
    (h : (openCopies holds up pick 0 loc).chosen = some (k, s)) :
    (fixCopies B tolerate holds (openCopies holds up pick 0 loc).fails buf).isSome = true ↔ tolerate < k ∧ buf ≠ [] := by
  have := openCopies_fails loc 0 k s h
  unfold fixCopies
  split <;> grind

/-- The third copy is read: one lost copy more than tolerated is repaired, two tolerated are not. -/
example : (openCopies oneCopy (fun _ => true) (fun _ => 20) 0 [10, 11, 12]).chosen = some (2, 12) ∧
    (fixCopies 32768 1 oneCopy (openCopies oneCopy (fun _ => true) (fun _ => 20) 0 [10, 11, 12]).fails [1]).isSome = true ∧
    (fixCopies 32768 2 oneCopy (openCopies oneCopy (fun _ => true) (fun _ => 20) 0 [10, 11, 12]).fails [1]).isSome = false := by decide

/-- The recorded locations after a repair. -/
theorem C37_copy_locations {B tolerate : Nat} {holds : Cluster} {up : Nat → Bool} {pick : Nat → Nat}
    {loc : List Nat} {buf : Bytes} {holds' : Cluster} {loc' : List Nat}
    (h : fixCopies B tolerate holds (openCopies holds up pick 0 loc).fails buf = some (holds', loc')) :
    loc' = (openCopies holds up pick 0 loc).fails.map (·.2) ∧
    ((openCopies holds up pick 0 loc).chosen.isSome → loc'.length < loc.length) := by
  unfold fixCopies at h
  split at h
  · cases h
  · simp only [Option.some.injEq, Prod.mk.injEq] at h
    refine ⟨h.2.symm, fun hc => ?_⟩
    rw [← h.2]
    have : ∀ (k : Nat) (l : List Nat), (openCopies holds up pick k l).chosen.isSome →
        (openCopies holds up pick k l).fails.length < l.length := by
      intro k l
      induction l generalizing k with
      | nil => intro h; simp [openCopies] at h
      | cons s rest ih =>
        intro h
        unfold openCopies at h ⊢
        split
        · simp
        · rename_i hn
          simp only [hn, if_false, Bool.false_eq_true] at h
          have := ih (k + 1) h
          simp only [List.length_cons]; omega
    rw [List.length_map]
    exact this 0 loc hc

/-- The full statement of C37 for the recorded locations: a repair never forgets a copy that exists. -/
def RepairKeepsCopies : Prop :=
  ∀ (B tolerate : Nat) (holds : Cluster) (up : Nat → Bool) (pick : Nat → Nat) (loc : List Nat) (data : Bytes)
    (holds' : Cluster) (loc' : List Nat),
    fixCopies B tolerate holds (openCopies holds up pick 0 loc).fails data = some (holds', loc') →
    ∀ i s : Nat, loc[i]? = some s → (holds s i).isSome = true → loc'[i]? = some s

/-- **C37 fails** for replicated objects: with three copies of which the first is lost, the recorded
locations shrink to the one replacement; the two other copies are forgotten. -/
theorem C37_copy_locations_lost : ¬ RepairKeepsCopies := by
  intro h
  have := h 32768 0 (fun s i => if i = 0 then none else some [1]) (fun _ => true) (fun _ => 20) [10, 11, 12] [1]
    _ _ rfl 1 11 rfl rfl
  revert this
  decide

/-- **C37 fails** after a range read: the tail that was read (with its zeros) becomes the new copy, and the
object is lost once only that copy is recorded. -/
theorem C37_copy_range_read :
    ∃ holds' loc', fixCopies 32768 0 oneCopy (openCopies oneCopy (fun _ => true) (fun _ => 20) 0 [10, 11, 12]).fails
      [2, 3, 0] = some (holds', loc') ∧ loc' = [20, 20] ∧
      copyRead 0 holds' (fun _ => true) (fun _ => 21) loc' 3 0 = some [2, 3, 0] := by
  have hf : (openCopies oneCopy (fun _ => true) (fun _ => 20) 0 [10, 11, 12]).fails = [(0, 20), (1, 20)] := by decide
  rw [hf]
  refine ⟨_, _, rfl, rfl, ?_⟩
  have := C48_store_partial (B := 32768) (lost := 0) (by decide) (by decide) (by decide) [[2, 3, 0]] trivial (by simp)
  unfold copyRead
  rw [show (openCopies (fun s i =>
    match oneCopy s i with
    | some f => some f
    | none => if (i, s) ∈ [(0, 20), (1, 20)] then some (storePieces 32768 [[2, 3, 0]]) else none)
    (fun _ => true) (fun _ => 21) 0 (List.map (fun x => x.2) [(0, 20), (1, 20)])).chosen = some (0, 20) from rfl]
  exact this

end Verif.Object
