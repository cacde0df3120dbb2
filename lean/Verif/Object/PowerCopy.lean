import Verif.Object.CopyRead
import Verif.Object.PowerCode

/-!
# Replicated objects after a loss of power (C137)

Puts the files that data servers have after a loss of power (`Verif.Object.Power`, C132) under the reader of replicated objects
(`Verif.Object.CopyRead`: src/apiserver/internal/usecase/service/copy_get_stream.go, get_stream.go, copy_fix_stream.go).  The reader takes
the first copy whose server says that it has one, and stays with it.  The files are those of `Verif.Object.DataServer`: padded to whole
pages.  Compressed objects are left out.
-/

namespace Verif.Object.PowerCopy

open Verif Verif.Object

/-! ## Model -/

/-- The files of the servers: server `s` went through the events `es s`; copy `i` is the file `name i` (copy_get_stream.go:22). -/
def holdsAfter (es : Nat → List (Power.Ev UInt8)) (name : Nat → Str) : Cluster := fun s i =>
  Power.read (Power.run false {} (es s)) (name i)

/-- A repair, not in the code: copies with fewer bytes than the object count as missing when a copy is chosen. -/
def wholeOnly (size : Nat) (holds : Cluster) : Cluster := fun s i => (holds s i).filter fun f => decide (size ≤ f.length)

/-! ## Specification -/

/-- Every file is a beginning of the padded object. -/
def CutCopies (data : Bytes) (holds : Cluster) : Prop := ∀ s i f, holds s i = some f → f <+: padded data

/-- A server that answers has a whole copy. -/
def SomeWhole (data : Bytes) (holds : Cluster) (up : Nat → Bool) (loc : List Nat) : Prop :=
  ∃ i s f, loc[i]? = some s ∧ up s = true ∧ holds s i = some f ∧ data.length ≤ f.length

/-- The property as stated: the object is read while one whole copy is left. -/
def Statement : Prop :=
  ∀ (lost : Nat), lost ≤ 1 → ∀ (data : Bytes), data ≠ [] → ∀ (holds : Cluster), CutCopies data holds →
    ∀ (up : Nat → Bool) (pick : Nat → Nat) (loc : List Nat), SomeWhole data holds up loc →
      copyRead lost holds up pick loc data.length 0 = some data

/-! ## Lemmas -/

theorem take_padded {data f : Bytes} (h : f <+: padded data) : f.take data.length = data.take f.length := by
  obtain ⟨t, ht⟩ := h
  have h1 : (f ++ t).take f.length = f := by simp
  have : f.take data.length = ((padded data).take f.length).take data.length := by rw [← ht, h1]
  rw [this, List.take_take, Nat.min_comm, ← List.take_take]
  unfold padded
  rw [List.take_left]

theorem read_chosen {lost : Nat} (hl : lost ≤ 1) {holds : Cluster} {up : Nat → Bool} {pick : Nat → Nat} {loc : List Nat} {size i s : Nat}
    {f : Bytes} (hs : 0 < size) (hc : (openCopies holds up pick 0 loc).chosen = some (i, s)) (hf : holds s i = some f) :
    copyRead lost holds up pick loc size 0 = some (f.take size) := by
  unfold copyRead
  simp only [hc, hf]
  rw [getFile_ok hl _ _ _ hs, List.drop_zero]

/-! ## The properties -/

/-- **C137** What is delivered is what the first copy has whose server answers, up to the size of the object: all of the object exactly if
that copy is whole, however many other whole copies there are. -/
theorem C137_first_copy {lost : Nat} (hl : lost ≤ 1) {data : Bytes} (hne : data ≠ []) {holds : Cluster} (hcut : CutCopies data holds)
    (up : Nat → Bool) (pick : Nat → Nat) (loc : List Nat) {i s : Nat} {f : Bytes}
    (hc : (openCopies holds up pick 0 loc).chosen = some (i, s)) (hf : holds s i = some f) :
    copyRead lost holds up pick loc data.length 0 = some (data.take f.length) ∧
    (copyRead lost holds up pick loc data.length 0 = some data ↔ data.length ≤ f.length) := by
  have h := read_chosen hl (List.length_pos_iff.2 hne) hc hf
  rw [take_padded (hcut s i f hf)] at h
  refine ⟨h, ?_⟩
  rw [h, Option.some.injEq]
  constructor
  · intro he
    have := congrArg List.length he
    rw [List.length_take] at this
    omega
  · exact List.take_of_length_le

/-- **C137, partial** Nothing but a beginning of the object is delivered.  Missing: all of it (`C137_statement_fails`), and reads after a
repair (`C137_spreads`). -/
theorem C137_prefix_partial {lost : Nat} (hl : lost ≤ 1) {data : Bytes} (hne : data ≠ []) {holds : Cluster} (hcut : CutCopies data holds)
    (up : Nat → Bool) (pick : Nat → Nat) (loc : List Nat) (b : Bytes) (hb : copyRead lost holds up pick loc data.length 0 = some b) :
    b <+: data := by
  cases hc : (openCopies holds up pick 0 loc).chosen with
  | none => unfold copyRead at hb; rw [hc] at hb; cases hb
  | some p =>
    obtain ⟨i, s⟩ := p
    cases hf : holds s i with
    | none => unfold copyRead at hb; simp only [hc, hf] at hb; cases hb
    | some f =>
      rw [(C137_first_copy hl hne hcut up pick loc hc hf).1] at hb
      cases hb
      exact List.take_prefix ..

/-- **C137** Choosing the first whole copy is right. -/
theorem C137_repair {lost : Nat} (hl : lost ≤ 1) {data : Bytes} (hne : data ≠ []) {holds : Cluster} (hcut : CutCopies data holds)
    (up : Nat → Bool) (pick : Nat → Nat) (loc : List Nat) (hw : SomeWhole data holds up loc) :
    copyRead lost (wholeOnly data.length holds) up pick loc data.length 0 = some data := by
  have hsub : ∀ s i f, wholeOnly data.length holds s i = some f → holds s i = some f ∧ data.length ≤ f.length := by
    intro s i f h
    unfold wholeOnly at h
    simpa [Option.filter_eq_some_iff] using h
  have h := openCopies_chosen (wholeOnly data.length holds) up pick loc 0
  cases hc : (openCopies (wholeOnly data.length holds) up pick 0 loc).chosen with
  | none =>
    rw [hc] at h
    obtain ⟨i, s, f, h1, h2, h3, h4⟩ := hw
    have := h i s h1
    simp [h2, wholeOnly, h3, h4] at this
  | some p =>
    obtain ⟨i, s⟩ := p
    rw [hc] at h
    obtain ⟨_, _, _, a4⟩ := h
    obtain ⟨f, hf⟩ := Option.isSome_iff_exists.1 a4
    obtain ⟨h1, h2⟩ := hsub s i f hf
    rw [(C137_first_copy hl hne (fun s i f h => hcut s i f (hsub s i f h).1) up pick loc hc hf).1,
      List.take_of_length_le h2]

theorem fails_head {holds : Cluster} {up : Nat → Bool} {pick : Nat → Nat} {loc : List Nat}
    (h : (openCopies holds up pick 0 loc).fails ≠ []) : ∃ t, (openCopies holds up pick 0 loc).fails = (0, pick 0) :: t := by
  cases loc with
  | nil => simp [openCopies] at h
  | cons s rest =>
    unfold openCopies at h ⊢
    split
    · rename_i hc; simp [hc] at h
    · exact ⟨_, rfl⟩

/-- **C137** A read repairs the copies before the one it reads with what it has read, also if that is not the object, and the locations of
the other copies are forgotten.  From then on every read that reaches the first replacement delivers what the cut copy had, padded with
zeros to a page: for ever, and whatever whole copies are left. -/
theorem C137_spreads {B : Nat} (hB : 0 < B) (hpB : pageSize ∣ B) {lost : Nat} (hl : lost ≤ 1) {data : Bytes} (hne : data ≠ [])
    {holds : Cluster} (hcut : CutCopies data holds) (up : Nat → Bool) (pick : Nat → Nat) (loc : List Nat) {i s : Nat} {f : Bytes}
    (hc : (openCopies holds up pick 0 loc).chosen = some (i, s)) (hf : holds s i = some f) (tolerate : Nat)
    (ht : tolerate < (openCopies holds up pick 0 loc).fails.length) (hnew : holds (pick 0) 0 = none) (hsome : f ≠ []) :
    ∃ b holds' loc', copyRead lost holds up pick loc data.length 0 = some b ∧
      fixCopies B tolerate holds (openCopies holds up pick 0 loc).fails b = some (holds', loc') ∧
      loc' = (openCopies holds up pick 0 loc).fails.map (·.2) ∧
      ∀ (up' : Nat → Bool) (pick' : Nat → Nat), up' (pick 0) = true →
        copyRead lost holds' up' pick' loc' data.length 0 = some ((padded (data.take f.length)).take data.length) := by
  have hr := (C137_first_copy hl hne hcut up pick loc hc hf).1
  obtain ⟨t, hfails⟩ := fails_head (holds := holds) (up := up) (pick := pick) (loc := loc) (by
    intro he; rw [he] at ht; simp at ht)
  refine ⟨_, _, _, hr, by
    unfold fixCopies
    rw [if_neg]
    rintro (h | h)
    · omega
    · cases data <;> cases f <;> simp_all, rfl, fun up' pick' hup => ?_⟩
  rw [hfails]
  apply read_chosen (i := 0) (s := pick 0) hl (List.length_pos_iff.2 hne)
  · simp [openCopies, hup, hnew]
  · simp only [hnew, List.mem_cons, true_or, ↓reduceIte, storePieces_eq hB hpB]
    simp

/-- **C137** If the copy was cut at a page and before the end, what is then delivered is short for ever. -/
theorem C137_spread_short {data : Bytes} {L : Nat} (hp : pageSize ∣ L) (hL : L < data.length) :
    (padded (data.take L)).take data.length = data.take L := by
  have h : (data.take L).length = L := by rw [List.length_take]; omega
  rw [padded_of_dvd _ (by rw [h]; exact hp)]
  exact List.take_of_length_le (by omega)

/-- **C137, partial** If the kernels write everything back in order, so that no file is cut (C132), the object is read while one server
that answers has kept its copy.  Missing: kernels that do not. -/
theorem C137_in_order_partial {lost : Nat} (hl : lost ≤ 1) {data : Bytes} (hne : data ≠ []) (es : Nat → List (Power.Ev UInt8))
    (name : Nat → Str) (content : Str → Bytes) (hn : ∀ i, content (name i) = padded data)
    (hv : ∀ s, ∀ e ∈ es s, Power.ViaTemp e ∧ Power.InOrder e) (ho : ∀ s, Power.Honest false content {} (es s))
    (up : Nat → Bool) (pick : Nat → Nat) (loc : List Nat)
    (hone : ∃ i s, loc[i]? = some s ∧ up s = true ∧ (holdsAfter es name s i).isSome = true) :
    copyRead lost (holdsAfter es name) up pick loc data.length 0 = some data := by
  have hwhole : ∀ s i f, holdsAfter es name s i = some f → f = padded data := by
    intro s i f h
    rw [← hn i]
    exact Power.C132_in_order_partial content (es s) (hv s) (ho s) (name i) f h
  have h := openCopies_chosen (holdsAfter es name) up pick loc 0
  cases hc : (openCopies (holdsAfter es name) up pick 0 loc).chosen with
  | none =>
    rw [hc] at h
    obtain ⟨i, s, h1, h2, h3⟩ := hone
    have := h i s h1
    simp [h2, h3] at this
  | some p =>
    obtain ⟨i, s⟩ := p
    rw [hc] at h
    obtain ⟨_, _, _, a4⟩ := h
    obtain ⟨f, hf⟩ := Option.isSome_iff_exists.1 a4
    refine (C137_first_copy hl hne (fun s i f h => by rw [hwhole s i f h]; exact List.prefix_refl _) up pick loc hc hf).2.2 ?_
    rw [hwhole s i f hf, padded_length]
    exact le_alignedSize _

/-- **C137** Whatever the kernels write back when, every file is a beginning of the padded object, so `C137_first_copy`,
`C137_prefix_partial` and `C137_repair` apply. -/
theorem C137_cut {data : Bytes} (es : Nat → List (Power.Ev UInt8)) (name : Nat → Str) (content : Str → Bytes)
    (hn : ∀ i, content (name i) = padded data) (hv : ∀ s, ∀ e ∈ es s, Power.ViaTemp e)
    (ho : ∀ s, Power.Honest false content {} (es s)) : CutCopies data (holdsAfter es name) := by
  intro s i f h
  unfold holdsAfter Power.read at h
  obtain ⟨j, hj, rfl⟩ := Option.map_eq_some_iff.1 h
  rw [← hn i]
  exact (PowerCode.begin_run (es s) Power.wf_init (PowerCode.begin_init _) (hv s) (ho s)).live _ _ hj

/-- **C137** An empty copy is delivered as nothing, but nothing is stored and no location is forgotten. -/
theorem C137_empty {B lost : Nat} (hl : lost ≤ 1) {data : Bytes} (hne : data ≠ []) {holds : Cluster} (up : Nat → Bool)
    (pick : Nat → Nat) (loc : List Nat) {i s : Nat} (hc : (openCopies holds up pick 0 loc).chosen = some (i, s)) (hf : holds s i = some [])
    (tolerate : Nat) :
    copyRead lost holds up pick loc data.length 0 = some [] ∧
    fixCopies B tolerate holds (openCopies holds up pick 0 loc).fails [] = none := by
  refine ⟨?_, by simp [fixCopies]⟩
  have := read_chosen hl (List.length_pos_iff.2 hne) hc hf
  rwa [List.take_nil] at this

/-! ## Samples -/

/-- An object of two bytes; copy 0 (server 10) is gone, copy 1 (server 11) has been cut to `cut`, copy 2 (server 12) is whole. -/
def exHolds (cut : Bytes) : Cluster := fun s i =>
  if s = 11 ∧ i = 1 then some cut else if s = 12 ∧ i = 2 then some (padded [7, 8]) else none

theorem ex_cut {cut : Bytes} (h : cut <+: [7, 8]) : CutCopies [7, 8] (exHolds cut) := by
  intro s i f hf
  unfold exHolds at hf
  split at hf
  · cases hf; exact h.trans (List.prefix_append ..)
  · split at hf
    · cases hf; exact List.prefix_refl _
    · cases hf

theorem ex_whole (cut : Bytes) : SomeWhole [7, 8] (exHolds cut) (fun _ => true) [10, 11, 12] :=
  ⟨2, 12, _, rfl, rfl, rfl, by rw [padded_length]; exact le_alignedSize _⟩

/-- The first byte of the object. -/
theorem ex_prefix : [7] <+: ([7, 8] : Bytes) := ⟨[8], rfl⟩

theorem C137_statement_fails : ¬ Statement := by
  intro h
  have h1 := h 0 (by decide) [7, 8] (by simp) (exHolds [7]) (ex_cut ex_prefix) (fun _ => true) (fun _ => 20) [10, 11, 12] (ex_whole _)
  have h2 := (C137_first_copy (lost := 0) (by decide) (by simp) (ex_cut ex_prefix) (fun _ => true) (fun _ => 20) [10, 11, 12]
    (i := 1) (s := 11) (f := [7]) (by rfl) (by rfl)).1
  rw [h2] at h1
  cases h1

/-- **C137** The sample after the repair: the object is recorded at server 20 alone, and every read that reaches it delivers a wrong second
byte, although server 12 still has the object. -/
theorem C137_lost : ∃ holds' loc',
    fixCopies 32768 0 (exHolds [7]) (openCopies (exHolds [7]) (fun _ => true) (fun _ => 20) 0 [10, 11, 12]).fails [7] =
      some (holds', loc') ∧
    loc' = [20] ∧ holds' 12 2 = some (padded [7, 8]) ∧
    ∀ up' pick', up' 20 = true → copyRead 0 holds' up' pick' loc' 2 0 = some [7, 0] := by
  obtain ⟨b, holds', loc', h1, h2, h3, h4⟩ := C137_spreads (B := 32768) (by decide) (by decide) (lost := 0) (by decide) (data := [7, 8])
    (by simp) (ex_cut ex_prefix) (fun _ => true) (fun _ => 20) [10, 11, 12] (i := 1) (s := 11) (f := [7]) (by rfl) (by rfl) 0 (by decide)
    (by rfl) (by simp)
  have hb : b = [7] := by
    have := (C137_first_copy (lost := 0) (by decide) (by simp) (ex_cut ex_prefix) (fun _ => true) (fun _ => 20) [10, 11, 12]
      (i := 1) (s := 11) (f := [7]) (by rfl) (by rfl)).1
    rw [this] at h1
    exact (Option.some.inj h1).symm
  subst hb
  refine ⟨holds', loc', h2, h3, ?_, fun up' pick' hu => ?_⟩
  · have := h2
    unfold fixCopies at this
    rw [if_neg (by decide)] at this
    have h5 := (Prod.mk.inj (Option.some.inj this)).1
    rw [← h5]
    rfl
  · exact (h4 up' pick' hu).trans (by decide)

/-! ## Non-vacuity -/

/-- The whole copy is read if the cut one counts as missing. -/
example : copyRead 0 (wholeOnly 2 (exHolds [7])) (fun _ => true) (fun _ => 20) [10, 11, 12] 2 0 = some [7, 8] :=
  C137_repair (data := [7, 8]) (by decide) (by simp) (ex_cut ex_prefix) _ _ _ (ex_whole _)

/-- `C137_empty` for the sample. -/
example : copyRead 0 (exHolds []) (fun _ => true) (fun _ => 20) [10, 11, 12] 2 0 = some [] :=
  (C137_empty (B := 32768) (data := [7, 8]) (by decide) (by simp) (fun _ => true) (fun _ => 20) [10, 11, 12] (i := 1) (s := 11) (by rfl)
    (by rfl) 0).1

/-- `C137_cut` for servers that lose power after writing back `k` bytes of their copies. -/
example (k : Nat → Nat) : CutCopies [7] (holdsAfter (fun s => (PowerCode.lose (padded [7]) (k s)).2) fun _ => "h".toList) := by
  refine C137_cut _ _ (fun _ => padded [7]) (fun _ => rfl) ?_ (fun s => PowerCode.lose_honest _ _)
  intro s e he
  simp only [PowerCode.lose, List.mem_cons, List.not_mem_nil, or_false] at he
  rcases he with rfl | rfl | rfl | rfl | rfl | rfl <;> trivial

/-- A copy that is written back whole before the power is lost. -/
def keep (file : Bytes) : List (Power.Ev UInt8) := [.post "h".toList, .patch 0 file, .commit 0, .kall, .power]

theorem keep_honest (file : Bytes) : Power.Honest false (fun _ => file) {} (keep file) := by
  intro es' hp n c hc
  obtain ⟨t, ht⟩ := hp
  have : es' = (keep file).take es'.length := by rw [← ht]; simp
  have hacked : ∀ m : Nat, ∀ x ∈ (Power.run false {} ((keep file).take m)).acked, x.2 = file := by
    intro m
    match m with
    | 0 => intro x hx; cases hx
    | 1 => intro x hx; cases hx
    | 2 => intro x hx; cases hx
    | 3 => intro x hx; cases hx with | head => rfl | tail _ h => cases h
    | 4 => intro x hx; cases hx with | head => rfl | tail _ h => cases h
    | m + 5 =>
      rw [List.take_of_length_le (by simp [keep])]
      intro x hx; cases hx with | head => rfl | tail _ h => cases h
  rw [this] at hc
  exact hacked _ _ hc

/-- `C137_in_order_partial` for two servers of which one does not answer. -/
example : copyRead 0 (holdsAfter (fun _ => keep (padded [7, 8])) fun _ => "h".toList) (fun s => decide (s = 11)) (fun _ => 20) [10, 11] 2 0
    = some [7, 8] := by
  refine C137_in_order_partial (data := [7, 8]) (by decide) (by simp) _ _ (fun _ => padded [7, 8]) (fun _ => rfl) ?_
    (fun _ => keep_honest _) _ _ _ ⟨1, 11, rfl, rfl, by rfl⟩
  intro s e he
  simp only [keep, List.mem_cons, List.not_mem_nil, or_false] at he
  rcases he with rfl | rfl | rfl | rfl | rfl <;> exact ⟨trivial, trivial⟩

/-- `C137_spread_short` for an object of two pages. -/
example : (padded ((List.replicate 8192 (1 : UInt8)).take 4096)).take 8192 = (List.replicate 8192 (1 : UInt8)).take 4096 := by
  have := C137_spread_short (data := List.replicate 8192 1) (L := 4096) (by decide) (by rw [List.length_replicate]; decide)
  rw [List.length_replicate] at this
  exact this

end Verif.Object.PowerCopy
