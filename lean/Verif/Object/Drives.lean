import Verif.Common.Str
import Verif.Util.Slices

/-!
# Choosing a drive (C52)

Models src/objectserver/internal/usecase/component/driver_balancer.go and driver_manager.go
(`Update`, `SelectDriver`, `SelectMountPointFallback`).  `disk.AllMountPoints` and `disk.GetInfo` are
parameters of an update; `sort.Slice` is any function that returns the drives in ascending order of
free space.  `Select` sorts the
table in place without a lock; here requests follow one another, `Verif.Object.DriveRace` has them overlap.
-/

namespace Verif.Drives

/-- `Driver`, driver_manager.go:15-19. -/
structure Driver where
  mount : Str
  free : Nat
  total : Nat
  deriving DecidableEq

/-- The settings of the manager: `Includes` and `Excludes`, driver_manager.go:24-25. -/
structure Conf where
  includes : List Str
  excludes : List Str

/-- What the system reports at an update: the mount points (`none`: error), and for every mount point
its free and total space (`none`: error). -/
structure Sys where
  mounts : Option (List Str)
  info : Str → Option (Nat × Nat)

/-- The filter of `Update`, driver_manager.go:41-47. -/
def admitted (c : Conf) (mp : Str) : Bool :=
  if c.includes ≠ [] then decide (mp ∈ c.includes) else decide (mp ∉ c.excludes)

/-- `Update`, driver_manager.go:33-65: the table after it. -/
def update (c : Conf) (old : List Driver) (y : Sys) : List Driver :=
  match y.mounts with
  | none => old
  | some mps => (mps.filter (admitted c)).filterMap fun mp => (y.info mp).map fun i => ⟨mp, i.1, i.2⟩

/-- The contract of `sort.Slice` with the comparison of driver_balancer.go:25-27. -/
structure Sorts (sort : List Driver → List Driver) : Prop where
  perm : ∀ l, List.Perm (sort l) l
  asc : ∀ l, (sort l).Pairwise fun a b => a.free ≤ b.free

/-- `spaceFirstBalancer.Select`, driver_balancer.go:21-29: the drive (`none`: error) and the table, which
is sorted in place. -/
def select (sort : List Driver → List Driver) (ds : List Driver) : Option Driver × List Driver :=
  if ds = [] then (none, ds) else ((sort ds).getLast?, sort ds)

/-- What happens to a manager: `SelectMountPointFallback(fb)`, driver_manager.go:90-96, or an update. -/
inductive Ev
  | select (fb : Str)
  | update (y : Sys)

/-- One event: the answer of a selection, and the table. -/
def step (sort : List Driver → List Driver) (c : Conf) (ds : List Driver) : Ev → Option Str × List Driver
  | .update y => (none, update c ds y)
  | .select fb =>
    let r := select sort ds
    (some (match r.1 with | some d => d.mount | none => fb), r.2)

/-- A history, from the table `ds`. -/
def run (sort : List Driver → List Driver) (c : Conf) : List Driver → List Ev → List (Option Str) × List Driver
  | ds, [] => ([], ds)
  | ds, e :: es =>
    let r := step sort c ds e
    let t := run sort c r.2 es
    (r.1 :: t.1, t.2)

/-! ## Specification -/

/-- The last report in which the mount points could be listed. -/
def lastSys : List Ev → Option Sys
  | [] => none
  | .select _ :: es => lastSys es
  | .update y :: es =>
    match lastSys es with
    | some z => some z
    | none => if y.mounts.isSome then some y else none

/-- `mp` may be used according to the settings and the report, and has `n` bytes free. -/
def Usable (c : Conf) (y : Sys) (mp : Str) (n : Nat) : Prop :=
  (∃ mps, y.mounts = some mps ∧ mp ∈ mps) ∧ (c.includes = [] → mp ∉ c.excludes) ∧
    (c.includes ≠ [] → mp ∈ c.includes) ∧ ∃ t, y.info mp = some (n, t)

/-- What a selection must answer after the last report: a usable mount point with the most free
space, or the fallback when there is none. -/
def Right (c : Conf) (y : Option Sys) (fb mp : Str) : Prop :=
  match y with
  | none => mp = fb
  | some y =>
    (∃ n, Usable c y mp n ∧ ∀ mp' n', Usable c y mp' n' → n' ≤ n) ∨
    ((∀ mp' n', ¬ Usable c y mp' n') ∧ mp = fb)

/-! ## Proofs -/

theorem mem_update {c : Conf} {old : List Driver} {y : Sys} {mps : List Str} (h : y.mounts = some mps)
    (d : Driver) : d ∈ update c old y ↔ d.mount ∈ mps ∧ admitted c d.mount = true ∧ y.info d.mount = some (d.free, d.total) := by
  simp only [update, h, List.mem_filterMap, List.mem_filter, Option.map_eq_some_iff]
  constructor
  · rintro ⟨mp, ⟨h1, h2⟩, i, hi, rfl⟩
    exact ⟨h1, h2, hi⟩
  · rintro ⟨h1, h2, h3⟩
    exact ⟨d.mount, ⟨h1, h2⟩, _, h3, rfl⟩

theorem admitted_iff (c : Conf) (mp : Str) :
    admitted c mp = true ↔ (c.includes = [] → mp ∉ c.excludes) ∧ (c.includes ≠ [] → mp ∈ c.includes) := by
  unfold admitted
  by_cases h : c.includes = [] <;> simp [h]

/-- The table holds the usable mount points of the report. -/
def Holds (c : Conf) (y : Option Sys) (ds : List Driver) : Prop :=
  match y with
  | none => ds = []
  | some y => ∀ mp n, (∃ t, (⟨mp, n, t⟩ : Driver) ∈ ds) ↔ Usable c y mp n

theorem holds_update (c : Conf) {y0 : Option Sys} {ds : List Driver} (h : Holds c y0 ds) (y : Sys) :
    Holds c (if y.mounts.isSome then some y else y0) (update c ds y) := by
  cases hm : y.mounts with
  | none => simpa [update, hm] using h
  | some mps =>
    simp only [Option.isSome_some, ↓reduceIte, Holds]
    intro mp n
    simp only [mem_update hm, admitted_iff, Usable, hm, Option.some.injEq, exists_eq_left']
    constructor
    · rintro ⟨t, h1, ⟨h2, h3⟩, h4⟩; exact ⟨h1, h2, h3, t, h4⟩
    · rintro ⟨h1, h2, h3, t, h4⟩; exact ⟨t, h1, ⟨h2, h3⟩, h4⟩

theorem select_spec {sort : List Driver → List Driver} (hs : Sorts sort) (ds : List Driver) :
    (∀ d, d ∈ (select sort ds).2 ↔ d ∈ ds) ∧
      match (select sort ds).1 with
      | none => ds = []
      | some d => d ∈ ds ∧ ∀ d' ∈ ds, d'.free ≤ d.free := by
  unfold select
  split
  · rename_i h; simp [h]
  · rename_i h
    have hp := hs.perm ds
    refine ⟨fun d => hp.mem_iff, ?_⟩
    have hne : sort ds ≠ [] := fun e => h (by rw [e] at hp; exact hp.symm.eq_nil)
    rw [List.getLast?_eq_some_getLast hne]
    refine ⟨hp.mem_iff.1 (List.getLast_mem hne), fun d' hd' => ?_⟩
    have hd' := hp.mem_iff.2 hd'
    have hasc := hs.asc ds
    revert hne hasc hd'
    generalize sort ds = l
    intro hne hd' hasc
    rw [← List.dropLast_concat_getLast hne] at hd' hasc
    rcases List.mem_append.1 hd' with hm | hm
    · exact (List.pairwise_append.1 hasc).2.2 d' hm _ (by simp)
    · rw [List.mem_singleton.1 hm]

theorem lastSys_append (es : List Ev) (e : Ev) :
    lastSys (es ++ [e]) = match e with
      | .select _ => lastSys es
      | .update y => if y.mounts.isSome then some y else lastSys es := by
  induction es with
  | nil => cases e <;> simp [lastSys]
  | cons x es ih =>
    cases x with
    | select fb => simp only [List.cons_append, lastSys, ih]
    | update y =>
      simp only [List.cons_append, lastSys, ih]
      cases e with
      | select fb => rfl
      | update z => cases hz : z.mounts <;> simp [hz]

theorem run_append (sort : List Driver → List Driver) (c : Conf) (ds : List Driver) (es : List Ev) (e : Ev) :
    run sort c ds (es ++ [e]) =
      ((run sort c ds es).1 ++ [(step sort c (run sort c ds es).2 e).1], (step sort c (run sort c ds es).2 e).2) := by
  induction es generalizing ds with
  | nil => rfl
  | cons x es ih => simp only [List.cons_append, run, ih]

theorem holds_step {sort : List Driver → List Driver} (hs : Sorts sort) (c : Conf) {es : List Ev}
    {ds : List Driver} (h : Holds c (lastSys es) ds) (e : Ev) :
    Holds c (lastSys (es ++ [e])) (step sort c ds e).2 := by
  rw [lastSys_append]
  cases e with
  | update y => exact holds_update c h y
  | select fb =>
    have hsel := (select_spec hs ds).1
    simp only [step]
    cases hl : lastSys es with
    | none =>
      rw [hl] at h
      simp only [Holds] at h ⊢
      subst h
      exact List.eq_nil_iff_forall_not_mem.2 fun d hd => by simpa using (hsel d).1 hd
    | some y =>
      rw [hl] at h
      intro mp n
      simp only [hsel]
      exact h mp n

theorem holds_run {sort : List Driver → List Driver} (hs : Sorts sort) (c : Conf) (es : List Ev) :
    Holds c (lastSys es) (run sort c [] es).2 := by
  have key : ∀ (rs : List Ev), Holds c (lastSys rs.reverse) (run sort c [] rs.reverse).2 := by
    intro rs
    induction rs with
    | nil => rfl
    | cons e rs ih =>
      rw [List.reverse_cons, run_append]
      exact holds_step hs c ih e
  simpa using key es.reverse

/-- **C52**: after every history of updates and selections, with every admissible sorting, a selection
answers a mount point that was admitted and readable at the last update and had the most free
space then, and the fallback only when there is no such mount point. -/
theorem C52_select {sort : List Driver → List Driver} (hs : Sorts sort) (c : Conf) (es : List Ev) (fb : Str) :
    ∃ mp, (step sort c (run sort c [] es).2 (.select fb)).1 = some mp ∧ Right c (lastSys es) fb mp := by
  refine ⟨_, rfl, ?_⟩
  have hh := holds_run hs c es
  have hsel := (select_spec hs (run sort c [] es).2).2
  generalize (run sort c [] es).2 = ds at hh hsel ⊢
  cases hr : (select sort ds).1 with
  | none =>
    rw [hr] at hsel
    simp only at hsel ⊢
    subst hsel
    cases hl : lastSys es with
    | none => rfl
    | some y =>
      rw [hl] at hh
      exact .inr ⟨fun mp n hu => by simpa using (hh mp n).2 hu, rfl⟩
  | some d =>
    rw [hr] at hsel
    simp only at hsel ⊢
    cases hl : lastSys es with
    | none =>
      rw [hl] at hh
      simp only [Holds] at hh
      rw [hh] at hsel
      simp at hsel
    | some y =>
      rw [hl] at hh
      refine .inl ⟨d.free, (hh d.mount d.free).1 ⟨d.total, hsel.1⟩, fun mp' n' hu => ?_⟩
      obtain ⟨t, ht⟩ := (hh mp' n').2 hu
      exact hsel.2 _ ht

/-- Insertion sort, for the examples. -/
def insertD (d : Driver) : List Driver → List Driver
  | [] => [d]
  | e :: l => if d.free ≤ e.free then d :: e :: l else e :: insertD d l

def sortD : List Driver → List Driver
  | [] => []
  | d :: l => insertD d (sortD l)

theorem insertD_perm (d : Driver) (l : List Driver) : List.Perm (insertD d l) (d :: l) := by
  induction l with
  | nil => exact List.Perm.refl _
  | cons e l ih =>
    unfold insertD
    split
    · exact List.Perm.refl _
    · exact (ih.cons e).trans (List.Perm.swap d e l)

theorem insertD_asc (d : Driver) {l : List Driver} (h : l.Pairwise fun a b => a.free ≤ b.free) :
    (insertD d l).Pairwise fun a b => a.free ≤ b.free := by
  induction l with
  | nil => simp [insertD]
  | cons e l ih =>
    unfold insertD
    obtain ⟨h1, h2⟩ := List.pairwise_cons.1 h
    split
    · rename_i hle
      refine List.pairwise_cons.2 ⟨?_, h⟩
      intro x hx
      rcases List.mem_cons.1 hx with rfl | hx
      · exact hle
      · exact Nat.le_trans hle (h1 x hx)
    · rename_i hle
      refine List.pairwise_cons.2 ⟨?_, ih h2⟩
      intro x hx
      rcases List.mem_cons.1 ((insertD_perm d l).mem_iff.1 hx) with rfl | hx
      · exact Nat.le_of_lt (Nat.lt_of_not_le hle)
      · exact h1 x hx

theorem sortD_sorts : Sorts sortD where
  perm := by
    intro l
    induction l with
    | nil => exact List.Perm.refl _
    | cons d l ih => exact (insertD_perm d _).trans (ih.cons d)
  asc := by
    intro l
    induction l with
    | nil => simp [sortD]
    | cons d l ih => exact insertD_asc d ih

def exSys : Sys where
  mounts := some ["/".toList, "/a".toList, "/b".toList, "/c".toList]
  info := fun mp => if mp = "/".toList then some (900, 1000) else if mp = "/a".toList then some (10, 100)
    else if mp = "/b".toList then some (50, 100) else none

example : (run sortD ⟨[], ["/".toList]⟩ [] [.select "/fb".toList, .update exSys, .select "/fb".toList,
    .update ⟨none, fun _ => none⟩, .select "/fb".toList]).1 =
      [some "/fb".toList, none, some "/b".toList, none, some "/b".toList] := by decide

/-- **C52** (finding): between two updates, which are a minute apart, the figures do not change: every
selection goes to the same drive, however much is stored on it meanwhile.  Here for a drive with
strictly more free space than all others. -/
theorem C52_no_rotation {sort : List Driver → List Driver} (hs : Sorts sort) (c : Conf) (d : Driver) (fbs : List Str)
    {ds : List Driver} (hd : d ∈ ds) (hmax : ∀ e ∈ ds, e = d ∨ e.free < d.free) :
    (run sort c ds (fbs.map .select)).1 = fbs.map fun _ => some d.mount := by
  induction fbs generalizing ds with
  | nil => rfl
  | cons fb fbs ih =>
    obtain ⟨h1, h2⟩ := select_spec hs ds
    have hsel : (select sort ds).1 = some d := by
      cases hr : (select sort ds).1 with
      | none => rw [hr] at h2; simp only at h2; rw [h2] at hd; simp at hd
      | some e =>
        rw [hr] at h2
        rcases hmax e h2.1 with he | he
        · rw [he]
        · have := h2.2 d hd; omega
    simp only [List.map_cons, run, step]
    rw [ih ((h1 d).2 hd) fun e he => hmax e ((h1 e).1 he), hsel]

example : (⟨"/b".toList, 50, 100⟩ : Driver) ∈ update ⟨[], ["/".toList]⟩ [] exSys ∧
    ∀ e ∈ update ⟨[], ["/".toList]⟩ [] exSys, e = ⟨"/b".toList, 50, 100⟩ ∨ e.free < 50 := by decide

/-- **C52** (finding): when no drive is admitted the base mount point is used, also when the settings
exclude it. -/
theorem C52_fallback_excluded :
    (run sortD ⟨[], ["/".toList, "/a".toList, "/b".toList]⟩ [] [.update exSys, .select "/".toList]).1 =
      [none, some "/".toList] := by decide

/-! ## The weighted balancer -/

/-- Subtraction of `datasize.DataSize`, an unsigned number of 64 bits. -/
def sub64 (a b : Nat) : Nat := (a + 2 ^ 64 - b % 2 ^ 64) % 2 ^ 64

/-- `spaceWeightedBalancer.Select`, driver_balancer.go:52-67: the drive and the new weights.  `factor`
is the result of `initFactor` (lines 42-49), the logarithm of the average size, rounded up; it is a
parameter. -/
def selectWeighted (factor : Nat) (w : Str → Nat) (ds : List Driver) : Option (Driver × (Str → Nat)) :=
  match Slices.extremal (fun m cur : Driver => decide (sub64 m.free (w m.mount) < sub64 cur.free (w cur.mount))) ds with
  | none => none
  | some d =>
    let x := w d.mount + factor
    let x := if x > d.free then x / factor else x
    some (d, fun mp => if mp = d.mount then x else w mp)

theorem sub64_eq {a b : Nat} (ha : a < 2 ^ 64) (hb : b ≤ a) : sub64 a b = a - b := by
  unfold sub64
  rw [Nat.mod_eq_of_lt (Nat.lt_of_le_of_lt hb ha)]
  omega

/-- **C52** (the weighted balancer; partial): while no weight exceeds the free space of its drive, a drive
with the most free space beyond its weight is chosen.

Missing: `C52_weight_wraps`. -/
theorem C52_weighted_partial (factor : Nat) (w : Str → Nat) (ds : List Driver) (hne : ds ≠ [])
    (hb : ∀ d ∈ ds, d.free < 2 ^ 64 ∧ w d.mount ≤ d.free) :
    ∃ d w', selectWeighted factor w ds = some (d, w') ∧ d ∈ ds ∧
      ∀ e ∈ ds, e.free - w e.mount ≤ d.free - w d.mount := by
  obtain ⟨d, h1, h2, h3⟩ := Slices.C58_extremal
    (fun m cur : Driver => decide (sub64 m.free (w m.mount) < sub64 cur.free (w cur.mount))) ds hne
    (by simp) (by
      intro a b c
      simp only [decide_eq_true_eq]
      omega)
  refine ⟨d, _, by unfold selectWeighted; rw [h1], h2, fun e he => ?_⟩
  have := h3 e he
  rw [decide_eq_false_iff_not, sub64_eq (hb d h2).1 (hb d h2).2, sub64_eq (hb e he).1 (hb e he).2] at this
  omega

example : (∀ d ∈ [⟨"/a".toList, 70, 1000⟩, (⟨"/b".toList, 60, 1000⟩ : Driver)], d.free < 2 ^ 64 ∧
      (fun mp => if mp = "/a".toList then 60 else 0) d.mount ≤ d.free) ∧
    (selectWeighted 30 (fun mp => if mp = "/a".toList then 60 else 0)
      [⟨"/a".toList, 70, 1000⟩, ⟨"/b".toList, 60, 1000⟩]).map (·.1.mount) = some "/b".toList := by decide

/-- **C52** (the weighted balancer): a selection raises the weight of the chosen drive by the factor, or divides it
when it would exceed the free space, and leaves the others; so while the free space stays, no weight ever
exceeds it and `C52_weighted_partial` goes on to apply. -/
theorem C52_weighted_keeps {factor : Nat} (hf : 2 ≤ factor) {w w' : Str → Nat} {ds : List Driver} {d : Driver}
    (hb : ∀ e ∈ ds, 2 ≤ e.free ∧ w e.mount ≤ e.free) (hu : ∀ e ∈ ds, ∀ e' ∈ ds, e.mount = e'.mount → e = e')
    (h : selectWeighted factor w ds = some (d, w')) :
    d ∈ ds ∧ (∀ e ∈ ds, w' e.mount ≤ e.free) ∧ (∀ mp, mp ≠ d.mount → w' mp = w mp) ∧
      (w d.mount + factor ≤ d.free → w' d.mount = w d.mount + factor) ∧
      (d.free < w d.mount + factor → w' d.mount = (w d.mount + factor) / factor) := by
  unfold selectWeighted at h
  cases hx : Slices.extremal (fun m cur : Driver => decide (sub64 m.free (w m.mount) < sub64 cur.free (w cur.mount))) ds with
  | none => rw [hx] at h; cases h
  | some x =>
    rw [hx] at h
    simp only [Option.some.injEq, Prod.mk.injEq] at h
    obtain ⟨rfl, rfl⟩ := h
    have hin : x ∈ ds := by
      obtain ⟨y, h1, h2, _⟩ := Slices.C58_extremal
        (fun m cur : Driver => decide (sub64 m.free (w m.mount) < sub64 cur.free (w cur.mount))) ds
        (by rintro rfl; cases hx) (by simp) (by intro a b c; simp only [decide_eq_true_eq]; omega)
      rw [hx] at h1; cases h1; exact h2
    refine ⟨hin, fun e he => ?_, fun mp hmp => if_neg hmp, fun hle => ?_, fun hlt => ?_⟩
    · dsimp only
      split
      · rename_i hm
        have := hu e he x hin hm
        subst this
        have h1 := hb e he
        split
        · rename_i hgt
          have : (w e.mount + factor) / factor ≤ e.free := by
            rw [Nat.add_div_right _ (by omega)]
            have h3 : w e.mount / factor ≤ w e.mount / 2 := Nat.div_le_div_left hf (by decide)
            omega
          exact this
        · omega
      · exact (hb e he).2
    · simp only [if_true]; rw [if_neg (by omega)]
    · simp only [if_true]; rw [if_pos hlt]

example : (selectWeighted 30 (fun mp => if mp = "/a".toList then 60 else 0)
      [⟨"/a".toList, 100, 1000⟩, ⟨"/b".toList, 20, 1000⟩]).map (fun r => (r.1.mount, r.2 "/a".toList, r.2 "/b".toList)) =
    some ("/a".toList, 90, 0) ∧
    (selectWeighted 30 (fun mp => if mp = "/a".toList then 90 else 0)
      [⟨"/a".toList, 100, 1000⟩, ⟨"/b".toList, 5, 1000⟩]).map (fun r => (r.1.mount, r.2 "/a".toList, r.2 "/b".toList)) =
    some ("/a".toList, 4, 0) := by decide

/-- **C52** (finding): once a drive has less free space than its weight, because it was filled since, the
subtraction wraps around and the full drive is chosen. -/
theorem C52_weight_wraps :
    (selectWeighted 30 (fun mp => if mp = "/a".toList then 60 else 0)
      [⟨"/a".toList, 5, 1000⟩, ⟨"/b".toList, 900, 1000⟩]).map (·.1.mount) = some "/a".toList := by decide

end Verif.Drives
