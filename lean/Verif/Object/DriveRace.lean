import Verif.Object.Drives

/-!
# Many requests use the drive table at once (C122)

Models src/objectserver/internal/usecase/component/driver_manager.go (`Update`, `SelectMountPointFallback`,
`FindMountPath`, `GetAllMountPoint`) and driver_balancer.go:21-29 (`Select`) with any number of goroutines.
None of these functions takes a lock, and `Select` sorts the table *in place* (driver_balancer.go:25).

* An update builds a new array and stores it in `dm.drivers` (driver_manager.go:38, 64); goroutines that
  took the slice before go on with the old array.  Arrays have numbers; array 0 is the empty one of
  `NewDriverManager`.
* `sort.Slice` is written out as Go's insertion sort, which the library uses for up to 12 elements
  (sort/zsortfunc.go, `insertionSort_func`):
  `for i := 1; i < n; i++ { for j := i; j > 0 && less(j, j-1); j-- { swap(j, j-1) } }`.  `less(j, j-1)` reads
  entry `j`, then entry `j-1` (driver_balancer.go:26); `swap` is `is[j], is[j-1] = is[j-1], is[j]`
  (internal/reflectlite `Swapper`): two reads, then two writes.  Simplified: tables of more than 12 drives
  are sorted in the same way.
* One step of a goroutine reads or writes one entry.  Simplified: reads and writes of an entry and of the
  slice `dm.drivers` are atomic and seen at once by all (Go promises neither for programs with data races).
* The drives of an array never change; `os.Stat` of a file on a drive is the parameter `has`, which does
  not change while the requests run.
-/

namespace Verif.DriveRace

open Verif Verif.Drives

/-- Where a goroutine stands. -/
inductive Thread
  | idle
  /-- in `insertionSort_func` on array `a`: before the test `j > 0 && less(j, j-1)` -/
  | cmp (a i j : Nat)
  /-- in `less(j, j-1)`, entry `j` is read -/
  | cmp2 (a i j : Nat) (x : Driver)
  /-- in `swap(j, j-1)`, before entry `j-1` is read -/
  | rd (a i j : Nat)
  /-- entry `j-1` is read -/
  | rd2 (a i j : Nat) (x : Driver)
  /-- both entries are read: `x` is for place `j`, `y` for place `j-1` -/
  | wr (a i j : Nat) (x y : Driver)
  /-- place `j` is written -/
  | wr2 (a i j : Nat) (y : Driver)
  /-- sorted, before `slices.Last`, driver_balancer.go:28 -/
  | last (a : Nat)
  /-- in the loop of `FindMountPath` for file `f`, driver_manager.go:108, at place `k` -/
  | find (a k : Nat) (f : Str)
  /-- in the loop of `GetAllMountPoint`, driver_manager.go:119, at place `k` -/
  | list (a k : Nat) (acc : List Str)
  /-- `Select` has answered; `none` is the error for an empty table -/
  | chose (a : Nat) (r : Option Driver)
  /-- `FindMountPath` has answered; `none` is `os.ErrNotExist` -/
  | found (a : Nat) (f : Str) (r : Option Str)
  /-- `GetAllMountPoint` has answered -/
  | listed (a : Nat) (l : List Str)
  /-- index out of range -/
  | panicked
  deriving DecidableEq

/-- The goroutine is between two requests. -/
def Thread.free : Thread → Bool
  | .idle | .chose .. | .found .. | .listed .. => true
  | _ => false

/-- The memory of the process.  `orig a` remembers what array `a` held when it was built; no function reads
it. -/
structure State where
  heap : Nat → List Driver
  orig : Nat → List Driver
  n : Nat
  cur : Nat
  thr : Nat → Thread

/-- `NewDriverManager`, driver_manager.go:29-31. -/
def init : State := ⟨fun _ => [], fun _ => [], 1, 0, fun _ => .idle⟩

/-- Replaces the value of `f` at `k`. -/
def set {α : Type} (f : Nat → α) (k : Nat) (v : α) : Nat → α := fun x => if x = k then v else f x

/-- What happens: an update with a new table, a goroutine begins one of the three functions, or takes its
next step. -/
inductive Ev
  | update (ds : List Driver)
  | choose (t : Nat)
  | find (t : Nat) (f : Str)
  | list (t : Nat)
  | step (t : Nat)
  deriving DecidableEq

/-- The next step of goroutine `t`. -/
def stepT (has : Str → Str → Bool) (s : State) (t : Nat) : State :=
  match s.thr t with
  | .cmp a i j =>
    if (s.heap a).length ≤ i then { s with thr := set s.thr t (.last a) }
    else if j = 0 then { s with thr := set s.thr t (.cmp a (i + 1) (i + 1)) }
    else
      match (s.heap a)[j]? with
      | some x => { s with thr := set s.thr t (.cmp2 a i j x) }
      | none => { s with thr := set s.thr t .panicked }
  | .cmp2 a i j x =>
    match (s.heap a)[j - 1]? with
    | some y =>
      if x.free < y.free then { s with thr := set s.thr t (.rd a i j) }
      else { s with thr := set s.thr t (.cmp a (i + 1) (i + 1)) }
    | none => { s with thr := set s.thr t .panicked }
  | .rd a i j =>
    match (s.heap a)[j - 1]? with
    | some x => { s with thr := set s.thr t (.rd2 a i j x) }
    | none => { s with thr := set s.thr t .panicked }
  | .rd2 a i j x =>
    match (s.heap a)[j]? with
    | some y => { s with thr := set s.thr t (.wr a i j x y) }
    | none => { s with thr := set s.thr t .panicked }
  | .wr a i j x y =>
    { s with heap := set s.heap a ((s.heap a).set j x), thr := set s.thr t (.wr2 a i j y) }
  | .wr2 a i j y =>
    { s with heap := set s.heap a ((s.heap a).set (j - 1) y), thr := set s.thr t (.cmp a i (j - 1)) }
  | .last a =>
    match (s.heap a)[(s.heap a).length - 1]? with
    | some d => { s with thr := set s.thr t (.chose a (some d)) }
    | none => { s with thr := set s.thr t .panicked }
  | .find a k f =>
    match (s.heap a)[k]? with
    | some d =>
      if has f d.mount then { s with thr := set s.thr t (.found a f (some d.mount)) }
      else { s with thr := set s.thr t (.find a (k + 1) f) }
    | none => { s with thr := set s.thr t (.found a f none) }
  | .list a k acc =>
    match (s.heap a)[k]? with
    | some d => { s with thr := set s.thr t (.list a (k + 1) (acc ++ [d.mount])) }
    | none => { s with thr := set s.thr t (.listed a acc) }
  | _ => s

/-- One event. -/
def step (has : Str → Str → Bool) (s : State) : Ev → State
  | .update ds => { s with heap := set s.heap s.n ds, orig := set s.orig s.n ds, n := s.n + 1, cur := s.n }
  | .choose t =>
    if (s.thr t).free then
      if s.heap s.cur = [] then { s with thr := set s.thr t (.chose s.cur none) }
      else { s with thr := set s.thr t (.cmp s.cur 1 1) }
    else s
  | .find t f => if (s.thr t).free then { s with thr := set s.thr t (.find s.cur 0 f) } else s
  | .list t => if (s.thr t).free then { s with thr := set s.thr t (.list s.cur 0 []) } else s
  | .step t => stepT has s t

/-- A history. -/
def run (has : Str → Str → Bool) : State → List Ev → State
  | s, [] => s
  | s, e :: es => run has (step has s e) es

theorem run_append (has : Str → Str → Bool) (s : State) (xs ys : List Ev) :
    run has s (xs ++ ys) = run has (run has s xs) ys := by
  induction xs generalizing s with
  | nil => rfl
  | cons x xs ih => exact ih _

@[simp] theorem set_same {α : Type} (f : Nat → α) (k : Nat) (v : α) : set f k v k = v := if_pos rfl
theorem set_ne {α : Type} (f : Nat → α) {k x : Nat} (v : α) (h : x ≠ k) : set f k v x = f x := if_neg h

/-! ## Specification -/

/-- The goroutine is choosing a drive from array `a`. -/
def Thread.sorting (a : Nat) : Thread → Bool
  | .cmp b .. | .cmp2 b .. | .rd b .. | .rd2 b .. | .wr b .. | .wr2 b .. | .last b => a == b
  | _ => false

/-- No drive of the table has more free space. -/
def Most (ds : List Driver) (d : Driver) : Prop := d ∈ ds ∧ ∀ e ∈ ds, e.free ≤ d.free

/-- The right answer of a search for `f` in the table `ds`. -/
def Exact (has : Str → Str → Bool) (ds : List Driver) (f : Str) (r : Option Str) : Prop :=
  (∀ mp, r = some mp → has f mp = true ∧ ∃ d ∈ ds, d.mount = mp) ∧
  (r = none → ∀ d ∈ ds, has f d.mount = false)

/-- No goroutine begins to choose from array `a`. -/
def Quiet (has : Str → Str → Bool) (a : Nat) : State → List Ev → Prop
  | _, [] => True
  | s, e :: es => (∀ t, e = .choose t → s.cur ≠ a) ∧ Quiet has a (step has s e) es

/-- Array `a` holds `l` all the time. -/
def Fixed (has : Str → Str → Bool) (a : Nat) (l : List Driver) : State → List Ev → Prop
  | s, [] => s.heap a = l
  | s, e :: es => s.heap a = l ∧ Fixed has a l (step has s e) es

/-! ## What always holds -/

/-- The registers and positions of a goroutine make sense. -/
def TOk (has : Str → Str → Bool) (s : State) : Thread → Prop
  | .idle => True
  | .cmp a i j => a < s.n ∧ s.orig a ≠ [] ∧ j ≤ i
  | .cmp2 a i j x => a < s.n ∧ i < (s.orig a).length ∧ j ≤ i ∧ 0 < j ∧ x ∈ s.orig a
  | .rd a i j => a < s.n ∧ i < (s.orig a).length ∧ j ≤ i ∧ 0 < j
  | .rd2 a i j x => a < s.n ∧ i < (s.orig a).length ∧ j ≤ i ∧ 0 < j ∧ x ∈ s.orig a
  | .wr a i j x y => a < s.n ∧ i < (s.orig a).length ∧ j ≤ i ∧ 0 < j ∧ x ∈ s.orig a ∧ y ∈ s.orig a
  | .wr2 a i j y => a < s.n ∧ i < (s.orig a).length ∧ j ≤ i ∧ 0 < j ∧ y ∈ s.orig a
  | .last a => a < s.n ∧ s.orig a ≠ []
  | .find a _ _ => a < s.n
  | .list a _ acc => a < s.n ∧ ∀ mp ∈ acc, ∃ d ∈ s.orig a, d.mount = mp
  | .chose a r => a < s.n ∧ (r = none → s.orig a = []) ∧ ∀ d, r = some d → d ∈ s.orig a
  | .found a f r => a < s.n ∧ ∀ mp, r = some mp → has f mp = true ∧ ∃ d ∈ s.orig a, d.mount = mp
  | .listed a l => a < s.n ∧ ∀ mp ∈ l, ∃ d ∈ s.orig a, d.mount = mp
  | .panicked => False

structure Inv (has : Str → Str → Bool) (s : State) : Prop where
  cur : s.cur < s.n
  len : ∀ a, (s.heap a).length = (s.orig a).length
  mem : ∀ a, ∀ d ∈ s.heap a, d ∈ s.orig a
  thr : ∀ t, TOk has s (s.thr t)

theorem inv_init (has : Str → Str → Bool) : Inv has init :=
  ⟨by decide, fun _ => rfl, fun _ d hd => hd, fun _ => trivial⟩

/-- A step that changes one goroutine only. -/
theorem inv_thr {has : Str → Str → Bool} {s : State} (h : Inv has s) (t : Nat) {x : Thread} (hx : TOk has s x) :
    Inv has { s with thr := set s.thr t x } := by
  refine ⟨h.cur, h.len, h.mem, fun u => ?_⟩
  by_cases hu : u = t
  · subst hu
    show TOk has _ (set s.thr u x u)
    rw [set_same]
    cases x <;> exact hx
  · show TOk has _ (set s.thr t x u)
    rw [set_ne _ _ hu]
    have := h.thr u
    cases hc : s.thr u <;> rw [hc] at this <;> exact this

/-- A step that writes one entry. -/
theorem inv_write {has : Str → Str → Bool} {s : State} (h : Inv has s) (t a j : Nat) {v : Driver} (hv : v ∈ s.orig a)
    {x : Thread} (hx : TOk has s x) :
    Inv has { s with heap := set s.heap a ((s.heap a).set j v), thr := set s.thr t x } := by
  have h' := inv_thr h t hx
  refine ⟨h'.cur, fun b => ?_, fun b d hd => ?_, fun u => ?_⟩
  · show (set s.heap a ((s.heap a).set j v) b).length = _
    by_cases hb : b = a
    · subst hb; rw [set_same, List.length_set]; exact h.len b
    · rw [set_ne _ _ hb]; exact h.len b
  · change d ∈ set s.heap a ((s.heap a).set j v) b at hd
    by_cases hb : b = a
    · subst hb
      rw [set_same] at hd
      rcases List.mem_or_eq_of_mem_set hd with hd | rfl
      · exact h.mem b d hd
      · exact hv
    · rw [set_ne _ _ hb] at hd; exact h.mem b d hd
  · have := h'.thr u
    change TOk has _ (set s.thr t x u) at this
    show TOk has _ (set s.thr t x u)
    cases hc : set s.thr t x u <;> rw [hc] at this <;> exact this

theorem inv_stepT {has : Str → Str → Bool} {s : State} (h : Inv has s) (t : Nat) : Inv has (stepT has s t) := by
  have ht := h.thr t
  unfold stepT
  split
  · rename_i a i j e
    rw [e] at ht
    split
    · exact inv_thr h t ⟨ht.1, ht.2.1⟩
    · split
      · exact inv_thr h t ⟨ht.1, ht.2.1, Nat.le_refl _⟩
      · rename_i h1 h2
        have hl := h.len a
        have : j < (s.heap a).length := by have := ht.2.2; omega
        rw [List.getElem?_eq_getElem this]
        exact inv_thr h t ⟨ht.1, by omega, ht.2.2, by omega, h.mem a _ (List.getElem_mem _)⟩
  · rename_i a i j x e
    rw [e] at ht
    obtain ⟨h1, h2, h3, h4, h5⟩ := ht
    have hl := h.len a
    have : j - 1 < (s.heap a).length := by omega
    rw [List.getElem?_eq_getElem this]
    dsimp only
    split
    · exact inv_thr h t ⟨h1, h2, h3, h4⟩
    · exact inv_thr h t ⟨h1, by intro hn; rw [hn] at h2; simp at h2, Nat.le_refl _⟩
  · rename_i a i j e
    rw [e] at ht
    obtain ⟨h1, h2, h3, h4⟩ := ht
    have hl := h.len a
    have : j - 1 < (s.heap a).length := by omega
    rw [List.getElem?_eq_getElem this]
    exact inv_thr h t ⟨h1, h2, h3, h4, h.mem a _ (List.getElem_mem _)⟩
  · rename_i a i j x e
    rw [e] at ht
    obtain ⟨h1, h2, h3, h4, h5⟩ := ht
    have hl := h.len a
    have : j < (s.heap a).length := by omega
    rw [List.getElem?_eq_getElem this]
    exact inv_thr h t ⟨h1, h2, h3, h4, h5, h.mem a _ (List.getElem_mem _)⟩
  · rename_i a i j x y e
    rw [e] at ht
    obtain ⟨h1, h2, h3, h4, h5, h6⟩ := ht
    exact inv_write h t a j h5 ⟨h1, h2, h3, h4, h6⟩
  · rename_i a i j y e
    rw [e] at ht
    obtain ⟨h1, h2, h3, h4, h5⟩ := ht
    exact inv_write h t a (j - 1) h5 ⟨h1, by intro hn; rw [hn] at h2; simp at h2, by omega⟩
  · rename_i a e
    rw [e] at ht
    obtain ⟨h1, h2⟩ := ht
    have hl := h.len a
    have : (s.heap a).length - 1 < (s.heap a).length := by
      have := List.length_pos_iff.2 h2; omega
    rw [List.getElem?_eq_getElem this]
    exact inv_thr h t ⟨h1, by simp, fun d hd => by cases hd; exact h.mem a _ (List.getElem_mem _)⟩
  · rename_i a k f e
    rw [e] at ht
    split
    · rename_i d hd
      have hm := h.mem a d (List.mem_of_getElem? hd)
      split
      · rename_i hh
        exact inv_thr h t ⟨ht, fun mp hmp => by cases hmp; exact ⟨hh, d, hm, rfl⟩⟩
      · exact inv_thr h t ht
    · exact inv_thr h t ⟨ht, by simp⟩
  · rename_i a k acc e
    rw [e] at ht
    split
    · rename_i d hd
      have hm := h.mem a d (List.mem_of_getElem? hd)
      refine inv_thr h t ⟨ht.1, fun mp hmp => ?_⟩
      rcases List.mem_append.1 hmp with hmp | hmp
      · exact ht.2 mp hmp
      · rw [List.mem_singleton.1 hmp]; exact ⟨d, hm, rfl⟩
    · exact inv_thr h t ht
  · exact h

theorem inv_step {has : Str → Str → Bool} {s : State} (h : Inv has s) (e : Ev) : Inv has (step has s e) := by
  cases e with
  | step t => exact inv_stepT h t
  | update ds =>
    refine ⟨Nat.lt_succ_self _, fun a => ?_, fun a => ?_, fun t => ?_⟩
    · show (set s.heap s.n ds a).length = (set s.orig s.n ds a).length
      by_cases ha : a = s.n
      · subst ha; rw [set_same, set_same]
      · rw [set_ne _ _ ha, set_ne _ _ ha]; exact h.len a
    · show ∀ d ∈ set s.heap s.n ds a, d ∈ set s.orig s.n ds a
      by_cases ha : a = s.n
      · subst ha; rw [set_same, set_same]; exact fun d hd => hd
      · rw [set_ne _ _ ha, set_ne _ _ ha]; exact h.mem a
    · have ht := h.thr t
      show TOk has _ (s.thr t)
      have ho : ∀ a, a < s.n → (step has s (.update ds)).orig a = s.orig a := fun a ha => set_ne _ _ (by omega)
      cases hc : s.thr t <;> rw [hc] at ht <;>
        first
        | trivial
        | exact ht.elim
        | exact Nat.lt_succ_of_lt ht
        | exact ⟨Nat.lt_succ_of_lt ht.1, by simpa only [ho _ ht.1] using ht.2⟩
  | choose t =>
    unfold step
    dsimp only
    split
    · split
      · rename_i h1
        refine inv_thr h t ⟨h.cur, fun _ => ?_, by simp⟩
        have := h.len s.cur
        rw [h1] at this
        exact List.length_eq_zero_iff.1 this.symm
      · rename_i h1
        refine inv_thr h t ⟨h.cur, fun h2 => h1 ?_, Nat.le_refl _⟩
        have := h.len s.cur
        rw [h2] at this
        exact List.length_eq_zero_iff.1 this
    · exact h
  | find t f =>
    unfold step
    dsimp only
    split
    · exact inv_thr h t h.cur
    · exact h
  | list t =>
    unfold step
    dsimp only
    split
    · exact inv_thr h t ⟨h.cur, by simp⟩
    · exact h

theorem inv_run {has : Str → Str → Bool} {s : State} (h : Inv has s) (es : List Ev) : Inv has (run has s es) := by
  induction es generalizing s with
  | nil => exact h
  | cons e es ih => exact ih (inv_step h e)

/-- **C122** (what every race leaves intact): whatever requests and updates overlap, no request panics; every
entry of a table comes from the update that built the table; a chosen drive is one of them, and the
fallback is taken only when the update reported no drive; a search that names a drive names one that has the
file; and all listed mount points come from the update. -/
theorem C122_always (has : Str → Str → Bool) (es : List Ev) :
    let s := run has init es
    (∀ t, s.thr t ≠ .panicked) ∧
    (∀ a, ∀ d ∈ s.heap a, d ∈ s.orig a) ∧
    (∀ t a d, s.thr t = .chose a (some d) → d ∈ s.orig a) ∧
    (∀ t a, s.thr t = .chose a none → s.orig a = []) ∧
    (∀ t a f mp, s.thr t = .found a f (some mp) → has f mp = true ∧ ∃ d ∈ s.orig a, d.mount = mp) ∧
    (∀ t a l, s.thr t = .listed a l → ∀ mp ∈ l, ∃ d ∈ s.orig a, d.mount = mp) := by
  have h := inv_run (inv_init has) es
  refine ⟨fun t e => ?_, h.mem, fun t a d e => ?_, fun t a e => ?_, fun t a f mp e => ?_, fun t a l e => ?_⟩ <;>
    have ht := h.thr t <;> rw [e] at ht
  · exact ht
  · exact ht.2.2 d rfl
  · exact ht.2.1 rfl
  · exact ht.2 mp rfl
  · exact ht.2

/-! ## A table that nobody sorts -/

/-- The answers of goroutine `t` about array `a`, which holds `l`, are right so far. -/
def ScanOk (has : Str → Str → Bool) (a : Nat) (l : List Driver) : Thread → Prop
  | .find b k f => b = a → ∀ d ∈ l.take k, has f d.mount = false
  | .found b f r => b = a → Exact has l f r
  | .list b k acc => b = a → acc = (l.take k).map Driver.mount
  | .listed b r => b = a → r = l.map Driver.mount
  | _ => True

theorem take_succ_some {α : Type} {l : List α} {k : Nat} {d : α} (h : l[k]? = some d) :
    l.take (k + 1) = l.take k ++ [d] := by
  rw [List.take_add_one, h]; rfl

theorem take_none {α : Type} {l : List α} {k : Nat} (h : l[k]? = none) : l.take k = l :=
  List.take_of_length_le (List.getElem?_eq_none_iff.1 h)

theorem scan_stepT {has : Str → Str → Bool} {s : State} {a : Nat} {l : List Driver} (hl : s.heap a = l) {t : Nat}
    (h : ScanOk has a l (s.thr t)) (u : Nat) : ScanOk has a l ((stepT has s u).thr t) := by
  by_cases hu : t = u
  · subst hu
    unfold stepT
    split <;> (repeat' split) <;> (try dsimp only) <;> try rw [set_same]
    all_goals first | trivial | skip
    · rename_i b k f e o d hd hh
      intro hb
      subst hb
      rw [hl] at hd
      exact ⟨fun mp hmp => by cases hmp; exact ⟨hh, d, List.mem_of_getElem? hd, rfl⟩, by simp⟩
    · rename_i b k f e o d hd hh
      intro hb
      subst hb
      rw [e] at h
      rw [hl] at hd
      intro x hx
      rw [take_succ_some hd] at hx
      rcases List.mem_append.1 hx with hx | hx
      · exact h rfl x hx
      · rw [List.mem_singleton.1 hx]; simpa using hh
    · rename_i b k f e o hd
      intro hb
      subst hb
      rw [e] at h
      rw [hl] at hd
      refine ⟨by simp, fun _ d hd' => h rfl d ?_⟩
      rwa [take_none hd]
    · rename_i b k acc e o d hd
      intro hb
      subst hb
      rw [e] at h
      rw [hl] at hd
      rw [take_succ_some hd, List.map_append, ← h rfl]
      rfl
    · rename_i b k acc e o hd
      intro hb
      subst hb
      rw [e] at h
      rw [hl] at hd
      rw [h rfl, take_none hd]
  · have : (stepT has s u).thr t = s.thr t := by
      unfold stepT
      split <;> (repeat' split) <;> first | rfl | exact set_ne _ _ hu
    rw [this]; exact h

theorem scan_step {has : Str → Str → Bool} {s : State} {a : Nat} {l : List Driver} (hl : s.heap a = l) {t : Nat}
    (h : ScanOk has a l (s.thr t)) (e : Ev) : ScanOk has a l ((step has s e).thr t) := by
  cases e with
  | step u => exact scan_stepT hl h u
  | update ds => exact h
  | choose u =>
    unfold step
    dsimp only
    by_cases hu : t = u
    · subst hu
      (repeat' split) <;> first | exact h | (dsimp only; rw [set_same]; trivial)
    · (repeat' split) <;> first | exact h | (dsimp only; rw [set_ne _ _ hu]; exact h)
  | find u f =>
    unfold step
    dsimp only
    by_cases hu : t = u
    · subst hu
      split
      · dsimp only; rw [set_same]; intro _ d hd; simp at hd
      · exact h
    · split <;> first | exact h | (dsimp only; rw [set_ne _ _ hu]; exact h)
  | list u =>
    unfold step
    dsimp only
    by_cases hu : t = u
    · subst hu
      split
      · dsimp only; rw [set_same]; intro _; simp
      · exact h
    · split <;> first | exact h | (dsimp only; rw [set_ne _ _ hu]; exact h)

theorem scan_fixed {has : Str → Str → Bool} {a : Nat} {l : List Driver} {s : State} {es : List Ev}
    (hf : Fixed has a l s es) {t : Nat} (h : ScanOk has a l (s.thr t)) : ScanOk has a l ((run has s es).thr t) := by
  induction es generalizing s with
  | nil => exact h
  | cons e es ih => exact ih hf.2 (scan_step hf.1 h e)

/-- Nobody sorts array `a`. -/
def NoSort (s : State) (a : Nat) : Prop := a < s.n ∧ ∀ t, (s.thr t).sorting a = false

theorem nosort_stepT {has : Str → Str → Bool} {s : State} {a : Nat} (h : NoSort s a) (t : Nat) :
    NoSort (stepT has s t) a ∧ (stepT has s t).heap a = s.heap a := by
  have ht := h.2 t
  have key : ∀ x : Thread, x.sorting a = false → NoSort { s with thr := set s.thr t x } a := by
    intro x hx
    refine ⟨h.1, fun u => ?_⟩
    show (set s.thr t x u).sorting a = false
    by_cases hu : u = t
    · subst hu; rw [set_same]; exact hx
    · rw [set_ne _ _ hu]; exact h.2 u
  have hne : ∀ {b : Nat}, (a == b) = false → a ≠ b := fun {b} hb => by simpa using hb
  unfold stepT
  split
  all_goals (rename_i e; try rw [e] at ht)
  all_goals (repeat' split)
  all_goals first
    | exact ⟨key _ rfl, rfl⟩
    | exact ⟨key _ ht, rfl⟩
    | exact ⟨h, rfl⟩
    | exact ⟨key _ ht, set_ne _ _ (hne ht)⟩

theorem nosort_step {has : Str → Str → Bool} {s : State} {a : Nat} (h : NoSort s a) (e : Ev)
    (hq : ∀ t, e = .choose t → s.cur ≠ a) : NoSort (step has s e) a ∧ (step has s e).heap a = s.heap a := by
  have key : ∀ (t : Nat) (x : Thread), x.sorting a = false → NoSort { s with thr := set s.thr t x } a := by
    intro t x hx
    refine ⟨h.1, fun u => ?_⟩
    show (set s.thr t x u).sorting a = false
    by_cases hu : u = t
    · subst hu; rw [set_same]; exact hx
    · rw [set_ne _ _ hu]; exact h.2 u
  cases e with
  | step t => exact nosort_stepT h t
  | update ds => exact ⟨⟨Nat.lt_succ_of_lt h.1, h.2⟩, set_ne _ _ (Nat.ne_of_lt h.1)⟩
  | choose t =>
    have hne := hq t rfl
    unfold step
    dsimp only
    (repeat' split)
    · exact ⟨key _ _ rfl, rfl⟩
    · exact ⟨key _ _ (by simp [Thread.sorting]; exact fun h => hne h.symm), rfl⟩
    · exact ⟨h, rfl⟩
  | find t f =>
    unfold step
    dsimp only
    split
    · exact ⟨key _ _ rfl, rfl⟩
    · exact ⟨h, rfl⟩
  | list t =>
    unfold step
    dsimp only
    split
    · exact ⟨key _ _ rfl, rfl⟩
    · exact ⟨h, rfl⟩

theorem quiet_fixed {has : Str → Str → Bool} {s : State} {a : Nat} (h : NoSort s a) {es : List Ev}
    (hq : Quiet has a s es) : Fixed has a (s.heap a) s es := by
  suffices ∀ l, s.heap a = l → Fixed has a l s es from this _ rfl
  induction es generalizing s with
  | nil => exact fun l hl => hl
  | cons e es ih =>
    intro l hl
    obtain ⟨h1, h2⟩ := nosort_step (has := has) h e hq.1
    exact ⟨hl, ih h1 hq.2 l (h2.trans hl)⟩

/-- **C122** (an update, partial): after an update, until the first selection from it begins, the table is
what the update reported, and all searches and listings that begin meanwhile are right, however many
run at the same time and whatever selections from older tables are still running.

Missing: `C122_search_misses`. -/
theorem C122_updated_partial (has : Str → Str → Bool) (xs : List Ev) (ds : List Driver) (es : List Ev)
    (hq : Quiet has (run has init xs).n (run has init (xs ++ [.update ds])) es) :
    let a := (run has init xs).n
    let s := run has init (xs ++ .update ds :: es)
    s.heap a = ds ∧ (∀ t f r, s.thr t = .found a f r → Exact has ds f r) ∧
      (∀ t l, s.thr t = .listed a l → l = ds.map Driver.mount) := by
  have hinv := inv_run (inv_init has) xs
  have hrun : run has init (xs ++ .update ds :: es) = run has (run has init (xs ++ [.update ds])) es := by
    rw [run_append, run_append]; rfl
  dsimp only
  rw [hrun]
  have h1 : run has init (xs ++ [.update ds]) = step has (run has init xs) (.update ds) := by
    rw [run_append]; rfl
  rw [h1] at hq ⊢
  generalize run has init xs = s at hinv hq ⊢
  have hno : ∀ t b, TOk has s (s.thr t) → b = s.n → (s.thr t).sorting b = false ∧ ∀ l, ScanOk has b l (s.thr t) := by
    intro t b ht hb
    cases hc : s.thr t <;> rw [hc] at ht <;> simp only [Thread.sorting, ScanOk, TOk] at ht ⊢ <;>
      first
      | exact ⟨trivial, fun _ => trivial⟩
      | exact ⟨by simp only [beq_eq_false_iff_ne]; omega, fun _ => trivial⟩
      | exact ⟨trivial, fun _ e => absurd e (by omega)⟩
  have hns : NoSort (step has s (.update ds)) s.n :=
    ⟨Nat.lt_succ_self _, fun t => (hno t _ (hinv.thr t) rfl).1⟩
  have hheap : (step has s (.update ds)).heap s.n = ds := set_same _ _ _
  have hf := quiet_fixed hns hq
  rw [hheap] at hf
  have hlast : ∀ (es : List Ev) (z : State), Fixed has s.n ds z es → (run has z es).heap s.n = ds := by
    intro es
    induction es with
    | nil => exact fun z hz => hz
    | cons e es ih => exact fun z hz => ih _ hz.2
  refine ⟨hlast es _ hf, fun t f r e => ?_, fun t l e => ?_⟩ <;>
    have := scan_fixed hf (t := t) ((hno t _ (hinv.thr t) rfl).2 ds) <;> rw [e] at this <;> exact this rfl

/-! ## A table that is sorted -/

/-- The drives stand in ascending order of free space. -/
def Asc (l : List Driver) : Prop := l.Pairwise fun d e => d.free ≤ e.free

/-- A goroutine that does not change array `a`, which holds `l` in ascending order. -/
def SetOk (a : Nat) (l : List Driver) : Thread → Prop
  | .cmp2 b _ j x => b = a → l[j]? = some x ∧ 0 < j
  | .rd b .. | .rd2 b .. | .wr b .. | .wr2 b .. => b ≠ a
  | _ => True

structure Settled (s : State) (a : Nat) (l : List Driver) : Prop where
  lt : a < s.n
  asc : Asc l
  heap : s.heap a = l
  thr : ∀ t, SetOk a l (s.thr t)

theorem asc_le {l : List Driver} (h : Asc l) {p q : Nat} (hpq : p < q) {x y : Driver} (hx : l[p]? = some x)
    (hy : l[q]? = some y) : x.free ≤ y.free := by
  obtain ⟨hp, rfl⟩ := List.getElem?_eq_some_iff.1 hx
  obtain ⟨hq, rfl⟩ := List.getElem?_eq_some_iff.1 hy
  exact List.pairwise_iff_getElem.1 h p q hp hq hpq

theorem settled_thr {s : State} {a : Nat} {l : List Driver} (h : Settled s a l) (t : Nat) {x : Thread}
    (hx : SetOk a l x) : Settled { s with thr := set s.thr t x } a l := by
  refine ⟨h.lt, h.asc, h.heap, fun u => ?_⟩
  show SetOk a l (set s.thr t x u)
  by_cases hu : u = t
  · subst hu; rw [set_same]; exact hx
  · rw [set_ne _ _ hu]; exact h.thr u

theorem settled_write {s : State} {a : Nat} {l : List Driver} (h : Settled s a l) (t : Nat) {x : Thread}
    (hx : SetOk a l x) {b : Nat} (hb : b ≠ a) (v : List Driver) :
    Settled { s with heap := set s.heap b v, thr := set s.thr t x } a l :=
  ⟨h.lt, h.asc, (set_ne _ _ (Ne.symm hb)).trans h.heap, (settled_thr h t hx).thr⟩

theorem settled_stepT {has : Str → Str → Bool} {s : State} {a : Nat} {l : List Driver} (h : Settled s a l) (t : Nat) :
    Settled (stepT has s t) a l := by
  have ht := h.thr t
  unfold stepT
  split
  all_goals (rename_i e; try rw [e] at ht)
  · rename_i b i j
    split
    · exact settled_thr h t trivial
    · split
      · exact settled_thr h t trivial
      · split
        · rename_i hj _ x hx
          refine settled_thr h t fun hb => ⟨?_, Nat.pos_of_ne_zero hj⟩
          rw [← h.heap, ← hb]; exact hx
        · exact settled_thr h t trivial
  · rename_i b i j x
    split
    · rename_i y hy
      split
      · rename_i hlt
        refine settled_thr h t fun hb => ?_
        obtain ⟨h1, h2⟩ := ht hb
        rw [hb, h.heap] at hy
        have := asc_le h.asc (by omega : j - 1 < j) hy h1
        omega
      · exact settled_thr h t trivial
    · exact settled_thr h t trivial
  · split
    · exact settled_thr h t ht
    · exact settled_thr h t trivial
  · split
    · exact settled_thr h t ht
    · exact settled_thr h t trivial
  · exact settled_write h t (x := .wr2 _ _ _ _) ht ht _
  · exact settled_write h t (x := .cmp _ _ _) trivial ht _
  · split <;> exact settled_thr h t trivial
  · (repeat' split) <;> exact settled_thr h t trivial
  · split <;> exact settled_thr h t trivial
  · exact h

theorem settled_step {has : Str → Str → Bool} {s : State} {a : Nat} {l : List Driver} (h : Settled s a l) (e : Ev) :
    Settled (step has s e) a l := by
  cases e with
  | step t => exact settled_stepT h t
  | update ds => exact ⟨Nat.lt_succ_of_lt h.lt, h.asc, (set_ne _ _ (Nat.ne_of_lt h.lt)).trans h.heap, h.thr⟩
  | choose t =>
    unfold step
    dsimp only
    (repeat' split) <;> first | exact h | exact settled_thr h t trivial
  | find t f =>
    unfold step
    dsimp only
    split <;> first | exact h | exact settled_thr h t trivial
  | list t =>
    unfold step
    dsimp only
    split <;> first | exact h | exact settled_thr h t trivial

theorem settled_fixed {has : Str → Str → Bool} {s : State} {a : Nat} {l : List Driver} (h : Settled s a l) (es : List Ev) :
    Fixed has a l s es ∧ Settled (run has s es) a l := by
  induction es generalizing s with
  | nil => exact ⟨h.heap, h⟩
  | cons e es ih => exact ⟨⟨h.heap, (ih (settled_step h e)).1⟩, (ih (settled_step h e)).2⟩

/-- An answer of `Select` about array `a`, which holds `l`, is right. -/
def ChoseOk (a : Nat) (l : List Driver) : Thread → Prop
  | .chose b r => b = a → (r = none → l = []) ∧ ∀ d, r = some d → Most l d
  | _ => True

theorem most_last {l : List Driver} (h : Asc l) {d : Driver} (hd : l[l.length - 1]? = some d) : Most l d := by
  refine ⟨List.mem_of_getElem? hd, fun e he => ?_⟩
  obtain ⟨k, hk, rfl⟩ := List.mem_iff_getElem.1 he
  by_cases hkl : k = l.length - 1
  · subst hkl
    rw [List.getElem?_eq_getElem hk, Option.some.injEq] at hd
    rw [hd]
  · exact asc_le h (by omega : k < l.length - 1) (List.getElem?_eq_getElem hk) hd

theorem chose_stepT {has : Str → Str → Bool} {s : State} {a : Nat} {l : List Driver} (hs : Settled s a l) {t : Nat}
    (h : ChoseOk a l (s.thr t)) (u : Nat) : ChoseOk a l ((stepT has s u).thr t) := by
  by_cases hu : t = u
  · subst hu
    unfold stepT
    split <;> (repeat' split) <;> (try dsimp only) <;> try rw [set_same]
    all_goals first | trivial | skip
    · rename_i b e o d hd
      intro hb
      subst hb
      rw [hs.heap] at hd
      exact ⟨by simp, fun x hx => by cases hx; exact most_last hs.asc hd⟩
  · have : (stepT has s u).thr t = s.thr t := by
      unfold stepT
      split <;> (repeat' split) <;> first | rfl | exact set_ne _ _ hu
    rw [this]; exact h

theorem chose_step {has : Str → Str → Bool} {s : State} {a : Nat} {l : List Driver} (hs : Settled s a l) {t : Nat}
    (h : ChoseOk a l (s.thr t)) (e : Ev) : ChoseOk a l ((step has s e).thr t) := by
  cases e with
  | step u => exact chose_stepT hs h u
  | update ds => exact h
  | choose u =>
    unfold step
    dsimp only
    by_cases hu : t = u
    · subst hu
      split
      · split
        · rename_i h1
          dsimp only
          rw [set_same]
          exact fun hb => ⟨fun _ => by rw [← hs.heap, ← hb]; exact h1, by simp⟩
        · dsimp only; rw [set_same]; trivial
      · exact h
    · (repeat' split) <;> first | exact h | (dsimp only; rw [set_ne _ _ hu]; exact h)
  | find u f =>
    unfold step
    dsimp only
    by_cases hu : t = u
    · subst hu; split <;> first | exact h | (dsimp only; rw [set_same]; trivial)
    · split <;> first | exact h | (dsimp only; rw [set_ne _ _ hu]; exact h)
  | list u =>
    unfold step
    dsimp only
    by_cases hu : t = u
    · subst hu; split <;> first | exact h | (dsimp only; rw [set_same]; trivial)
    · split <;> first | exact h | (dsimp only; rw [set_ne _ _ hu]; exact h)

theorem chose_run {has : Str → Str → Bool} {s : State} {a : Nat} {l : List Driver} (hs : Settled s a l) {t : Nat}
    (h : ChoseOk a l (s.thr t)) (es : List Ev) : ChoseOk a l ((run has s es).thr t) := by
  induction es generalizing s with
  | nil => exact h
  | cons e es ih => exact ih (settled_step hs e) (chose_step hs h e)

/-! ## One goroutine sorts -/

/-- Insertion sort has ordered the places up to `i`, but for the drive at place `j`, which goes down. -/
def Ord (l : List Driver) (i j : Nat) : Prop :=
  ∀ p q x y, p < q → q ≤ i → q ≠ j → l[p]? = some x → l[q]? = some y → x.free ≤ y.free

/-- `t` alone sorts array `a`, which was built as `o` and holds `l`. -/
def LoneOk (a : Nat) (o l : List Driver) : Thread → Prop
  | .cmp b i j => b = a ∧ l.Perm o ∧ (i < l.length ∨ i = j) ∧ j ≤ i ∧ Ord l i j
  | .cmp2 b i j x => b = a ∧ l.Perm o ∧ i < l.length ∧ j ≤ i ∧ 0 < j ∧ Ord l i j ∧ l[j]? = some x
  | .rd b i j => b = a ∧ l.Perm o ∧ i < l.length ∧ j ≤ i ∧ 0 < j ∧ Ord l i j ∧
      ∃ x y, l[j - 1]? = some x ∧ l[j]? = some y ∧ y.free < x.free
  | .rd2 b i j x => b = a ∧ l.Perm o ∧ i < l.length ∧ j ≤ i ∧ 0 < j ∧ Ord l i j ∧
      ∃ y, l[j - 1]? = some x ∧ l[j]? = some y ∧ y.free < x.free
  | .wr b i j x y => b = a ∧ l.Perm o ∧ i < l.length ∧ j ≤ i ∧ 0 < j ∧ Ord l i j ∧
      l[j - 1]? = some x ∧ l[j]? = some y ∧ y.free < x.free
  | .wr2 b i j y => b = a ∧ ∃ l0 x, l = l0.set j x ∧ l0.Perm o ∧ i < l0.length ∧ j ≤ i ∧ 0 < j ∧ Ord l0 i j ∧
      l0[j - 1]? = some x ∧ l0[j]? = some y ∧ y.free < x.free
  | .last b => b = a ∧ l.Perm o ∧ Asc l
  | _ => False

theorem swap_perm {l : List Driver} {j : Nat} {x y : Driver} (hx : l[j - 1]? = some x) (hy : l[j]? = some y) :
    ((l.set j x).set (j - 1) y).Perm l := by
  obtain ⟨hp, rfl⟩ := List.getElem?_eq_some_iff.1 hx
  obtain ⟨hq, rfl⟩ := List.getElem?_eq_some_iff.1 hy
  exact List.set_set_perm hq hp

theorem swap_ord {l : List Driver} {i j : Nat} {x y : Driver} (hj : 0 < j) (hji : j ≤ i) (h : Ord l i j)
    (hx : l[j - 1]? = some x) (hy : l[j]? = some y) (hlt : y.free < x.free) :
    Ord ((l.set j x).set (j - 1) y) i (j - 1) := by
  have hl : j < l.length := (List.getElem?_eq_some_iff.1 hy).1
  have hget : ∀ k, ((l.set j x).set (j - 1) y)[k]? = if k = j - 1 then some y else if k = j then some x else l[k]? := by
    intro k
    rw [List.getElem?_set, List.getElem?_set, List.length_set]
    by_cases h1 : k = j - 1
    · subst h1; rw [if_pos rfl, if_pos (by omega), if_pos rfl]
    · rw [if_neg (Ne.symm h1), if_neg h1]
      by_cases h2 : k = j
      · subst h2; rw [if_pos rfl, if_pos hl, if_pos rfl]
      · rw [if_neg (Ne.symm h2), if_neg h2]
  intro p q u v hpq hqi hqj hu hv
  rw [hget] at hu hv
  rw [if_neg hqj] at hv
  by_cases hq : q = j
  · subst hq
    rw [if_pos rfl, Option.some.injEq] at hv
    subst hv
    by_cases hp : p = q - 1
    · rw [if_pos hp, Option.some.injEq] at hu
      subst hu; omega
    · rw [if_neg hp, if_neg (by omega)] at hu
      exact h p (q - 1) u x (by omega) (by omega) (by omega) hu hx
  · rw [if_neg hq] at hv
    by_cases hp : p = j - 1
    · subst hp
      rw [if_pos rfl, Option.some.injEq] at hu
      subst hu
      exact h j q y v (by omega) hqi hq hy hv
    · rw [if_neg hp] at hu
      by_cases hp2 : p = j
      · subst hp2
        rw [if_pos rfl, Option.some.injEq] at hu
        subst hu
        exact h (p - 1) q x v (by omega) hqi hq hx hv
      · rw [if_neg hp2] at hu
        exact h p q u v hpq hqi hq hu hv

/-- The drive at place `j` has arrived: the next round begins. -/
theorem ord_next {l : List Driver} {i j : Nat} (h : Ord l i j)
    (hj : j = 0 ∨ ∃ x y, l[j]? = some x ∧ l[j - 1]? = some y ∧ y.free ≤ x.free) : Ord l (i + 1) (i + 1) := by
  intro p q u v hpq hqi hqj hu hv
  by_cases hq : q = j
  · subst hq
    rcases hj with hj | ⟨x, y, hx, hy, hle⟩
    · omega
    · rw [hx, Option.some.injEq] at hv
      subst hv
      by_cases hp : p = q - 1
      · subst hp
        rw [hy, Option.some.injEq] at hu
        subst hu; exact hle
      · exact Nat.le_trans (h p (q - 1) u y (by omega) (by omega) (by omega) hu hy) hle
  · exact h p q u v hpq (by omega) hq hu hv

theorem ord_asc {l : List Driver} {i j : Nat} (h : Ord l i j) (hi : l.length ≤ i) (hj : i = j) : Asc l := by
  refine List.pairwise_iff_getElem.2 fun p q hp hq hpq => ?_
  exact h p q _ _ hpq (by omega) (by omega) (List.getElem?_eq_getElem hp) (List.getElem?_eq_getElem hq)

structure Lone (s : State) (t a : Nat) : Prop where
  lt : a < s.n
  others : ∀ u, u ≠ t → (s.thr u).sorting a = false
  thr : LoneOk a (s.orig a) (s.heap a) (s.thr t)

/-- `t` still sorts alone, or array `a` is sorted and complete. -/
def LoneOrSettled (s : State) (t a : Nat) : Prop :=
  Lone s t a ∨ (∃ l, Settled s a l ∧ l.Perm (s.orig a) ∧ ChoseOk a l (s.thr t))

theorem nosort_settled {s : State} {a : Nat} (hlt : a < s.n) (h : ∀ t, (s.thr t).sorting a = false)
    (hasc : Asc (s.heap a)) : Settled s a (s.heap a) := by
  refine ⟨hlt, hasc, rfl, fun t => ?_⟩
  have := h t
  cases hc : s.thr t <;> rw [hc] at this <;> simp only [Thread.sorting, SetOk, beq_eq_false_iff_ne] at this ⊢ <;>
    first | exact fun hb => absurd hb.symm this | exact Ne.symm this

/-- A step of `t`. -/
theorem lone_stepT {has : Str → Str → Bool} {s : State} {t a : Nat} (h : Lone s t a) :
    LoneOrSettled (stepT has s t) t a := by
  have ht := h.thr
  have hoth : ∀ x : Thread, ∀ u, u ≠ t → (set s.thr t x u).sorting a = false := by
    intro x u hu
    rw [set_ne _ _ hu]; exact h.others u hu
  have key : ∀ x : Thread, LoneOk a (s.orig a) (s.heap a) x → LoneOrSettled { s with thr := set s.thr t x } t a := by
    intro x hx
    refine .inl ⟨h.lt, hoth x, ?_⟩
    show LoneOk a (s.orig a) (s.heap a) (set s.thr t x t)
    rw [set_same]; exact hx
  have keyw : ∀ (b : Nat) (x : Thread) (l : List Driver), b = a → LoneOk a (s.orig a) l x →
      LoneOrSettled { s with heap := set s.heap b l, thr := set s.thr t x } t a := by
    intro b x l hb hx
    subst hb
    refine .inl ⟨h.lt, hoth x, ?_⟩
    show LoneOk b (s.orig b) (set s.heap b l b) (set s.thr t x t)
    rw [set_same, set_same]; exact hx
  unfold stepT
  split
  all_goals (rename_i e; try rw [e] at ht)
  · rename_i b i j
    obtain ⟨rfl, h1, h2, h3, h4⟩ := ht
    split
    · rename_i hi
      exact key _ ⟨rfl, h1, ord_asc h4 hi (by omega)⟩
    · split
      · rename_i hj
        exact key _ ⟨rfl, h1, .inr rfl, Nat.le_refl _, ord_next h4 (.inl hj)⟩
      · split
        · rename_i hx
          exact key _ ⟨rfl, h1, by omega, h3, by omega, h4, hx⟩
        · rename_i hx
          have := List.getElem?_eq_none_iff.1 hx
          omega
  · rename_i b i j x
    obtain ⟨rfl, h1, h2, h3, h4, h5, h6⟩ := ht
    split
    · rename_i y hy
      split
      · rename_i hlt
        exact key _ ⟨rfl, h1, h2, h3, h4, h5, y, x, hy, h6, hlt⟩
      · rename_i hlt
        exact key _ ⟨rfl, h1, .inr rfl, Nat.le_refl _, ord_next h5 (.inr ⟨x, y, h6, hy, by omega⟩)⟩
    · rename_i hx
      have := List.getElem?_eq_none_iff.1 hx
      omega
  · rename_i b i j
    obtain ⟨rfl, h1, h2, h3, h4, h5, x, y, hx, hy, hlt⟩ := ht
    rw [hx]
    exact key _ ⟨rfl, h1, h2, h3, h4, h5, y, hx, hy, hlt⟩
  · rename_i b i j x
    obtain ⟨rfl, h1, h2, h3, h4, h5, y, hx, hy, hlt⟩ := ht
    rw [hy]
    exact key _ ⟨rfl, h1, h2, h3, h4, h5, hx, hy, hlt⟩
  · rename_i b i j x y
    obtain ⟨rfl, h1, h2, h3, h4, h5, hx, hy, hlt⟩ := ht
    exact keyw _ _ _ rfl ⟨rfl, _, x, rfl, h1, h2, h3, h4, h5, hx, hy, hlt⟩
  · rename_i b i j y
    obtain ⟨rfl, l0, x, hl, h1, h2, h3, h4, h5, hx, hy, hlt⟩ := ht
    rw [hl]
    refine keyw _ _ _ rfl ⟨rfl, (swap_perm hx hy).trans h1, .inl ?_, by omega, swap_ord h4 h3 h5 hx hy hlt⟩
    rw [List.length_set, List.length_set]; exact h2
  · rename_i b
    obtain ⟨rfl, h1, h2⟩ := ht
    have hfin : ∀ x : Thread, x.sorting b = false → ChoseOk b (s.heap b) x →
        LoneOrSettled { s with thr := set s.thr t x } t b := by
      intro x hx hc
      refine .inr ⟨s.heap b, nosort_settled (s := { s with thr := set s.thr t x }) h.lt (fun u => ?_) h2, h1, ?_⟩
      · show (set s.thr t x u).sorting b = false
        by_cases hu : u = t
        · subst hu; rw [set_same]; exact hx
        · exact hoth x u hu
      · show ChoseOk b _ (set s.thr t x t)
        rw [set_same]; exact hc
    split
    · rename_i d hd
      exact hfin _ rfl fun _ => ⟨by simp, fun z hz => by cases hz; exact most_last h2 hd⟩
    · exact hfin _ rfl trivial
  · exact ht.elim
  · exact ht.elim
  · exact .inl h

theorem lone_step {has : Str → Str → Bool} {s : State} {t a : Nat} (h : LoneOrSettled s t a) (e : Ev)
    (hq : ∀ u, e = .choose u → s.cur ≠ a) : LoneOrSettled (step has s e) t a := by
  rcases h with h | ⟨l, h1, h2, h3⟩
  · have hoth : ∀ (u : Nat) (x : Thread), u ≠ t → x.sorting a = false →
        Lone { s with thr := set s.thr u x } t a := by
      intro u x hu hx
      refine ⟨h.lt, fun v hv => ?_, ?_⟩
      · show (set s.thr u x v).sorting a = false
        by_cases hvu : v = u
        · subst hvu; rw [set_same]; exact hx
        · rw [set_ne _ _ hvu]; exact h.others v hv
      · show LoneOk a (s.orig a) (s.heap a) (set s.thr u x t)
        rw [set_ne _ _ (Ne.symm hu)]; exact h.thr
    have hbusy : (s.thr t).free = false := by
      have := h.thr
      cases hc : s.thr t <;> rw [hc] at this <;> first | rfl | exact this.elim
    have hne : ∀ u, (s.thr u).free = true → u ≠ t := fun u hu e => by rw [e, hbusy] at hu; cases hu
    cases e with
    | update ds =>
      refine .inl ⟨Nat.lt_succ_of_lt h.lt, h.others, ?_⟩
      show LoneOk a (set s.orig s.n ds a) (set s.heap s.n ds a) (s.thr t)
      rw [set_ne _ _ (Nat.ne_of_lt h.lt), set_ne _ _ (Nat.ne_of_lt h.lt)]
      exact h.thr
    | choose u =>
      have hca := hq u rfl
      unfold step
      dsimp only
      split
      · rename_i hfree
        split
        · exact .inl (hoth u _ (hne u hfree) rfl)
        · exact .inl (hoth u _ (hne u hfree) (by simp only [Thread.sorting, beq_eq_false_iff_ne]; exact Ne.symm hca))
      · exact .inl h
    | find u f =>
      unfold step
      dsimp only
      split
      · rename_i hfree
        exact .inl (hoth u _ (hne u hfree) rfl)
      · exact .inl h
    | list u =>
      unfold step
      dsimp only
      split
      · rename_i hfree
        exact .inl (hoth u _ (hne u hfree) rfl)
      · exact .inl h
    | step u =>
      by_cases hu : u = t
      · subst hu; exact lone_stepT h
      · refine .inl ?_
        show Lone (stepT has s u) t a
        have hsu := h.others u hu
        have hst : (stepT has s u).thr t = s.thr t := by
          unfold stepT
          split <;> (repeat' split) <;> first | rfl | exact set_ne _ _ (Ne.symm hu)
        have hn : (stepT has s u).n = s.n ∧ (stepT has s u).orig = s.orig := by
          unfold stepT
          split <;> (repeat' split) <;> exact ⟨rfl, rfl⟩
        have hne' : ∀ {b : Nat}, (a == b) = false → a ≠ b := fun {b} hb => by simpa using hb
        have hheap : (stepT has s u).heap a = s.heap a := by
          unfold stepT
          split
          all_goals (rename_i e; try rw [e] at hsu)
          all_goals (repeat' split)
          all_goals first
            | rfl
            | exact set_ne _ _ (hne' hsu)
        refine ⟨by rw [hn.1]; exact h.lt, fun v hv => ?_, by rw [hst, hn.2, hheap]; exact h.thr⟩
        by_cases hvu : v = u
        · subst hvu
          unfold stepT
          split
          all_goals (rename_i e; try rw [e] at hsu)
          all_goals (repeat' split)
          all_goals first
            | (dsimp only; rw [set_same]; first | rfl | exact hsu)
            | exact hsu
        · have : (stepT has s u).thr v = s.thr v := by
            unfold stepT
            split <;> (repeat' split) <;> first | rfl | exact set_ne _ _ hvu
          rw [this]; exact h.others v hv
  · refine .inr ⟨l, settled_step h1 e, ?_, chose_step h1 h3 e⟩
    have : (step has s e).orig a = s.orig a := by
      cases e with
      | update ds => exact set_ne _ _ (Nat.ne_of_lt h1.lt)
      | step u =>
        show (stepT has s u).orig a = _
        unfold stepT
        split <;> (repeat' split) <;> rfl
      | choose u => unfold step; dsimp only; (repeat' split) <;> rfl
      | find u f => unfold step; dsimp only; split <;> rfl
      | list u => unfold step; dsimp only; split <;> rfl
    rw [this]; exact h2

theorem lone_run {has : Str → Str → Bool} {s : State} {t a : Nat} (h : LoneOrSettled s t a) {es : List Ev}
    (hq : Quiet has a s es) : LoneOrSettled (run has s es) t a := by
  induction es generalizing s with
  | nil => exact h
  | cons e es ih => exact ih (lone_step h e hq.1) hq.2

/-- The goroutine does something with array `a`, or has answered about it. -/
def Thread.about (a : Nat) : Thread → Bool
  | .idle | .panicked => false
  | .cmp b .. | .cmp2 b .. | .rd b .. | .rd2 b .. | .wr b .. | .wr2 b .. | .last b | .find b .. | .list b ..
  | .chose b .. | .found b .. | .listed b .. => a == b

theorem about_ok {has : Str → Str → Bool} {a : Nat} {x : Thread} (h : x.about a = false) (l : List Driver) :
    ScanOk has a l x ∧ ChoseOk a l x := by
  cases x <;> simp only [Thread.about, beq_eq_false_iff_ne] at h <;>
    first
    | exact ⟨trivial, trivial⟩
    | exact ⟨fun e => absurd e.symm h, trivial⟩
    | exact ⟨trivial, fun e => absurd e.symm h⟩

theorem most_perm {l o : List Driver} (h : l.Perm o) {d : Driver} (hd : Most l d) : Most o d :=
  ⟨h.mem_iff.1 hd.1, fun e he => hd.2 e (h.mem_iff.2 he)⟩

theorem exact_perm {has : Str → Str → Bool} {l o : List Driver} (h : l.Perm o) {f : Str} {r : Option Str}
    (hr : Exact has l f r) : Exact has o f r :=
  ⟨fun mp hmp => ⟨(hr.1 mp hmp).1, let ⟨d, hd, e⟩ := (hr.1 mp hmp).2; ⟨d, h.mem_iff.1 hd, e⟩⟩,
    fun hn d hd => hr.2 hn d (h.mem_iff.2 hd)⟩

theorem orig_run {has : Str → Str → Bool} {s : State} {a : Nat} (h : a < s.n) (es : List Ev) :
    (run has s es).orig a = s.orig a := by
  have one : ∀ (s : State) (e : Ev), a < s.n → (step has s e).orig a = s.orig a ∧ a < (step has s e).n := by
    intro s e h
    cases e with
    | update ds => exact ⟨set_ne _ _ (Nat.ne_of_lt h), Nat.lt_succ_of_lt h⟩
    | step u =>
      show (stepT has s u).orig a = _ ∧ a < (stepT has s u).n
      unfold stepT
      split <;> (repeat' split) <;> exact ⟨rfl, h⟩
    | choose u => unfold step; dsimp only; (repeat' split) <;> exact ⟨rfl, h⟩
    | find u f => unfold step; dsimp only; split <;> exact ⟨rfl, h⟩
    | list u => unfold step; dsimp only; split <;> exact ⟨rfl, h⟩
  induction es generalizing s with
  | nil => rfl
  | cons e es ih => exact (ih (one s e h).2).trans (one s e h).1

/-- **C122** (selections, partial): let goroutine `t` choose from the table while nobody else does, the table
being complete.  When it is done it has chosen a drive with the most free space, and from then on, until the next
update and for those who keep the table beyond it, any number of selections, searches and listings may
overlap: every one that begins then is right.

Missing: selections that overlap with the first one after an update (`C122_drive_lost`, `C122_wrong_choice`) and
searches that overlap with it (`C122_search_misses`). -/
theorem C122_settled_partial (has : Str → Str → Bool) (xs ys zs : List Ev) (t : Nat) {a : Nat}
    (ha : (run has init xs).cur = a) (hfree : ((run has init xs).thr t).free = true)
    (hall : ((run has init xs).heap a).Perm ((run has init xs).orig a))
    (hno : ∀ u, ((run has init xs).thr u).sorting a = false)
    (hq : Quiet has a (run has init (xs ++ [.choose t])) ys)
    (hdone : ((run has init (xs ++ .choose t :: ys)).thr t).sorting a = false) :
    let s1 := run has init (xs ++ .choose t :: ys)
    let s2 := run has s1 zs
    let ds := (run has init xs).orig a
    (∀ r, s1.thr t = .chose a r → (r = none → ds = []) ∧ ∀ d, r = some d → Most ds d) ∧
    (s2.heap a).Perm ds ∧
    ∀ u, (s1.thr u).about a = false →
      (∀ r, s2.thr u = .chose a r → (r = none → ds = []) ∧ ∀ d, r = some d → Most ds d) ∧
      (∀ f r, s2.thr u = .found a f r → Exact has ds f r) ∧
      (∀ l, s2.thr u = .listed a l → l.Perm (ds.map Driver.mount)) := by
  have hinv := inv_run (inv_init has) xs
  have hrun : run has init (xs ++ .choose t :: ys) = run has (run has init (xs ++ [.choose t])) ys := by
    rw [run_append, run_append]; rfl
  have h1 : run has init (xs ++ [.choose t]) = step has (run has init xs) (.choose t) := by
    rw [run_append]; rfl
  dsimp only
  rw [hrun] at hdone ⊢
  rw [h1] at hq hdone ⊢
  generalize run has init xs = s at *
  have hlt : a < s.n := ha ▸ hinv.cur
  have hb : LoneOrSettled (step has s (.choose t)) t a := by
    unfold step
    dsimp only
    rw [if_pos hfree, ha]
    split
    · rename_i h0
      refine .inr ⟨[], ⟨hlt, List.Pairwise.nil, h0, fun u => ?_⟩, h0 ▸ hall, ?_⟩
      · show SetOk a [] (set s.thr t (.chose a none) u)
        by_cases hu : u = t
        · subst hu; rw [set_same]; trivial
        · rw [set_ne _ _ hu]
          have := nosort_settled hlt hno (by rw [h0]; exact List.Pairwise.nil)
          rw [h0] at this
          exact this.thr u
      · show ChoseOk a [] (set s.thr t (.chose a none) t)
        rw [set_same]
        exact fun _ => ⟨fun _ => rfl, by simp⟩
    · refine .inl ⟨hlt, fun u hu => ?_, ?_⟩
      · show (set s.thr t _ u).sorting a = false
        rw [set_ne _ _ hu]; exact hno u
      · show LoneOk a (s.orig a) (s.heap a) (set s.thr t (.cmp a 1 1) t)
        rw [set_same]
        exact ⟨rfl, hall, .inr rfl, Nat.le_refl _, fun p q x y hpq h1 h2 => absurd h1 (by omega)⟩
  have ho1 : (run has (step has s (.choose t)) ys).orig a = s.orig a := orig_run (es := .choose t :: ys) hlt
  have hl := lone_run hb hq
  generalize run has (step has s (.choose t)) ys = s1 at *
  rcases hl with hl | ⟨l, g1, g2, g3⟩
  · have := hl.thr
    cases hc : s1.thr t <;> rw [hc] at this hdone <;> simp only [LoneOk] at this <;>
      simp [Thread.sorting, this.1] at hdone
  · rw [ho1] at g2
    obtain ⟨gf, gs⟩ := settled_fixed (has := has) g1 zs
    have right : ∀ r, ((r = none → l = []) ∧ ∀ d, r = some d → Most l d) →
        ((r = none → s.orig a = []) ∧ ∀ d, r = some d → Most (s.orig a) d) :=
      fun r h => ⟨fun e => by have := h.1 e; rw [this] at g2; exact List.Perm.nil_eq g2 |>.symm,
        fun d hd => most_perm g2 (h.2 d hd)⟩
    refine ⟨fun r hr => ?_, gs.heap ▸ g2, fun u hu => ?_⟩
    · rw [hr] at g3
      exact right r (g3 rfl)
    · obtain ⟨k1, k2⟩ := about_ok (has := has) hu l
      have c1 := scan_fixed gf k1
      have c2 := chose_run (has := has) g1 k2 zs
      refine ⟨fun r hr => ?_, fun f r hr => ?_, fun m hm => ?_⟩
      · rw [hr] at c2; exact right r (c2 rfl)
      · rw [hr] at c1; exact exact_perm g2 (c1 rfl)
      · rw [hm] at c1; rw [c1 rfl]; exact g2.map _

/-! ## What overlapping requests break -/

/-- Two drives; the first one has more free space. -/
def exA : Driver := ⟨"/a".toList, 90, 100⟩
def exB : Driver := ⟨"/b".toList, 10, 100⟩

/-- A file on drive `/b`. -/
def exHas : Str → Str → Bool := fun f mp => decide (f = "x".toList ∧ mp = "/b".toList)

example : (run exHas init ([.update [exA, exB], .choose 1] ++ List.replicate 12 (.step 1))).thr 1 = .chose 1 (some exA) := by
  decide

example : (run exHas init ([.update [exA, exB], .choose 1] ++ List.replicate 12 (.step 1) ++
    [.find 2 "x".toList, .choose 1, .step 2, .step 1, .step 1, .step 2, .step 2])).thr 2 = .found 1 "x".toList (some "/b".toList) := by
  decide

/-- The hypothesis of `C122_updated_partial`, with a selection from an older table under way. -/
example : Quiet exHas (run exHas init [.update [exB], .choose 1]).n (run exHas init ([.update [exB], .choose 1] ++ [.update [exA, exB]]))
    [.find 2 "x".toList, .step 1, .step 2, .step 1, .step 2] ∧
    (run exHas init ([.update [exB], .choose 1] ++ .update [exA, exB] ::
      [.find 2 "x".toList, .step 1, .step 2, .step 1, .step 2])).thr 2 = .found 2 "x".toList (some "/b".toList) := by
  refine ⟨?_, by decide⟩
  simp [Quiet]

/-- The hypotheses of `C122_settled_partial`. -/
example : (run exHas init [.update [exA, exB]]).cur = 1 ∧ ((run exHas init [.update [exA, exB]]).thr 1).free = true ∧
    (run exHas init [.update [exA, exB]]).heap 1 = (run exHas init [.update [exA, exB]]).orig 1 ∧
    (∀ u, ((run exHas init [.update [exA, exB]]).thr u).sorting 1 = false) ∧
    Quiet exHas 1 (run exHas init ([.update [exA, exB]] ++ [.choose 1])) (List.replicate 12 (.step 1)) ∧
    ((run exHas init ([.update [exA, exB]] ++ .choose 1 :: List.replicate 12 (.step 1))).thr 1).sorting 1 = false := by
  refine ⟨by decide, by decide, by decide, fun _ => rfl, ?_, by decide⟩
  simp [Quiet, List.replicate]

/-- **C122** (finding): a search that overlaps with one selection does not find a file that is on an
allowed drive all the time: it looks at `/a` in the first place, the selection exchanges the drives, and it looks at `/a`
again in the second place.  `FindRealStoragePath` then reports that the shard does not exist. -/
theorem C122_search_misses :
    let s := run exHas init ([.update [exA, exB], .choose 1] ++ List.replicate 4 (.step 1) ++
      [.find 2 "x".toList, .step 2] ++ List.replicate 2 (.step 1) ++ [.step 2, .step 2])
    s.thr 2 = .found 1 "x".toList none ∧ exB ∈ s.orig 1 ∧ exHas "x".toList exB.mount = true := by decide

/-- **C122** (finding): in the same way a listing has one drive twice and another one not at all; a data server
that leaves the cluster does not send the shards of the drive that is missing. -/
theorem C122_listing_misses :
    let s := run exHas init ([.update [exA, exB], .choose 1] ++ List.replicate 4 (.step 1) ++
      [.list 2, .step 2] ++ List.replicate 2 (.step 1) ++ [.step 2, .step 2])
    s.thr 2 = .listed 1 ["/a".toList, "/a".toList] := by decide

/-- The events of `C122_drive_lost`: both selections find the two drives in the wrong order; the second one reads
them while the first one has written one place only. -/
def lost : List Ev :=
  [.update [exA, exB], .choose 1, .choose 2] ++ List.replicate 2 (.step 1) ++ List.replicate 2 (.step 2) ++
    List.replicate 3 (.step 1) ++ [.step 2, .step 2] ++ List.replicate 5 (.step 1) ++ List.replicate 6 (.step 2)

/-- **C122** (finding): two selections that overlap lose a drive from the table: both are done, and the table has drive `/a`
twice and `/b` no more. -/
theorem C122_drive_lost :
    let s := run exHas init lost
    ((s.thr 1).free = true ∧ (s.thr 2).free = true) ∧ s.orig 1 = [exA, exB] ∧ s.heap 1 = [exA, exA] := by decide

/-- **C122** (finding): and the drive stays lost: whatever selections, searches and listings follow, no search on this
table finds the file on `/b`, and no listing has `/b`, until the next update, which is up to a minute later. -/
theorem C122_stays_lost (zs : List Ev) (u : Nat) (hu : u ≠ 1 ∧ u ≠ 2) :
    let s := run exHas (run exHas init lost) zs
    s.heap 1 = [exA, exA] ∧ (∀ r, s.thr u = .found 1 "x".toList r → r = none) ∧
      (∀ l, s.thr u = .listed 1 l → l = ["/a".toList, "/a".toList]) := by
  have h1 : (run exHas init lost).thr 1 = .chose 1 (some exA) := by decide
  have h2 : (run exHas init lost).thr 2 = .chose 1 (some exA) := by decide
  have hh : (run exHas init lost).heap 1 = [exA, exA] := by decide
  have hn : (run exHas init lost).n = 2 := by decide
  have hi : ∀ v, v ≠ 1 → v ≠ 2 → (run exHas init lost).thr v = .idle := by
    have hof : ∀ (es : List Ev) (s : State) (v : Nat), v ≠ 1 → v ≠ 2 →
        (∀ e ∈ es, e ∈ [Ev.update [exA, exB], .choose 1, .choose 2, .step 1, .step 2]) →
        s.thr v = .idle → (run exHas s es).thr v = .idle := by
      intro es
      induction es with
      | nil => exact fun s v _ _ _ h => h
      | cons e es ih =>
        intro s v v1 v2 he h
        refine ih _ v v1 v2 (fun x hx => he x (List.mem_cons_of_mem _ hx)) ?_
        have := he e List.mem_cons_self
        simp only [List.mem_cons, List.not_mem_nil, or_false] at this
        have hst : ∀ w, v ≠ w → (stepT exHas s w).thr v = .idle := by
          intro w hw
          unfold stepT
          split <;> (repeat' split) <;> first | exact h | exact (set_ne _ _ hw).trans h
        rcases this with rfl | rfl | rfl | rfl | rfl
        · exact h
        · unfold step; dsimp only; (repeat' split) <;> first | exact h | exact (set_ne _ _ v1).trans h
        · unfold step; dsimp only; (repeat' split) <;> first | exact h | exact (set_ne _ _ v2).trans h
        · exact hst 1 v1
        · exact hst 2 v2
    exact fun v v1 v2 => hof lost init v v1 v2 (by decide) rfl
  have hu0 := hi u hu.1 hu.2
  generalize run exHas init lost = s0 at *
  have hset : Settled s0 1 [exA, exA] := by
    rw [← hh]
    refine nosort_settled (by omega) (fun v => ?_) (by rw [hh]; simp [Asc])
    by_cases v1 : v = 1
    · subst v1; rw [h1]; rfl
    · by_cases v2 : v = 2
      · subst v2; rw [h2]; rfl
      · rw [hi v v1 v2]; rfl
  obtain ⟨gf, gs⟩ := settled_fixed (has := exHas) hset zs
  have sc := scan_fixed gf (t := u) (by rw [hu0]; trivial)
  refine ⟨gs.heap, fun r hr => ?_, fun l hl => ?_⟩
  · rw [hr] at sc
    cases r with
    | none => rfl
    | some mp =>
      obtain ⟨k1, d, k2, k3⟩ := (sc rfl).1 mp rfl
      have hd : d = exA := by simpa using k2
      subst hd
      subst k3
      revert k1
      decide
  · rw [hl] at sc
    exact sc rfl

/-- **C122** (finding): two selections that overlap, and the second one chooses the drive with the *least* free
space: both have found the drives in the wrong order, and both exchange them. -/
theorem C122_wrong_choice :
    let s := run exHas init ([.update [exA, exB], .choose 1, .choose 2] ++ List.replicate 2 (.step 1) ++
      List.replicate 2 (.step 2) ++ List.replicate 6 (.step 1) ++ List.replicate 7 (.step 2))
    s.thr 2 = .chose 1 (some exB) ∧ s.heap 1 = [exA, exB] := by decide

/-- **C122**: the statement for all overlapping requests fails. -/
theorem C122_statement_fails :
    (¬ ∀ (has : Str → Str → Bool) (es : List Ev) (t a : Nat) (f : Str) (r : Option Str),
        (run has init es).thr t = .found a f r → Exact has ((run has init es).orig a) f r) ∧
    (¬ ∀ (has : Str → Str → Bool) (es : List Ev) (t a : Nat) (d : Driver),
        (run has init es).thr t = .chose a (some d) → Most ((run has init es).orig a) d) := by
  constructor
  · intro h
    have := (h exHas _ 2 1 "x".toList none C122_search_misses.1).2 rfl exB C122_search_misses.2.1
    rw [C122_search_misses.2.2] at this
    cases this
  · intro h
    have hm : exA ∈ (run exHas init ([.update [exA, exB], .choose 1, .choose 2] ++ List.replicate 2 (.step 1) ++
      List.replicate 2 (.step 2) ++ List.replicate 6 (.step 1) ++ List.replicate 7 (.step 2))).orig 1 := by decide
    have := (h exHas _ 2 1 exB C122_wrong_choice.1).2 exA hm
    revert this
    decide

end Verif.DriveRace
