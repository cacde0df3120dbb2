/-!
# Maps that several goroutines use (C123)

The Go runtime ends the process with a fatal error, which no `recover` catches, when it sees a map written while
another goroutine reads or writes it.  This file models goroutines by the order in which they take locks and use
maps.

* A goroutine executes an operation, a `Prog`.  Using a map has a beginning and an end; other goroutines may
  take any number of steps in between.
* `race x` becomes true when a goroutine begins to write map `x` while another one reads or writes it, or begins
  to read it while another one writes it.  (The runtime detects most but not all of these; what is not
  detected is a data race.)
* Simplified: the contents of the maps and all other computation are left out; where the path of a function
  depends on them every path is an operation of its own.  `len(m)` is not counted as a use.  A `sync.RWMutex`
  lets readers pass writers that wait.
-/

namespace Verif.Maps

/-- What a goroutine does to locks and maps, which have numbers. -/
inductive Act
  | lock (m : Nat)
  | unlock (m : Nat)
  | rlock (m : Nat)
  | runlock (m : Nat)
  | readB (x : Nat)
  | readE (x : Nat)
  | writeB (x : Nat)
  | writeE (x : Nat)
  deriving DecidableEq

/-- An operation.  `tryLock m ok fail` goes on with `ok` when it gets the lock, otherwise with `fail`. -/
inductive Prog
  | done
  | act (a : Act) (p : Prog)
  | tryLock (m : Nat) (ok fail : Prog)
  deriving DecidableEq

/-- `t` does some actions first. -/
def seq : List Act → Prog → Prog
  | [], p => p
  | a :: as, p => .act a (seq as p)

/-- Replaces the value of `f` at `k`. -/
def set {α : Type} (f : Nat → α) (k : Nat) (v : α) : Nat → α := fun x => if x = k then v else f x

/-- The goroutines and what they hold: `ex m` has lock `m`, `sh m` have it for reading; `rd x` and `wr x` are in the
middle of reading and writing map `x`. -/
structure State where
  rest : Nat → Prog
  ex : Nat → Option Nat
  sh : Nat → List Nat
  rd : Nat → List Nat
  wr : Nat → List Nat
  /-- map `x` was written by one goroutine while another one read it -/
  rw : Nat → Bool
  /-- map `x` was written by two goroutines at once -/
  ww : Nat → Bool

def init : State := ⟨fun _ => .done, fun _ => none, fun _ => [], fun _ => [], fun _ => [], fun _ => false, fun _ => false⟩

/-- `call t p`: goroutine `t`, if it is idle, begins operation `p`; `step t`: it takes the next step, if it is not
waiting for a lock. -/
inductive Ev
  | call (t : Nat) (p : Prog)
  | step (t : Nat)
  deriving DecidableEq

/-- One action of goroutine `t`, which then has `p` left to do. -/
def act (s : State) (t : Nat) (p : Prog) : Act → State
  | .lock m => if s.ex m = none ∧ s.sh m = [] then { s with ex := set s.ex m (some t), rest := set s.rest t p } else s
  | .unlock m => { s with ex := set s.ex m none, rest := set s.rest t p }
  | .rlock m => if s.ex m = none then { s with sh := set s.sh m (t :: s.sh m), rest := set s.rest t p } else s
  | .runlock m => { s with sh := set s.sh m ((s.sh m).filter (· ≠ t)), rest := set s.rest t p }
  | .readB x => { s with
      rd := set s.rd x (t :: s.rd x), rest := set s.rest t p
      rw := if s.wr x = [] then s.rw else set s.rw x true }
  | .readE x => { s with rd := set s.rd x ((s.rd x).filter (· ≠ t)), rest := set s.rest t p }
  | .writeB x => { s with
      wr := set s.wr x (t :: s.wr x), rest := set s.rest t p
      rw := if s.rd x = [] then s.rw else set s.rw x true
      ww := if s.wr x = [] then s.ww else set s.ww x true }
  | .writeE x => { s with wr := set s.wr x ((s.wr x).filter (· ≠ t)), rest := set s.rest t p }

/-- One event. -/
def step (s : State) : Ev → State
  | .call t p => if s.rest t = .done then { s with rest := set s.rest t p } else s
  | .step t =>
    match s.rest t with
    | .done => s
    | .act a p => act s t p a
    | .tryLock m ok fail =>
      if s.ex m = none ∧ s.sh m = [] then { s with ex := set s.ex m (some t), rest := set s.rest t ok }
      else { s with rest := set s.rest t fail }

/-- A history. -/
def run (s : State) (es : List Ev) : State := es.foldl step s

/-! ## The discipline -/

/-- How a goroutine holds the lock, and how it uses the map. -/
inductive Held | no | shared | full
  deriving DecidableEq
inductive Use | no | read | write
  deriving DecidableEq

/-- The operation uses map `x` under lock `m`: it writes only while it has the lock, and, with `reads`, reads only while
it has it at least for reading; it gives back what it took.  `h` and `u` say what it holds at the beginning. -/
def Guarded (reads : Bool) (m x : Nat) : Prog → Held → Use → Prop
  | .done, h, u => h = .no ∧ u = .no
  | .act a p, h, u =>
    match a with
    | .lock m' => if m' = m then h = .no ∧ Guarded reads m x p .full u else Guarded reads m x p h u
    | .unlock m' => if m' = m then h = .full ∧ u ≠ .write ∧ (reads = true → u = .no) ∧ Guarded reads m x p .no u else Guarded reads m x p h u
    | .rlock m' => if m' = m then h = .no ∧ Guarded reads m x p .shared u else Guarded reads m x p h u
    | .runlock m' => if m' = m then h = .shared ∧ (reads = true → u = .no) ∧ Guarded reads m x p .no u else Guarded reads m x p h u
    | .readB x' => if x' = x then u = .no ∧ (reads = true → h ≠ .no) ∧ Guarded reads m x p h .read else Guarded reads m x p h u
    | .readE x' => if x' = x then u = .read ∧ Guarded reads m x p h .no else Guarded reads m x p h u
    | .writeB x' => if x' = x then u = .no ∧ h = .full ∧ Guarded reads m x p h .write else Guarded reads m x p h u
    | .writeE x' => if x' = x then u = .write ∧ Guarded reads m x p h .no else Guarded reads m x p h u
  | .tryLock m' ok fail, h, u =>
    if m' = m then h = .no ∧ Guarded reads m x ok .full u ∧ Guarded reads m x fail .no u
    else Guarded reads m x ok h u ∧ Guarded reads m x fail h u

instance guardedDec (reads : Bool) (m x : Nat) : ∀ p h u, Decidable (Guarded reads m x p h u)
  | .done, _, _ => by unfold Guarded; exact inferInstance
  | .act a p, h, u => by
    have i : ∀ h u, Decidable (Guarded reads m x p h u) := guardedDec reads m x p
    cases a <;> unfold Guarded <;> dsimp only <;> exact inferInstance
  | .tryLock _ ok fail, h, u => by
    have i : ∀ h u, Decidable (Guarded reads m x ok h u) := guardedDec reads m x ok
    have j : ∀ h u, Decidable (Guarded reads m x fail h u) := guardedDec reads m x fail
    unfold Guarded; exact inferInstance

@[simp] theorem set_same {α : Type} (f : Nat → α) (k : Nat) (v : α) : set f k v k = v := if_pos rfl
theorem set_ne {α : Type} (f : Nat → α) {k x : Nat} (v : α) (h : x ≠ k) : set f k v x = f x := if_neg h

/-- What goroutine `t` holds, seen from the locks and the maps. -/
structure Agrees (reads : Bool) (s : State) (m x t : Nat) (h : Held) (u : Use) : Prop where
  prog : Guarded reads m x (s.rest t) h u
  full : h = .full ↔ s.ex m = some t
  shared : h = .shared ↔ t ∈ s.sh m
  read : u = .read ↔ t ∈ s.rd x
  write : u = .write ↔ t ∈ s.wr x
  wlock : u = .write → h = .full
  rlock : reads = true → u = .read → h ≠ .no

structure Inv (reads : Bool) (s : State) (m x : Nat) : Prop where
  thr : ∀ t, ∃ h u, Agrees reads s m x t h u
  excl : ∀ t, s.ex m = some t → s.sh m = []
  ww : s.ww x = false
  rw : reads = true → s.rw x = false

theorem inv_init (reads : Bool) (m x : Nat) : Inv reads init m x :=
  ⟨fun _ => ⟨.no, .no, ⟨rfl, rfl⟩, by simp [init], by simp [init], by simp [init], by simp [init], by simp, by simp⟩,
    by simp [init], rfl, fun _ => rfl⟩

/-- Other goroutines are not concerned by a step that leaves the lock and the map of them as they are. -/
theorem agrees_other {reads : Bool} {s s' : State} {m x t : Nat} {h : Held} {u : Use} (ha : Agrees reads s m x t h u)
    (h0 : s'.rest t = s.rest t) (h1 : s'.ex m = some t ↔ s.ex m = some t) (h2 : t ∈ s'.sh m ↔ t ∈ s.sh m)
    (h3 : t ∈ s'.rd x ↔ t ∈ s.rd x) (h4 : t ∈ s'.wr x ↔ t ∈ s.wr x) : Agrees reads s' m x t h u :=
  ⟨by rw [h0]; exact ha.prog, ha.full.trans h1.symm, ha.shared.trans h2.symm, ha.read.trans h3.symm,
    ha.write.trans h4.symm, ha.wlock, ha.rlock⟩

theorem no_writer {reads : Bool} {s : State} {m x t : Nat} (hi : Inv reads s m x) {h : Held} {u : Use}
    (ha : Agrees reads s m x t h u) (hh : h ≠ .no) (hu : u ≠ .write) : s.wr x = [] := by
  refine List.eq_nil_iff_forall_not_mem.2 fun v hv => ?_
  obtain ⟨h', u', hv'⟩ := hi.thr v
  have e1 := hv'.full.1 (hv'.wlock (hv'.write.2 hv))
  cases h with
  | no => exact hh rfl
  | full =>
    have := ha.full.1 rfl
    rw [this] at e1
    cases e1
    exact hu (ha.write.2 hv)
  | shared =>
    have := ha.shared.1 rfl
    rw [hi.excl v e1] at this
    cases this

theorem no_reader {s : State} {m x t : Nat} (hi : Inv true s m x) {u : Use}
    (ha : Agrees true s m x t .full u) (hu : u ≠ .read) : s.rd x = [] := by
  refine List.eq_nil_iff_forall_not_mem.2 fun v hv => ?_
  obtain ⟨h', u', hv'⟩ := hi.thr v
  have e1 := ha.full.1 rfl
  have e2 := hv'.rlock rfl (hv'.read.2 hv)
  cases h' with
  | no => exact e2 rfl
  | full =>
    have := hv'.full.1 rfl
    rw [this] at e1
    cases e1
    exact hu (ha.read.2 hv)
  | shared =>
    have := hv'.shared.1 rfl
    rw [hi.excl t e1] at this
    cases this

theorem mem_filter_ne {l : List Nat} {t v : Nat} : v ∈ l.filter (· ≠ t) ↔ v ∈ l ∧ v ≠ t := by
  simp [List.mem_filter]

theorem inv_act {reads : Bool} {s : State} {m x : Nat} (hi : Inv reads s m x) {t : Nat} {a : Act} {p : Prog}
    (hr : s.rest t = .act a p) : Inv reads (act s t p a) m x := by
  obtain ⟨h, u, ha⟩ := hi.thr t
  have hg := ha.prog
  rw [hr] at hg
  cases a with
  | lock m' =>
    unfold act
    dsimp only
    split
    · rename_i hfree
      by_cases hm : m' = m
      · subst hm
        simp only [Guarded, ↓reduceIte] at hg
        obtain ⟨rfl, hg⟩ := hg
        refine ⟨fun v => ?_, fun v hv => hfree.2, hi.ww, hi.rw⟩
        by_cases hv : v = t
        · subst hv
          refine ⟨.full, u, by simpa using hg, by simp, by simp [hfree.2], ha.read, ha.write, fun _ => rfl, by simp⟩
        · obtain ⟨h', u', hv'⟩ := hi.thr v
          exact ⟨h', u', agrees_other hv' (set_ne _ _ hv) (by simp [hfree.1]; exact fun e => hv e.symm) .rfl .rfl .rfl⟩
      · simp only [Guarded, hm, ↓reduceIte] at hg
        have e : set s.ex m' (some t) m = s.ex m := set_ne _ _ (Ne.symm hm)
        refine ⟨fun v => ?_, fun v hv => hi.excl v (by dsimp only at hv; rw [← e]; exact hv), hi.ww, hi.rw⟩
        by_cases hv : v = t
        · subst hv
          exact ⟨h, u, by simpa using hg, by dsimp only; rw [e]; exact ha.full, ha.shared, ha.read, ha.write, ha.wlock, ha.rlock⟩
        · obtain ⟨h', u', hv'⟩ := hi.thr v
          exact ⟨h', u', agrees_other hv' (set_ne _ _ hv) (by dsimp only; rw [e]) .rfl .rfl .rfl⟩
    · exact hi
  | unlock m' =>
    unfold act
    dsimp only
    by_cases hm : m' = m
    · subst hm
      simp only [Guarded, ↓reduceIte] at hg
      obtain ⟨rfl, hu, hu2, hg⟩ := hg
      have hex := ha.full.1 rfl
      refine ⟨fun v => ?_, fun v hv => by simp at hv, hi.ww, hi.rw⟩
      by_cases hv : v = t
      · subst hv
        refine ⟨.no, u, by simpa using hg, by simp, ?_, ha.read, ha.write, fun e => absurd e hu,
          fun e1 e2 => by rw [hu2 e1] at e2; cases e2⟩
        have := hi.excl v hex
        simp [this]
      · obtain ⟨h', u', hv'⟩ := hi.thr v
        exact ⟨h', u', agrees_other hv' (set_ne _ _ hv) (by simp [hex]; exact fun e => hv e.symm) .rfl .rfl .rfl⟩
    · simp only [Guarded, hm, ↓reduceIte] at hg
      have e : set s.ex m' none m = s.ex m := set_ne _ _ (Ne.symm hm)
      refine ⟨fun v => ?_, fun v hv => hi.excl v (by dsimp only at hv; rw [← e]; exact hv), hi.ww, hi.rw⟩
      by_cases hv : v = t
      · subst hv
        exact ⟨h, u, by simpa using hg, by dsimp only; rw [e]; exact ha.full, ha.shared, ha.read, ha.write, ha.wlock, ha.rlock⟩
      · obtain ⟨h', u', hv'⟩ := hi.thr v
        exact ⟨h', u', agrees_other hv' (set_ne _ _ hv) (by dsimp only; rw [e]) .rfl .rfl .rfl⟩
  | rlock m' =>
    unfold act
    dsimp only
    split
    · rename_i hfree
      by_cases hm : m' = m
      · subst hm
        simp only [Guarded, ↓reduceIte] at hg
        obtain ⟨rfl, hg⟩ := hg
        refine ⟨fun v => ?_, fun v hv => by simp [hfree] at hv, hi.ww, hi.rw⟩
        by_cases hv : v = t
        · subst hv
          refine ⟨.shared, u, by simpa using hg, by simp [hfree], by simp, ha.read, ha.write, fun e => ?_, by simp⟩
          have := ha.wlock e
          cases this
        · obtain ⟨h', u', hv'⟩ := hi.thr v
          exact ⟨h', u', agrees_other hv' (set_ne _ _ hv) .rfl (by simp [hv]) .rfl .rfl⟩
      · simp only [Guarded, hm, ↓reduceIte] at hg
        have e : set s.sh m' (t :: s.sh m') m = s.sh m := set_ne _ _ (Ne.symm hm)
        refine ⟨fun v => ?_, fun v hv => by dsimp only; rw [e]; exact hi.excl v hv, hi.ww, hi.rw⟩
        by_cases hv : v = t
        · subst hv
          exact ⟨h, u, by simpa using hg, ha.full, by dsimp only; rw [e]; exact ha.shared, ha.read, ha.write, ha.wlock, ha.rlock⟩
        · obtain ⟨h', u', hv'⟩ := hi.thr v
          exact ⟨h', u', agrees_other hv' (set_ne _ _ hv) .rfl (by dsimp only; rw [e]) .rfl .rfl⟩
    · exact hi
  | runlock m' =>
    unfold act
    dsimp only
    by_cases hm : m' = m
    · subst hm
      simp only [Guarded, ↓reduceIte] at hg
      obtain ⟨rfl, hu2, hg⟩ := hg
      have hsh := ha.shared.1 rfl
      refine ⟨fun v => ?_, fun v hv => (by rw [hi.excl v hv] at hsh; cases hsh), hi.ww, hi.rw⟩
      by_cases hv : v = t
      · subst hv
        refine ⟨.no, u, by simpa using hg, ?_, by simp, ha.read, ha.write, fun e => ?_,
          fun e1 e2 => by rw [hu2 e1] at e2; cases e2⟩
        · have := ha.full
          simp only [reduceCtorEq, false_iff] at this ⊢
          exact this
        · have := ha.wlock e
          cases this
      · obtain ⟨h', u', hv'⟩ := hi.thr v
        exact ⟨h', u', agrees_other hv' (set_ne _ _ hv) .rfl (by simp [hv]) .rfl .rfl⟩
    · simp only [Guarded, hm, ↓reduceIte] at hg
      have e : set s.sh m' ((s.sh m').filter (· ≠ t)) m = s.sh m := set_ne _ _ (Ne.symm hm)
      refine ⟨fun v => ?_, fun v hv => by dsimp only; rw [e]; exact hi.excl v hv, hi.ww, hi.rw⟩
      by_cases hv : v = t
      · subst hv
        exact ⟨h, u, by simpa using hg, ha.full, by dsimp only; rw [e]; exact ha.shared, ha.read, ha.write, ha.wlock, ha.rlock⟩
      · obtain ⟨h', u', hv'⟩ := hi.thr v
        exact ⟨h', u', agrees_other hv' (set_ne _ _ hv) .rfl (by dsimp only; rw [e]) .rfl .rfl⟩
  | readB x' =>
    unfold act
    dsimp only
    by_cases hx : x' = x
    · subst hx
      simp only [Guarded, ↓reduceIte] at hg
      obtain ⟨rfl, hh, hg⟩ := hg
      refine ⟨fun v => ?_, hi.excl, hi.ww, fun hrd => ?_⟩
      · by_cases hv : v = t
        · subst hv
          refine ⟨h, .read, by simpa using hg, ha.full, ha.shared, by simp, ?_, by simp, fun e _ => hh e⟩
          have := ha.write
          simp only [reduceCtorEq, false_iff] at this ⊢
          exact this
        · obtain ⟨h', u', hv'⟩ := hi.thr v
          exact ⟨h', u', agrees_other hv' (set_ne _ _ hv) .rfl .rfl (by simp [hv]) .rfl⟩
      · show (if s.wr x' = [] then s.rw else set s.rw x' true) x' = false
        rw [if_pos (no_writer hi ha (hh hrd) (by simp))]
        exact hi.rw hrd
    · simp only [Guarded, hx, ↓reduceIte] at hg
      have e : set s.rd x' (t :: s.rd x') x = s.rd x := set_ne _ _ (Ne.symm hx)
      refine ⟨fun v => ?_, hi.excl, hi.ww, fun hrd => ?_⟩
      · by_cases hv : v = t
        · subst hv
          exact ⟨h, u, by simpa using hg, ha.full, ha.shared, by dsimp only; rw [e]; exact ha.read, ha.write, ha.wlock, ha.rlock⟩
        · obtain ⟨h', u', hv'⟩ := hi.thr v
          exact ⟨h', u', agrees_other hv' (set_ne _ _ hv) .rfl .rfl (by dsimp only; rw [e]) .rfl⟩
      · show (if s.wr x' = [] then s.rw else set s.rw x' true) x = false
        split
        · exact hi.rw hrd
        · rw [set_ne _ _ (Ne.symm hx)]; exact hi.rw hrd
  | readE x' =>
    unfold act
    dsimp only
    by_cases hx : x' = x
    · subst hx
      simp only [Guarded, ↓reduceIte] at hg
      obtain ⟨rfl, hg⟩ := hg
      refine ⟨fun v => ?_, hi.excl, hi.ww, hi.rw⟩
      by_cases hv : v = t
      · subst hv
        refine ⟨h, .no, by simpa using hg, ha.full, ha.shared, by simp, ?_, by simp, by simp⟩
        have := ha.write
        simp only [reduceCtorEq, false_iff] at this ⊢
        exact this
      · obtain ⟨h', u', hv'⟩ := hi.thr v
        exact ⟨h', u', agrees_other hv' (set_ne _ _ hv) .rfl .rfl (by simp [hv]) .rfl⟩
    · simp only [Guarded, hx, ↓reduceIte] at hg
      have e : set s.rd x' ((s.rd x').filter (· ≠ t)) x = s.rd x := set_ne _ _ (Ne.symm hx)
      refine ⟨fun v => ?_, hi.excl, hi.ww, hi.rw⟩
      by_cases hv : v = t
      · subst hv
        exact ⟨h, u, by simpa using hg, ha.full, ha.shared, by dsimp only; rw [e]; exact ha.read, ha.write, ha.wlock, ha.rlock⟩
      · obtain ⟨h', u', hv'⟩ := hi.thr v
        exact ⟨h', u', agrees_other hv' (set_ne _ _ hv) .rfl .rfl (by dsimp only; rw [e]) .rfl⟩
  | writeB x' =>
    unfold act
    dsimp only
    by_cases hx : x' = x
    · subst hx
      simp only [Guarded, ↓reduceIte] at hg
      obtain ⟨rfl, rfl, hg⟩ := hg
      refine ⟨fun v => ?_, hi.excl, ?_, fun hrd => ?_⟩
      · by_cases hv : v = t
        · subst hv
          refine ⟨.full, .write, by simpa using hg, ha.full, ha.shared, ?_, by simp, by simp, by simp⟩
          have := ha.read
          simp only [reduceCtorEq, false_iff] at this ⊢
          exact this
        · obtain ⟨h', u', hv'⟩ := hi.thr v
          exact ⟨h', u', agrees_other hv' (set_ne _ _ hv) .rfl .rfl .rfl (by simp [hv])⟩
      · show (if s.wr x' = [] then s.ww else set s.ww x' true) x' = false
        rw [if_pos (no_writer hi ha (by simp) (by simp))]
        exact hi.ww
      · show (if s.rd x' = [] then s.rw else set s.rw x' true) x' = false
        subst hrd
        rw [if_pos (no_reader hi ha (by simp))]
        exact hi.rw rfl
    · simp only [Guarded, hx, ↓reduceIte] at hg
      have e : set s.wr x' (t :: s.wr x') x = s.wr x := set_ne _ _ (Ne.symm hx)
      refine ⟨fun v => ?_, hi.excl, ?_, fun hrd => ?_⟩
      · by_cases hv : v = t
        · subst hv
          exact ⟨h, u, by simpa using hg, ha.full, ha.shared, ha.read, by dsimp only; rw [e]; exact ha.write, ha.wlock, ha.rlock⟩
        · obtain ⟨h', u', hv'⟩ := hi.thr v
          exact ⟨h', u', agrees_other hv' (set_ne _ _ hv) .rfl .rfl .rfl (by dsimp only; rw [e])⟩
      · show (if s.wr x' = [] then s.ww else set s.ww x' true) x = false
        split
        · exact hi.ww
        · rw [set_ne _ _ (Ne.symm hx)]; exact hi.ww
      · show (if s.rd x' = [] then s.rw else set s.rw x' true) x = false
        split
        · exact hi.rw hrd
        · rw [set_ne _ _ (Ne.symm hx)]; exact hi.rw hrd
  | writeE x' =>
    unfold act
    dsimp only
    by_cases hx : x' = x
    · subst hx
      simp only [Guarded, ↓reduceIte] at hg
      obtain ⟨rfl, hg⟩ := hg
      refine ⟨fun v => ?_, hi.excl, hi.ww, hi.rw⟩
      by_cases hv : v = t
      · subst hv
        refine ⟨h, .no, by simpa using hg, ha.full, ha.shared, ?_, by simp, by simp, by simp⟩
        have := ha.read
        simp only [reduceCtorEq, false_iff] at this ⊢
        exact this
      · obtain ⟨h', u', hv'⟩ := hi.thr v
        exact ⟨h', u', agrees_other hv' (set_ne _ _ hv) .rfl .rfl .rfl (by simp [hv])⟩
    · simp only [Guarded, hx, ↓reduceIte] at hg
      have e : set s.wr x' ((s.wr x').filter (· ≠ t)) x = s.wr x := set_ne _ _ (Ne.symm hx)
      refine ⟨fun v => ?_, hi.excl, hi.ww, hi.rw⟩
      by_cases hv : v = t
      · subst hv
        exact ⟨h, u, by simpa using hg, ha.full, ha.shared, ha.read, by dsimp only; rw [e]; exact ha.write, ha.wlock, ha.rlock⟩
      · obtain ⟨h', u', hv'⟩ := hi.thr v
        exact ⟨h', u', agrees_other hv' (set_ne _ _ hv) .rfl .rfl .rfl (by dsimp only; rw [e])⟩

theorem inv_step {reads : Bool} {s : State} {m x : Nat} (hi : Inv reads s m x) (e : Ev)
    (he : ∀ t p, e = .call t p → Guarded reads m x p .no .no) : Inv reads (step s e) m x := by
  cases e with
  | call t p =>
    unfold step
    dsimp only
    split
    · rename_i hd
      refine ⟨fun v => ?_, hi.excl, hi.ww, hi.rw⟩
      obtain ⟨h, u, ha⟩ := hi.thr v
      by_cases hv : v = t
      · subst hv
        have hg := ha.prog
        rw [hd] at hg
        obtain ⟨rfl, rfl⟩ := hg
        exact ⟨.no, .no, by simpa using he v p rfl, ha.full, ha.shared, ha.read, ha.write, ha.wlock, ha.rlock⟩
      · exact ⟨h, u, agrees_other ha (set_ne _ _ hv) .rfl .rfl .rfl .rfl⟩
    · exact hi
  | step t =>
    unfold step
    dsimp only
    split
    · exact hi
    · rename_i a p hr
      exact inv_act hi hr
    · rename_i m' ok fail hr
      obtain ⟨h, u, ha⟩ := hi.thr t
      have hg := ha.prog
      rw [hr] at hg
      split
      · have hl : Inv reads { s with rest := set s.rest t (.act (.lock m') ok) } m x := by
          refine ⟨fun v => ?_, hi.excl, hi.ww, hi.rw⟩
          by_cases hv : v = t
          · subst hv
            refine ⟨h, u, ?_, ha.full, ha.shared, ha.read, ha.write, ha.wlock, ha.rlock⟩
            simp only [set_same, Guarded] at hg ⊢
            split at hg
            · rename_i hm; rw [if_pos hm]; exact ⟨hg.1, hg.2.1⟩
            · rename_i hm; rw [if_neg hm]; exact hg.1
          · obtain ⟨h', u', hv'⟩ := hi.thr v
            exact ⟨h', u', agrees_other hv' (set_ne _ _ hv) .rfl .rfl .rfl .rfl⟩
        rename_i hfree
        have := inv_act hl (t := t) (a := .lock m') (p := ok) (set_same _ _ _)
        unfold act at this
        dsimp only at this
        rw [if_pos hfree] at this
        have hs : set (set s.rest t (.act (.lock m') ok)) t ok = set s.rest t ok := by
          funext k
          by_cases hk : k = t
          · subst hk; rw [set_same, set_same]
          · rw [set_ne _ _ hk, set_ne _ _ hk, set_ne _ _ hk]
        rw [hs] at this
        exact this
      · refine ⟨fun v => ?_, hi.excl, hi.ww, hi.rw⟩
        by_cases hv : v = t
        · subst hv
          refine ⟨h, u, ?_, ha.full, ha.shared, ha.read, ha.write, ha.wlock, ha.rlock⟩
          simp only [set_same, Guarded] at hg ⊢
          split at hg
          · rw [hg.1]; exact hg.2.2
          · exact hg.2
        · obtain ⟨h', u', hv'⟩ := hi.thr v
          exact ⟨h', u', agrees_other hv' (set_ne _ _ hv) .rfl .rfl .rfl .rfl⟩

theorem inv_run {reads : Bool} {s : State} {m x : Nat} (hi : Inv reads s m x) (es : List Ev)
    (he : ∀ t p, .call t p ∈ es → Guarded reads m x p .no .no) : Inv reads (run s es) m x := by
  induction es generalizing s with
  | nil => exact hi
  | cons e es ih =>
    exact ih (inv_step hi e fun t p h => he t p (h ▸ List.mem_cons_self)) fun t p h => he t p (List.mem_cons_of_mem _ h)

/-! ## Maps nobody writes, and maps one goroutine writes -/

/-- Whether the operation writes map `x` on some path. -/
def writes (x : Nat) : Prog → Bool
  | .done => false
  | .act (.writeB x') p => x' == x || writes x p
  | .act _ p => writes x p
  | .tryLock _ ok fail => writes x ok || writes x fail

/-- Every write of map `x` ends before the next one begins and before the operation ends.  `b`: a write is under way. -/
def Paired (x : Nat) : Prog → Bool → Prop
  | .done, b => b = false
  | .act a p, b =>
    match a with
    | .writeB x' => if x' = x then b = false ∧ Paired x p true else Paired x p b
    | .writeE x' => if x' = x then b = true ∧ Paired x p false else Paired x p b
    | _ => Paired x p b
  | .tryLock _ ok fail, b => Paired x ok b ∧ Paired x fail b

structure One (s : State) (x t₀ : Nat) : Prop where
  others : ∀ t, t ≠ t₀ → writes x (s.rest t) = false ∧ t ∉ s.wr x
  paired : Paired x (s.rest t₀) (decide (t₀ ∈ s.wr x))
  ww : s.ww x = false

theorem one_init (x t₀ : Nat) : One init x t₀ := ⟨fun _ _ => ⟨rfl, by simp [init]⟩, by simp [init, Paired], rfl⟩

theorem one_rest {s s' : State} {x t₀ t : Nat} {p : Prog} (hi : One s x t₀) (hr : s'.rest = set s.rest t p)
    (hw : s'.wr x = s.wr x) (hww : s'.ww x = s.ww x) (h1 : t ≠ t₀ → writes x p = false)
    (h2 : t = t₀ → Paired x p (decide (t₀ ∈ s.wr x))) : One s' x t₀ := by
  refine ⟨fun v hv => ?_, ?_, hww.trans hi.ww⟩
  · rw [hr, hw]
    refine ⟨?_, (hi.others v hv).2⟩
    by_cases he : v = t
    · subst he; rw [set_same]; exact h1 hv
    · rw [set_ne _ _ he]; exact (hi.others v hv).1
  · rw [hr, hw]
    by_cases he : t₀ = t
    · subst he; rw [set_same]; exact h2 rfl
    · rw [set_ne _ _ he]; exact hi.paired

theorem one_step {s : State} {x t₀ : Nat} (hi : One s x t₀) (e : Ev)
    (he : ∀ t p, e = .call t p → (t ≠ t₀ → writes x p = false) ∧ (t = t₀ → Paired x p false)) : One (step s e) x t₀ := by
  cases e with
  | call t p =>
    unfold step
    dsimp only
    split
    · rename_i hd
      obtain ⟨h1, h2⟩ := he t p rfl
      refine one_rest hi rfl rfl rfl h1 fun e => ?_
      subst e
      have := hi.paired
      rw [hd] at this
      rw [show decide (t ∈ s.wr x) = false from this]
      exact h2 rfl
    · exact hi
  | step t =>
    unfold step
    dsimp only
    split
    · exact hi
    · rename_i a p hr
      have ho : t ≠ t₀ → writes x (.act a p) = false := fun h => hr ▸ (hi.others t h).1
      have hp : t = t₀ → Paired x (.act a p) (decide (t₀ ∈ s.wr x)) := fun h => by subst h; rw [← hr]; exact hi.paired
      cases a with
      | lock m => unfold act; dsimp only; split
                  · exact one_rest hi rfl rfl rfl ho hp
                  · exact hi
      | rlock m => unfold act; dsimp only; split
                   · exact one_rest hi rfl rfl rfl ho hp
                   · exact hi
      | unlock m => exact one_rest hi rfl rfl rfl ho hp
      | runlock m => exact one_rest hi rfl rfl rfl ho hp
      | readB y => exact one_rest hi rfl rfl rfl ho hp
      | readE y => exact one_rest hi rfl rfl rfl ho hp
      | writeB y =>
        by_cases hy : y = x
        · subst hy
          by_cases ht : t = t₀
          · subst ht
            have hp' := hp rfl
            simp only [Paired, ↓reduceIte, decide_eq_false_iff_not] at hp'
            have hnil : s.wr y = [] := List.eq_nil_iff_forall_not_mem.2 fun v hv => by
              by_cases e : v = t
              · subst e; exact hp'.1 hv
              · exact (hi.others v e).2 hv
            refine ⟨fun v hv => ?_, ?_, ?_⟩
            · refine ⟨?_, by simp [act, hnil, hv]⟩
              show writes y (set s.rest t p v) = false
              rw [set_ne _ _ hv]; exact (hi.others v hv).1
            · show Paired y (set s.rest t p t) (decide (t ∈ set s.wr y (t :: s.wr y) y))
              simp only [set_same, List.mem_cons, true_or, decide_true]
              exact hp'.2
            · show (if s.wr y = [] then s.ww else set s.ww y true) y = false
              rw [if_pos hnil]; exact hi.ww
          · have := ho ht
            simp [writes] at this
        · refine one_rest hi rfl (set_ne _ _ (Ne.symm hy)) ?_ ?_ ?_
          · show (if s.wr y = [] then s.ww else set s.ww y true) x = s.ww x
            split
            · rfl
            · exact set_ne _ _ (Ne.symm hy)
          · intro h; have := ho h; simpa [writes, hy] using this
          · intro h; have := hp h; simpa [Paired, hy] using this
      | writeE y =>
        by_cases hy : y = x
        · subst hy
          by_cases ht : t = t₀
          · subst ht
            have hp' := hp rfl
            simp only [Paired, ↓reduceIte] at hp'
            refine ⟨fun v hv => ?_, ?_, hi.ww⟩
            · constructor
              · show writes y (set s.rest t p v) = false
                rw [set_ne _ _ hv]; exact (hi.others v hv).1
              · show v ∉ set s.wr y ((s.wr y).filter (· ≠ t)) y
                rw [set_same]
                intro h
                exact (hi.others v hv).2 (mem_filter_ne.1 h).1
            · show Paired y (set s.rest t p t) (decide (t ∈ set s.wr y ((s.wr y).filter (· ≠ t)) y))
              have : decide (t ∈ set s.wr y ((s.wr y).filter (· ≠ t)) y) = false := by
                rw [set_same, decide_eq_false_iff_not]
                intro h; exact (mem_filter_ne.1 h).2 rfl
              rw [this, set_same]
              exact hp'.2
          · refine ⟨fun v hv => ?_, ?_, hi.ww⟩
            · constructor
              · show writes y (set s.rest t p v) = false
                by_cases e : v = t
                · subst e; rw [set_same]; exact ho ht
                · rw [set_ne _ _ e]; exact (hi.others v hv).1
              · show v ∉ set s.wr y ((s.wr y).filter (· ≠ t)) y
                rw [set_same]
                intro h
                exact (hi.others v hv).2 (mem_filter_ne.1 h).1
            · show Paired y (set s.rest t p t₀) (decide (t₀ ∈ set s.wr y ((s.wr y).filter (· ≠ t)) y))
              have : decide (t₀ ∈ set s.wr y ((s.wr y).filter (· ≠ t)) y) = decide (t₀ ∈ s.wr y) := by
                rw [set_same]
                exact decide_eq_decide.2 (mem_filter_ne.trans ⟨fun h => h.1, fun h => ⟨h, Ne.symm ht⟩⟩)
              rw [this, set_ne _ _ (Ne.symm ht)]
              exact hi.paired
        · refine one_rest hi rfl (set_ne _ _ (Ne.symm hy)) rfl ho ?_
          intro h; have := hp h; simpa [Paired, hy] using this
    · rename_i m' ok fail hr
      have ho : t ≠ t₀ → writes x (.tryLock m' ok fail) = false := fun h => hr ▸ (hi.others t h).1
      have hp : t = t₀ → Paired x (.tryLock m' ok fail) (decide (t₀ ∈ s.wr x)) := fun h => by subst h; rw [← hr]; exact hi.paired
      simp only [writes, Bool.or_eq_false_iff] at ho
      split
      · exact one_rest hi rfl rfl rfl (fun h => (ho h).1) fun h => (hp h).1
      · exact one_rest hi rfl rfl rfl (fun h => (ho h).2) fun h => (hp h).2

theorem one_run {s : State} {x t₀ : Nat} (hi : One s x t₀) (es : List Ev)
    (he : ∀ t p, .call t p ∈ es → (t ≠ t₀ → writes x p = false) ∧ (t = t₀ → Paired x p false)) : One (run s es) x t₀ := by
  induction es generalizing s with
  | nil => exact hi
  | cons e es ih =>
    exact ih (one_step hi e fun t p h => he t p (h ▸ List.mem_cons_self)) fun t p h => he t p (List.mem_cons_of_mem _ h)

/-- Nobody writes map `x`. -/
structure Quiet (s : State) (x : Nat) : Prop where
  rest : ∀ t, writes x (s.rest t) = false
  wr : s.wr x = []
  rw : s.rw x = false
  ww : s.ww x = false

theorem quiet_rest {s s' : State} {x t : Nat} {p : Prog} (hi : Quiet s x) (hr : s'.rest = set s.rest t p)
    (hw : s'.wr x = []) (h1 : s'.rw x = false) (h2 : s'.ww x = false) (hp : writes x p = false) : Quiet s' x := by
  refine ⟨fun v => ?_, hw, h1, h2⟩
  rw [hr]
  by_cases he : v = t
  · subst he; rw [set_same]; exact hp
  · rw [set_ne _ _ he]; exact hi.rest v

theorem quiet_step {s : State} {x : Nat} (hi : Quiet s x) (e : Ev)
    (he : ∀ t p, e = .call t p → writes x p = false) : Quiet (step s e) x := by
  cases e with
  | call t p =>
    unfold step
    dsimp only
    split
    · exact quiet_rest hi rfl hi.wr hi.rw hi.ww (he t p rfl)
    · exact hi
  | step t =>
    unfold step
    dsimp only
    split
    · exact hi
    · rename_i a p hr
      have ho : writes x (.act a p) = false := hr ▸ hi.rest t
      cases a with
      | lock m => unfold act; dsimp only; split
                  · exact quiet_rest hi rfl hi.wr hi.rw hi.ww ho
                  · exact hi
      | rlock m => unfold act; dsimp only; split
                   · exact quiet_rest hi rfl hi.wr hi.rw hi.ww ho
                   · exact hi
      | unlock m => exact quiet_rest hi rfl hi.wr hi.rw hi.ww ho
      | runlock m => exact quiet_rest hi rfl hi.wr hi.rw hi.ww ho
      | readE y => exact quiet_rest hi rfl hi.wr hi.rw hi.ww ho
      | readB y =>
        refine quiet_rest hi rfl hi.wr ?_ hi.ww ho
        show (if s.wr y = [] then s.rw else set s.rw y true) x = false
        split
        · exact hi.rw
        · by_cases hy : y = x
          · subst hy; exact absurd hi.wr (by assumption)
          · rw [set_ne _ _ (Ne.symm hy)]; exact hi.rw
      | writeB y =>
        simp only [writes, Bool.or_eq_false_iff, beq_eq_false_iff_ne] at ho
        obtain ⟨hy, ho⟩ := ho
        refine quiet_rest hi rfl ((set_ne _ _ (Ne.symm hy)).trans hi.wr) ?_ ?_ ho
        · show (if s.rd y = [] then s.rw else set s.rw y true) x = false
          split
          · exact hi.rw
          · rw [set_ne _ _ (Ne.symm hy)]; exact hi.rw
        · show (if s.wr y = [] then s.ww else set s.ww y true) x = false
          split
          · exact hi.ww
          · rw [set_ne _ _ (Ne.symm hy)]; exact hi.ww
      | writeE y =>
        refine quiet_rest hi rfl ?_ hi.rw hi.ww ho
        show set s.wr y ((s.wr y).filter (· ≠ t)) x = []
        by_cases hy : y = x
        · subst hy; rw [set_same, hi.wr]; rfl
        · rw [set_ne _ _ (Ne.symm hy)]; exact hi.wr
    · rename_i m' ok fail hr
      have ho : writes x (.tryLock m' ok fail) = false := hr ▸ hi.rest t
      simp only [writes, Bool.or_eq_false_iff] at ho
      split
      · exact quiet_rest hi rfl hi.wr hi.rw hi.ww ho.1
      · exact quiet_rest hi rfl hi.wr hi.rw hi.ww ho.2

theorem quiet_run {s : State} {x : Nat} (hi : Quiet s x) (es : List Ev)
    (he : ∀ t p, .call t p ∈ es → writes x p = false) : Quiet (run s es) x := by
  induction es generalizing s with
  | nil => exact hi
  | cons e es ih =>
    exact ih (quiet_step hi e fun t p h => he t p (h ▸ List.mem_cons_self)) fun t p h => he t p (List.mem_cons_of_mem _ h)

/-! ## The operations of the code -/

/-- `n` separate uses of a map, each with its beginning and its end; for a loop over the map, one for each round. -/
def loop (b e : Act) : Nat → Prog → Prog
  | 0, p => p
  | n + 1, p => .act b (.act e (loop b e n p))

abbrev reading (x n : Nat) (p : Prog) : Prog := loop (.readB x) (.readE x) n p
abbrev writing (x n : Nat) (p : Prog) : Prog := loop (.writeB x) (.writeE x) n p

/-- What is called on an `EtcdDiscovery` (etcd_discovery.go:15-187).  Map 0 is `services`; service `i` has map and
lock `i + 1` (`serviceList`, service_list.go:5-8). -/
inductive Disc
  /-- `addService`, etcd_discovery.go:175-180 and service_list.go:24-28.  `fresh`: the service was not in the map. -/
  | add (i : Nat) (fresh : Bool)
  /-- `removeService`, etcd_discovery.go:182-187 and service_list.go:30-34 -/
  | remove (i : Nat)
  /-- `GetServices`, `GetServiceMapping`, `GetServiceMappingWith`, etcd_discovery.go:103-126, 144-164 and
  service_list.go:36-55, with `n` rounds of the loop -/
  | get (i n : Nat)
  /-- what `initService` does with the answer of etcd, etcd_discovery.go:61 and service_list.go:18-22, for `n` keys -/
  | combine (i n : Nat)
  /-- the entry that `NewEtcdDiscovery` makes for a service before it starts `initService`, etcd_discovery.go:34 -/
  | enter (i : Nat)

def Disc.prog : Disc → Prog
  | .add i fresh =>
    reading 0 1 (writing 0 (if fresh then 1 else 0) (reading 0 1
      (.act (.lock (i + 1)) (writing (i + 1) 1 (.act (.unlock (i + 1)) .done)))))
  | .remove i => reading 0 2 (.act (.lock (i + 1)) (writing (i + 1) 1 (.act (.unlock (i + 1)) .done)))
  | .get i n => reading 0 1 (.act (.rlock (i + 1)) (reading (i + 1) n (.act (.runlock (i + 1)) .done)))
  | .combine i n => reading 0 1 (writing (i + 1) n .done)
  | .enter _ => writing 0 1 .done

/-- What is called on the selectors of the API server: selector `j` has map and lock `j` (`spaceUsedMap` and
`spaceLock`, space_first_selector.go:13-17; `weightedIOMap` and `weightedIOLock`, weighted_io_first.go:13-23). -/
inductive Sel
  /-- `Pop` or `Select` (space_first_selector.go:42-79, weighted_io_first.go:47-71).  `stale`: the figures are older
  than a minute, so those of `n` servers are fetched (`fetchSpaceInfo`, space_first_selector.go:24-40; `fetchIoInfo`,
  weighted_io_first.go:30-45); `k`: number of times a figure is looked up. -/
  | pop (j : Nat) (stale : Bool) (n k : Nat)

def Sel.prog : Sel → Prog
  | .pop j stale n k =>
    if stale then .tryLock j (writing j n (.act (.unlock j) (reading j k .done))) (reading j k .done)
    else reading j k .done

/-- What is called on the `ServerStatDB` of the admin server (server_stat_db.go:80-172).  Map 0 is `timeline`; the map
of service `v` in it is map `v + 1`; lock 0 is the mutex of `init`. -/
inductive Stat
  /-- `addStat`, server_stat_db.go:133-159, from `init` (119-125, `first`) or from `watching` (161-172).  `fresh`: the
  service was not in the map; `decodes`: the value could be decoded; `fresh'`: the server was not in the map of
  its service. -/
  | add (first : Bool) (v : Nat) (fresh decodes fresh' : Bool)
  /-- `StatTimeline` and the body of the loop of `StatTimeLineOverview`, server_monitor.go:83-94, 101-105, and
  `GetTimeline`, server_stat_db.go:99-104 -/
  | timeline (v n : Nat)

def addStat (v : Nat) (fresh decodes fresh' : Bool) (p : Prog) : Prog :=
  reading 0 1 (writing 0 (if fresh then 1 else 0)
    (if decodes then reading (v + 1) 1
      (writing (v + 1) (if fresh' then 1 else 0) (reading (v + 1) (if fresh' then 1 else 0) p))
    else p))

def Stat.prog : Stat → Prog
  | .add first v fresh decodes fresh' =>
    if first then .act (.lock 0) (addStat v fresh decodes fresh' (.act (.unlock 0) .done))
    else addStat v fresh decodes fresh' .done
  | .timeline v n => reading 0 1 (reading (v + 1) n .done)

/-- What is called on a `WriteSyncSet` (map_set.go:9-59): lock and map 0.  `CopyFixStream` collects the errors of
its goroutines in one (copy_fix_stream.go:57-70). -/
inductive SyncSet
  /-- map_set.go:49-53 -/
  | add
  /-- map_set.go:55-59, 13-19; `found`: the element was there -/
  | remove (found : Bool)
  /-- `Contains` and `Foreach`, which come from `MapSet`, map_set.go:21-34 -/
  | look (n : Nat)

def SyncSet.prog : SyncSet → Prog
  | .add => .act (.lock 0) (writing 0 1 (.act (.unlock 0) .done))
  | .remove found => .act (.lock 0) (reading 0 1 (writing 0 (if found then 1 else 0) (.act (.unlock 0) .done)))
  | .look n => reading 0 n .done

/-! ## Lemmas on the operations -/

theorem guarded_writing {reads : Bool} {m x y n : Nat} {p : Prog} {h : Held} (hy : y = x → h = .full)
    (hp : Guarded reads m x p h .no) : Guarded reads m x (writing y n p) h .no := by
  induction n with
  | zero => exact hp
  | succ n ih =>
    show Guarded reads m x (.act (.writeB y) (.act (.writeE y) (writing y n p))) h .no
    by_cases e : y = x
    · simp only [Guarded, e, ↓reduceIte, true_and]; exact ⟨hy e, e ▸ ih⟩
    · simp only [Guarded, e, ↓reduceIte]; exact ih

theorem guarded_reading {reads : Bool} {m x y n : Nat} {p : Prog} {h : Held} (hy : y = x → reads = true → h ≠ .no)
    (hp : Guarded reads m x p h .no) : Guarded reads m x (reading y n p) h .no := by
  induction n with
  | zero => exact hp
  | succ n ih =>
    show Guarded reads m x (.act (.readB y) (.act (.readE y) (reading y n p))) h .no
    by_cases e : y = x
    · simp only [Guarded, e, ↓reduceIte, true_and]; exact ⟨hy e, e ▸ ih⟩
    · simp only [Guarded, e, ↓reduceIte]; exact ih

theorem writes_reading (x y n : Nat) (p : Prog) : writes x (reading y n p) = writes x p := by
  induction n with
  | zero => rfl
  | succ n ih => exact ih

theorem writes_writing (x y n : Nat) (p : Prog) (h : y ≠ x ∨ n = 0) : writes x (writing y n p) = writes x p := by
  induction n with
  | zero => rfl
  | succ n ih =>
    have hy : y ≠ x := h.resolve_right (by simp)
    show (y == x || writes x (writing y n p)) = _
    rw [ih (.inl hy), beq_eq_false_iff_ne.2 hy, Bool.false_or]

theorem paired_reading {x y n : Nat} {p : Prog} {b : Bool} (h : Paired x p b) : Paired x (reading y n p) b := by
  induction n with
  | zero => exact h
  | succ n ih => exact ih

theorem paired_writing {x y n : Nat} {p : Prog} (h : Paired x p false) : Paired x (writing y n p) false := by
  induction n with
  | zero => exact h
  | succ n ih =>
    show Paired x (.act (.writeB y) (.act (.writeE y) (writing y n p))) false
    by_cases e : y = x
    · simp only [Paired, e, ↓reduceIte, true_and]; exact e ▸ ih
    · simp only [Paired, e, ↓reduceIte]; exact ih

/-! ## C123 -/

/-- Map `x` is written under lock `m` and read under it: no history of any number of goroutines has a race on it. -/
theorem C123_guarded (m x : Nat) (es : List Ev) (he : ∀ t p, .call t p ∈ es → Guarded true m x p .no .no) :
    (run init es).rw x = false ∧ (run init es).ww x = false := by
  have h := inv_run (inv_init true m x) es he
  exact ⟨h.rw rfl, h.ww⟩

example : Guarded true 5 7 (.act (.rlock 5) (reading 7 3 (.act (.runlock 5) (.act (.lock 5) (writing 7 2 (.act (.unlock 5) .done)))))) .no .no := by
  decide

/-- Map `x` is only written under lock `m`: no two goroutines write it at once. -/
theorem C123_writers (m x : Nat) (es : List Ev) (he : ∀ t p, .call t p ∈ es → Guarded false m x p .no .no) :
    (run init es).ww x = false :=
  (inv_run (inv_init false m x) es he).ww

/-- Only goroutine `t₀` writes map `x`: it is not written by two at once. -/
theorem C123_one_writer (x t₀ : Nat) (es : List Ev)
    (he : ∀ t p, .call t p ∈ es → (t ≠ t₀ → writes x p = false) ∧ (t = t₀ → Paired x p false)) :
    (run init es).ww x = false :=
  (one_run (one_init x t₀) es he).ww

/-- Nobody writes map `x`: there is no race on it. -/
theorem C123_read_only (x : Nat) (es : List Ev) (he : ∀ t p, .call t p ∈ es → writes x p = false) :
    (run init es).rw x = false ∧ (run init es).ww x = false := by
  have h := quiet_run (s := init) ⟨fun _ => rfl, rfl, rfl, rfl⟩ es he
  exact ⟨h.rw, h.ww⟩

/-- Adding, removing and asking for servers never race on the list of a service, however many goroutines do it and for
however many services.  (Missing: `combine`, see `C123_combine_race`.) -/
theorem C123_lists_partial (i : Nat) (es : List Ev)
    (he : ∀ t p, .call t p ∈ es →
      (∃ j f, p = (Disc.add j f).prog) ∨ (∃ j, p = (Disc.remove j).prog) ∨ ∃ j n, p = (Disc.get j n).prog) :
    (run init es).rw (i + 1) = false ∧ (run init es).ww (i + 1) = false := by
  refine C123_guarded (i + 1) (i + 1) es fun t p hp => ?_
  rcases he t p hp with ⟨j, f, rfl⟩ | ⟨j, rfl⟩ | ⟨j, n, rfl⟩
  · refine guarded_reading (by simp) (guarded_writing (by simp) (guarded_reading (by simp) ?_))
    by_cases e : j = i
    · subst e
      simp only [Guarded, ↓reduceIte, true_and]
      exact guarded_writing (by simp) (by simp [Guarded])
    · have : j + 1 ≠ i + 1 := by omega
      simp only [Guarded, this, ↓reduceIte]
      exact guarded_writing (by simp [e]) (by simp [Guarded, e])
  · refine guarded_reading (by simp) ?_
    by_cases e : j = i
    · subst e
      simp only [Guarded, ↓reduceIte, true_and]
      exact guarded_writing (by simp) (by simp [Guarded])
    · have : j + 1 ≠ i + 1 := by omega
      simp only [Guarded, this, ↓reduceIte]
      exact guarded_writing (by simp [e]) (by simp [Guarded, e])
  · refine guarded_reading (by simp) ?_
    by_cases e : j = i
    · subst e
      simp only [Guarded, ↓reduceIte, true_and]
      exact guarded_reading (by simp) (by simp [Guarded])
    · have : j + 1 ≠ i + 1 := by omega
      simp only [Guarded, this, ↓reduceIte]
      exact guarded_reading (by simp [e]) (by simp [Guarded, e])

/-- Two goroutines that get and add at the same time: the second waits. -/
example : (run init ([.call 1 (Disc.get 0 2).prog, .call 2 (Disc.add 0 false).prog] ++ List.replicate 4 (.step 1) ++
    List.replicate 9 (.step 2))).wr 1 = [] ∧
    (run init ([.call 1 (Disc.get 0 2).prog, .call 2 (Disc.add 0 false).prog] ++ List.replicate 4 (.step 1) ++
    List.replicate 9 (.step 2))).rest 2 ≠ .done := by decide

/-- Once every service has its entry, the map of the services is only read.  (Missing: the entries themselves, see
`C123_construction_race`.) -/
theorem C123_services_partial (es : List Ev)
    (he : ∀ t p, .call t p ∈ es →
      (∃ j, p = (Disc.add j false).prog) ∨ (∃ j, p = (Disc.remove j).prog) ∨ (∃ j n, p = (Disc.get j n).prog) ∨
      ∃ j n, p = (Disc.combine j n).prog) :
    (run init es).rw 0 = false ∧ (run init es).ww 0 = false := by
  refine C123_read_only 0 es fun t p hp => ?_
  rcases he t p hp with ⟨j, rfl⟩ | ⟨j, rfl⟩ | ⟨j, n, rfl⟩ | ⟨j, n, rfl⟩ <;>
    simp [Disc.prog, writes_reading, writes_writing, writes]

/-- `combine` takes no lock: while it fills the list of a service, a request that asks for the servers of that service
reads the list; and, when the service is that of the process itself, `NewEtcdDiscovery` writes it too. -/
theorem C123_combine_race :
    (∃ es, (∀ t p, .call t p ∈ es → p = (Disc.combine 0 1).prog ∨ p = (Disc.get 0 1).prog) ∧
      (run init es).rw 1 = true) ∧
    ∃ es, (∀ t p, .call t p ∈ es → p = (Disc.combine 0 1).prog ∨ p = (Disc.add 0 false).prog) ∧
      (run init es).ww 1 = true := by
  refine ⟨⟨[.call 1 (Disc.combine 0 1).prog, .call 2 (Disc.get 0 1).prog, .step 2, .step 2, .step 2, .step 2,
    .step 1, .step 1, .step 1], ?_, by decide⟩, ⟨[.call 1 (Disc.combine 0 1).prog, .call 2 (Disc.add 0 false).prog,
    .step 2, .step 2, .step 2, .step 2, .step 2, .step 2, .step 1, .step 1, .step 1], ?_, by decide⟩⟩ <;>
  · intro t p h
    simp at h
    rcases h with ⟨_, h⟩ | ⟨_, h⟩ <;> simp [h]

/-- `NewEtcdDiscovery` writes the map of the services while the goroutine it started for an earlier service reads it. -/
theorem C123_construction_race :
    ∃ es, (∀ t p, .call t p ∈ es → (t = 0 ∧ ∃ i, p = (Disc.enter i).prog) ∨ ∃ i n, p = (Disc.combine i n).prog) ∧
      (run init es).rw 0 = true := by
  refine ⟨[.call 0 (Disc.enter 0).prog, .step 0, .step 0, .call 1 (Disc.combine 0 1).prog, .call 0 (Disc.enter 1).prog,
    .step 1, .step 0], ?_, by decide⟩
  intro t p h
  simp at h
  rcases h with ⟨h1, h⟩ | ⟨h1, h⟩ | ⟨h1, h⟩
  · exact .inl ⟨h1, 0, h⟩
  · exact .inr ⟨0, 1, h⟩
  · exact .inl ⟨h1, 1, h⟩

/-- The figures of a selector are fetched by one request at a time.  (Missing: requests read the figures without the
lock, see `C123_selector_race`.) -/
theorem C123_selectors_partial (j : Nat) (es : List Ev)
    (he : ∀ t p, .call t p ∈ es → ∃ i b n k, p = (Sel.pop i b n k).prog) : (run init es).ww j = false := by
  refine C123_writers j j es fun t p hp => ?_
  obtain ⟨i, b, n, k, rfl⟩ := he t p hp
  unfold Sel.prog
  dsimp only
  have h0 : ∀ h : Held, h = .no → Guarded false j j (reading i k .done) h .no := fun h e =>
    guarded_reading (by simp) (by simp [Guarded, e])
  split
  · by_cases e : i = j
    · subst e
      simp only [Guarded, ↓reduceIte, true_and]
      refine ⟨guarded_writing (by simp) ?_, h0 _ rfl⟩
      simp only [Guarded, ↓reduceIte, true_and]
      exact ⟨by simp, by simp, h0 _ rfl⟩
    · simp only [Guarded, e, ↓reduceIte]
      refine ⟨guarded_writing (by simp [e]) ?_, h0 _ rfl⟩
      simp only [Guarded, e, ↓reduceIte]
      exact h0 _ rfl
  · exact h0 _ rfl

/-- Two requests that both find the figures old: one fetches, the other goes on without. -/
example : (run init ([.call 1 (Sel.pop 0 true 2 1).prog, .call 2 (Sel.pop 0 true 2 1).prog, .step 1, .step 2])).rest 2
    = reading 0 1 .done := by decide

/-- One request writes the figures while another one reads them: the second finds the lock taken and does not wait. -/
theorem C123_selector_race :
    ∃ es, (∀ t p, .call t p ∈ es → ∃ n k, p = (Sel.pop 0 true n k).prog) ∧ (run init es).rw 0 = true := by
  refine ⟨[.call 1 (Sel.pop 0 true 1 1).prog, .call 2 (Sel.pop 0 true 1 1).prog, .step 1, .step 2, .step 1, .step 2],
    ?_, by decide⟩
  intro t p h
  simp at h
  rcases h with ⟨_, h⟩ | ⟨_, h⟩ <;> exact ⟨1, 1, h⟩

/-- The figures that the goroutines of the services find at the start never race.  (Missing: what comes later, see
`C123_stat_race`.) -/
theorem C123_stat_init_partial (x : Nat) (es : List Ev)
    (he : ∀ t p, .call t p ∈ es → ∃ v f d g, p = (Stat.add true v f d g).prog) :
    (run init es).rw x = false ∧ (run init es).ww x = false := by
  refine C123_guarded 0 x es fun t p hp => ?_
  obtain ⟨v, f, d, g, rfl⟩ := he t p hp
  simp only [Stat.prog, ↓reduceIte, Guarded, true_and]
  have h0 : Guarded true 0 x (.act (.unlock 0) .done) .full .no := by simp [Guarded]
  refine guarded_reading (by simp) (guarded_writing (by simp) ?_)
  split
  · exact guarded_reading (by simp) (guarded_writing (by simp) (guarded_reading (by simp) h0))
  · exact h0

/-- The figures of the servers of a service are written by one goroutine only, at the start and later, while any
number of requests read them.  (Missing: the map of the services, and reading, see `C123_stat_race`.) -/
theorem C123_stat_inner_partial (v : Nat) (es : List Ev)
    (he : ∀ t p, .call t p ∈ es →
      (∃ b f d g, p = (Stat.add b t f d g).prog) ∨ ∃ w n, p = (Stat.timeline w n).prog) :
    (run init es).ww (v + 1) = false := by
  refine C123_one_writer (v + 1) v es fun t p hp => ?_
  have hdone : Paired (v + 1) .done false := rfl
  rcases he t p hp with ⟨b, f, d, g, rfl⟩ | ⟨w, n, rfl⟩
  · constructor
    · intro ht
      have ht' : t + 1 ≠ v + 1 := by omega
      cases b <;> cases d <;> simp [Stat.prog, addStat, writes, writes_reading, writes_writing, ht]
    · intro ht
      subst ht
      have key : ∀ q, Paired (t + 1) q false → Paired (t + 1) (addStat t f d g q) false := by
        intro q hq
        refine paired_reading (paired_writing ?_)
        split
        · exact paired_reading (paired_writing (paired_reading hq))
        · exact hq
      cases b
      · exact key _ hdone
      · exact key _ hdone
  · constructor
    · intro _
      simp [Stat.prog, writes_reading, writes]
    · intro _
      exact paired_reading (paired_reading hdone)

/-- Two services had no servers at the start and get their first ones at the same time: both goroutines write the map
of the services.  And a request iterates over the servers of a service while a new one is added. -/
theorem C123_stat_race :
    (∃ es, (∀ t p, .call t p ∈ es → p = (Stat.add false t true true true).prog) ∧ (run init es).ww 0 = true) ∧
    ∃ es, (∀ t p, .call t p ∈ es → p = (Stat.add false 0 false true true).prog ∨ p = (Stat.timeline 0 2).prog) ∧
      (run init es).rw 1 = true := by
  refine ⟨⟨[.call 0 (Stat.add false 0 true true true).prog, .call 1 (Stat.add false 1 true true true).prog,
    .step 0, .step 0, .step 1, .step 1, .step 0, .step 1], ?_, by decide⟩,
    ⟨[.call 0 (Stat.add false 0 false true true).prog, .call 5 (Stat.timeline 0 2).prog,
    .step 0, .step 0, .step 0, .step 0, .step 5, .step 5, .step 5, .step 0], ?_, by decide⟩⟩
  · intro t p h
    simp at h
    rcases h with ⟨rfl, h⟩ | ⟨rfl, h⟩ <;> exact h
  · intro t p h
    simp at h
    rcases h with ⟨_, h⟩ | ⟨_, h⟩ <;> simp [h]

/-- The goroutines that repair the copies of an object collect their errors without a race. -/
theorem C123_errors (es : List Ev)
    (he : ∀ t p, .call t p ∈ es → p = SyncSet.add.prog ∨ ∃ b, p = (SyncSet.remove b).prog) :
    (run init es).rw 0 = false ∧ (run init es).ww 0 = false := by
  refine C123_guarded 0 0 es fun t p hp => ?_
  rcases he t p hp with rfl | ⟨b, rfl⟩
  · decide
  · cases b <;> decide

/-- With `Contains` or `Foreach` at the same time there are still never two writers, but there may be a race. -/
theorem C123_set_partial (es : List Ev)
    (he : ∀ t p, .call t p ∈ es → ∃ o : SyncSet, p = o.prog) : (run init es).ww 0 = false := by
  refine C123_writers 0 0 es fun t p hp => ?_
  obtain ⟨o, rfl⟩ := he t p hp
  cases o with
  | add => decide
  | remove b => cases b <;> decide
  | look n => exact guarded_reading (by simp) (by simp [Guarded])

theorem C123_set_race : (run init [.call 1 SyncSet.add.prog, .call 2 (SyncSet.look 1).prog, .step 1, .step 2, .step 1]).rw 0
    = true := by decide

/-- The statement of C123: no history of calls has a race on any map. -/
def Statement (ops : Prog → Prop) : Prop :=
  ∀ es : List Ev, (∀ t p, .call t p ∈ es → ops p) → ∀ x, (run init es).rw x = false ∧ (run init es).ww x = false

/-- It fails for the service lists, for the selectors and for the figures of the servers. -/
theorem C123_statement_fails :
    ¬ Statement (fun p => ∃ o : Disc, p = o.prog) ∧ ¬ Statement (fun p => ∃ o : Sel, p = o.prog) ∧
    ¬ Statement (fun p => ∃ o : Stat, p = o.prog) := by
  refine ⟨fun h => ?_, fun h => ?_, fun h => ?_⟩
  · obtain ⟨⟨es, he, hr⟩, _⟩ := C123_combine_race
    have := (h es (fun t p hp => (he t p hp).elim (fun e => ⟨_, e⟩) fun e => ⟨_, e⟩) 1).1
    rw [hr] at this
    cases this
  · obtain ⟨es, he, hr⟩ := C123_selector_race
    have := (h es (fun t p hp => let ⟨_, _, e⟩ := he t p hp; ⟨_, e⟩) 0).1
    rw [hr] at this
    cases this
  · obtain ⟨_, es, he, hr⟩ := C123_stat_race
    have := (h es (fun t p hp => (he t p hp).elim (fun e => ⟨_, e⟩) fun e => ⟨_, e⟩) 1).1
    rw [hr] at this
    cases this

end Verif.Maps
