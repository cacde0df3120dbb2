import Verif.Object.JoinLeave

/-!
# C90 — a data server can join and leave again and again

Commands that do not overlap start and stop every background task exactly once (`C90_commands`).  But the
registration does not come back: the `Lifecycle` object is closed by the first leave and its context stays
cancelled, so the lease of every later join is revoked at once (`C90_rejoin_lost`).  A join that arrives while
the server leaves starts tasks that nothing ever stops (`C90_overlap_leaks`).
-/

namespace Verif.Object.JoinLeave

/-! ## Commands one after the other -/

/-- Specification: which opening is in force after a command, and how many there were: a join counts when none
is in force. -/
def force (x : Option Nat × Nat) : Cmd → Option Nat × Nat
  | .joins => match x.1 with
    | none => (some x.2, x.2 + 1)
    | some g => (some g, x.2)
  | .leaves => (none, x.2)

def inForce (cs : List Cmd) : Option Nat × Nat := cs.foldl force (none, 0)

/-- The tasks that run when this opening is in force. -/
def current : Option Nat → List Task
  | none => []
  | some g => tasks g

/-- The pool between commands. -/
structure Pool (s : State) (x : Option Nat × Nat) : Prop where
  closing : s.closing = []
  events : s.events = current x.1
  running : s.running = current x.1
  used : s.openUsed = x.1.isSome
  open_ : x.1.isSome = true → s.closeUsed = false
  last : ∀ g, x.1 = some g → g + 1 = x.2
  closed : s.closeUsed = true → x.1 = none
  opened : s.opened = x.2
  started : s.started = (List.range x.2).flatMap tasks
  stopped : s.stopped = (List.range (if x.1.isSome then x.2 - 1 else x.2)).flatMap fun g => (tasks g).reverse

theorem exec_append (s : State) (a b : List Act) : exec s (a ++ b) = exec (exec s a) b := by
  simp [exec]

/-- The deferred functions of a `Close` that nobody disturbs. -/
theorem exec_closing (ts : List Task) : ∀ s : State, s.closing = [ts] →
    exec s (List.replicate ts.length (.closeNext 0)) = { ts.foldl stop s with closing := [[]] } := by
  induction ts with
  | nil =>
    intro s h
    cases s
    simp only at h
    subst h
    rfl
  | cons t r ih =>
    intro s h
    have hs : step s (.closeNext 0) = { stop s t with closing := [r] } := by
      simp [step, closeNext, h]
    rw [List.length_cons, List.replicate_succ]
    show exec (step s _) _ = _
    rw [hs, ih { stop s t with closing := [r] } rfl, List.foldl_cons]
    have key : ∀ (l : List Task) (a : State) (c : List (List Task)),
        { l.foldl stop { a with closing := c } with closing := [[]] } = { l.foldl stop a with closing := [[]] } := by
      intro l
      induction l with
      | nil => intro a c; rfl
      | cons u l ih => intro a c; exact ih (stop a u) c
    exact key r (stop s t) [r]

theorem fold_stop (ts : List Task) : ∀ s : State,
    (ts.foldl stop s).stopped = s.stopped ++ ts ∧ (ts.foldl stop s).running = ts.foldl List.erase s.running ∧
    (ts.foldl stop s).events = s.events ∧ (ts.foldl stop s).openUsed = s.openUsed ∧
    (ts.foldl stop s).closeUsed = s.closeUsed ∧ (ts.foldl stop s).opened = s.opened ∧
    (ts.foldl stop s).started = s.started := by
  induction ts with
  | nil => intro s; simp
  | cons t r ih =>
    intro s
    obtain ⟨a, b, c, d, e, f, g⟩ := ih (stop s t)
    refine ⟨?_, ?_, c, d, e, f, g⟩
    · rw [List.foldl_cons, a]; simp [stop]
    · rw [List.foldl_cons, b]; rfl

theorem erase_tasks (g : Nat) : (tasks g).reverse.foldl List.erase (tasks g) = [] := by
  simp [tasks, kinds, List.erase_cons]

theorem erase_current (x : Option Nat) : (current x).reverse.foldl List.erase (current x) = [] := by
  cases x with
  | none => rfl
  | some g => exact erase_tasks g

theorem exec_leaves {s : State} (hc : s.closeUsed = false) (hn : s.closing = []) :
    command s .leaves = { s.events.reverse.foldl stop { s with closeUsed := true, openUsed := false } with
      closing := [], events := [] } := by
  unfold command stepsOf
  rw [hc]
  simp only [Bool.false_eq_true, if_false]
  show exec (step s .closeBegin) _ = _
  have hb : step s .closeBegin = { s with closeUsed := true, openUsed := false, closing := [s.events.reverse] } := by
    simp [step, closeBegin, hc, hn]
  rw [hb, exec_append, show s.events.length = s.events.reverse.length by simp, exec_closing _ _ rfl]
  simp only [exec, List.foldl_cons, List.foldl_nil, step, closeEnd, List.getElem?_cons_zero, List.eraseIdx_cons_zero]
  have key : ∀ (l : List Task) (a : State) (c : List (List Task)),
      { l.foldl stop { a with closing := c } with closing := [], events := [] } =
        { l.foldl stop a with closing := [], events := [] } := by
    intro l
    induction l with
    | nil => intro a c; rfl
    | cons u l ih => intro a c; exact ih (stop a u) c
  exact key s.events.reverse { s with closeUsed := true, openUsed := false } [s.events.reverse]

theorem Pool.command {s : State} {x : Option Nat × Nat} (h : Pool s x) (c : Cmd) :
    Pool (command s c) (force x c) := by
  obtain ⟨cur, n⟩ := x
  cases c with
  | joins =>
    cases cur with
    | some g =>
      have hs : JoinLeave.command s .joins = s := by
        show opens s = s
        simp [opens, h.used]
      rw [hs]
      exact h
    | none =>
      have hs : JoinLeave.command s .joins = { s with
          openUsed := true, closeUsed := false, opened := s.opened + 1, loops := s.loops ++ [.asking],
          started := s.started ++ tasks s.opened, running := s.running ++ tasks s.opened,
          events := s.events ++ tasks s.opened } := by
        show opens s = _
        simp [opens, h.used]
      rw [hs]
      have ho : s.opened = n := h.opened
      refine ⟨h.closing, ?_, ?_, rfl, fun _ => rfl, ?_, fun h => (nomatch h), ?_, ?_, ?_⟩
      · show s.events ++ tasks s.opened = tasks n
        rw [h.events, ho]; rfl
      · show s.running ++ tasks s.opened = tasks n
        rw [h.running, ho]; rfl
      · intro g hg
        have : some n = some g := hg
        cases this; rfl
      · show s.opened + 1 = n + 1
        rw [ho]
      · show s.started ++ tasks s.opened = (List.range (n + 1)).flatMap tasks
        rw [h.started, ho, List.range_succ, List.flatMap_append]
        simp
      · show s.stopped = (List.range (n + 1 - 1)).flatMap _
        rw [h.stopped]; rfl
  | leaves =>
    by_cases hc : s.closeUsed = true
    · have hn : cur = none := h.closed hc
      subst hn
      have hs : JoinLeave.command s .leaves = s := by
        unfold JoinLeave.command stepsOf
        rw [hc]; rfl
      rw [hs]
      exact h
    · have hc : s.closeUsed = false := by simpa using hc
      rw [exec_leaves hc h.closing]
      obtain ⟨a, b, _, d, e, f, g⟩ := fold_stop s.events.reverse { s with closeUsed := true, openUsed := false }
      refine ⟨rfl, rfl, ?_, ?_, fun h => (nomatch h), fun g h => (nomatch h), fun _ => rfl, ?_, ?_, ?_⟩
      · show (s.events.reverse.foldl stop _).running = []
        rw [b, h.events, show ({ s with closeUsed := true, openUsed := false } : State).running = current cur from h.running]
        exact erase_current cur
      · show (s.events.reverse.foldl stop _).openUsed = false
        rw [d]
      · show (s.events.reverse.foldl stop _).opened = n
        rw [f]; exact h.opened
      · show (s.events.reverse.foldl stop _).started = _
        rw [g]; exact h.started
      · show (s.events.reverse.foldl stop _).stopped = (List.range n).flatMap _
        rw [a, h.events]
        show s.stopped ++ _ = _
        rw [h.stopped]
        cases cur with
        | none => simp [current]
        | some g =>
          have hl := h.last g rfl
          have hl : g + 1 = n := hl
          subst hl
          simp [current, List.range_succ, List.flatMap_append]

theorem Pool.commands {s : State} {x : Option Nat × Nat} (h : Pool s x) (cs : List Cmd) :
    Pool (commands s cs) (cs.foldl force x) := by
  induction cs generalizing s x with
  | nil => exact h
  | cons c r ih => exact ih (h.command c)

theorem Pool.init : Pool init (none, 0) :=
  ⟨rfl, rfl, rfl, rfl, fun h => (nomatch h), fun _ h => (nomatch h), fun h => (nomatch h), rfl, rfl, rfl⟩

/-- **C90** (commands one after the other): whatever the sequence of joins and leaves, the tasks that run are
those of the opening in force, every opening has started its tasks once, and every opening no longer in force
has had them stopped once, in the opposite order. -/
theorem C90_commands (cs : List Cmd) :
    let s := commands init cs
    let x := inForce cs
    s.running = current x.1 ∧ s.started = (List.range x.2).flatMap tasks ∧
      s.stopped = (List.range (if x.1.isSome then x.2 - 1 else x.2)).flatMap fun g => (tasks g).reverse := by
  have h := Pool.init.commands cs
  exact ⟨h.running, h.started, h.stopped⟩

example : let cs : List Cmd := [.leaves, .joins, .joins, .leaves, .leaves, .joins]
    inForce cs = (some 1, 2) ∧ (commands init cs).running = tasks 1 ∧
      (commands init cs).stopped = (tasks 0).reverse := by decide

/-! ## The registration -/

/-- Every valid lease is held by a loop, and the registration hangs on a valid lease. -/
structure Held (s : State) : Prop where
  held : ∀ l ∈ s.leases, Loop.holding l ∈ s.loops
  key : ∀ l, s.key = some l → l ∈ s.leases

theorem mem_set_ne {l : List Loop} {i : Nat} {a b c : Loop} (hi : l[i]? = some a) (hb : b ∈ l) (hne : b ≠ a) :
    b ∈ l.set i c := by
  induction l generalizing i with
  | nil => simp at hb
  | cons x r ih =>
    cases i with
    | zero =>
      simp only [List.getElem?_cons_zero, Option.some.injEq] at hi
      subst hi
      rcases List.mem_cons.1 hb with h | h
      · exact absurd h hne
      · exact List.mem_cons_of_mem _ h
    | succ i =>
      simp only [List.getElem?_cons_succ] at hi
      rw [List.set_cons_succ]
      rcases List.mem_cons.1 hb with h | h
      · rw [h]; exact List.mem_cons_self
      · exact List.mem_cons_of_mem _ (ih hi h)

theorem Held.drop {s : State} (h : Held s) (l : Nat) : Held (drop s l) := by
  refine ⟨fun m hm => h.held m (List.mem_filter.1 hm).1, ?_⟩
  intro m hm
  by_cases hk : s.key = some l
  · simp [JoinLeave.drop, hk] at hm
  · have hm' : s.key = some m := by simpa [JoinLeave.drop, hk] using hm
    have hml : m ≠ l := by rintro rfl; exact hk hm'
    exact List.mem_filter.2 ⟨h.key m hm', by simpa using hml⟩

theorem Held.step {s : State} (h : Held s) (a : Act) : Held (step s a) := by
  cases a with
  | opens =>
    show Held (opens s)
    unfold opens
    by_cases hu : s.openUsed = true
    · rw [if_pos hu]; exact h
    · rw [if_neg hu]
      exact ⟨fun l hl => List.mem_append_left _ (h.held l hl), h.key⟩
  | closeBegin =>
    show Held (closeBegin s)
    unfold closeBegin
    by_cases hu : s.closeUsed = true
    · rw [if_pos hu]; exact h
    · rw [if_neg hu]; exact ⟨h.held, h.key⟩
  | closeNext i =>
    show Held (closeNext s i)
    unfold closeNext
    split
    · rename_i t r _
      refine ⟨h.held, ?_⟩
      intro l hl
      by_cases ht : t.2 = .unregister
      · simp [stop, ht] at hl
      · exact h.key l (by simpa [stop, ht] using hl)
    · exact h
  | closeEnd i =>
    show Held (closeEnd s i)
    unfold closeEnd
    split
    · exact ⟨h.held, h.key⟩
    · exact h
  | loop i =>
    show Held (loop s i)
    unfold loop
    split
    · rename_i hi
      refine ⟨?_, fun l hl => List.mem_append_left _ (h.key l hl)⟩
      intro l hl
      rcases List.mem_append.1 hl with hl | hl
      · exact mem_set_ne hi (h.held l hl) (by simp)
      · simp only [List.mem_singleton] at hl
        subst hl
        have hlt : i < s.loops.length := by
          rw [List.getElem?_eq_some_iff] at hi; exact hi.1
        exact List.mem_set hlt _
    · rename_i l hi
      by_cases hc : s.cancelled = true
      · rw [if_pos hc]
        refine ⟨?_, (h.drop l).key⟩
        intro m hm
        have hm := List.mem_filter.1 hm
        have hne : m ≠ l := by simpa using hm.2
        exact mem_set_ne hi (h.held m hm.1) (by simpa using hne)
      · rw [if_neg hc]
        by_cases hl : l ∈ s.leases
        · rw [if_pos hl]; exact h
        · rw [if_neg hl]
          refine ⟨?_, h.key⟩
          intro m hm
          have hne : m ≠ l := by rintro rfl; exact hl hm
          exact mem_set_ne hi (h.held m hm) (by simpa using hne)
    · exact h
  | register i =>
    show Held (register s i)
    unfold register
    split
    · rename_i l _
      refine ⟨h.held, ?_⟩
      intro m hm
      by_cases hl : l ∈ s.leases
      · simp only [if_pos hl, Option.some.injEq] at hm
        subst hm; exact hl
      · simp only [if_neg hl] at hm
        exact h.key m hm
    · exact h
  | expire l => exact h.drop l

theorem Held.exec {s : State} (h : Held s) (acts : List Act) : Held (exec s acts) := by
  induction acts generalizing s with
  | nil => exact h
  | cons a r ih => exact ih (h.step a)

theorem Held.init : Held init := ⟨fun l hl => by simp [JoinLeave.init] at hl, fun l hl => by simp [JoinLeave.init] at hl⟩

/-- **C90** (no loop, no registration): whatever has happened, a server whose loops have all returned is not
registered. -/
theorem C90_ended_unregistered {acts : List Act} (h : ∀ l ∈ (exec init acts).loops, l = .ended) :
    (exec init acts).key = none := by
  have hh := Held.init.exec acts
  cases hk : (exec init acts).key with
  | none => rfl
  | some l =>
    have := h _ (hh.held l (hh.key l hk))
    exact nomatch this

/-- How many steps a loop has left once the context is cancelled. -/
def left : Option Loop → Nat
  | some .asking => 2
  | some (.holding _) => 1
  | _ => 0

theorem cancelled_step {s : State} (h : s.cancelled = true) (a : Act) : (step s a).cancelled = true := by
  cases a with
  | opens => show (opens s).cancelled = true; unfold opens; split <;> exact h
  | closeBegin => show (closeBegin s).cancelled = true; unfold closeBegin; split <;> exact h
  | closeNext i =>
    show (closeNext s i).cancelled = true
    unfold closeNext
    split
    · simp [stop, h]
    · exact h
  | closeEnd i => show (closeEnd s i).cancelled = true; unfold closeEnd; split <;> exact h
  | loop i =>
    show (loop s i).cancelled = true
    unfold loop
    split
    · exact h
    · rw [if_pos h]; exact h
    · exact h
  | register i => show (register s i).cancelled = true; unfold register; split <;> exact h
  | expire l => exact h

/-- With a cancelled context a step of a loop brings it closer to its end and leaves the others alone. -/
theorem left_step {s : State} (h : s.cancelled = true) {a : Act} (ha : a ≠ .opens) (i : Nat) :
    left ((step s a).loops[i]?) = left (s.loops[i]?) - (if a = .loop i then 1 else 0) := by
  cases a with
  | opens => exact absurd rfl ha
  | closeBegin => show left ((closeBegin s).loops[i]?) = _; unfold closeBegin; split <;> simp
  | closeNext j => show left ((closeNext s j).loops[i]?) = _; unfold closeNext; split <;> simp [stop]
  | closeEnd j => show left ((closeEnd s j).loops[i]?) = _; unfold closeEnd; split <;> simp
  | register j => show left ((register s j).loops[i]?) = _; unfold register; split <;> simp
  | expire l => show left ((drop s l).loops[i]?) = _; simp [drop]
  | loop j =>
    show left ((loop s j).loops[i]?) = _
    by_cases hij : j = i
    · subst hij
      unfold loop
      cases hj : s.loops[j]? with
      | none => simp [hj, left]
      | some x =>
        have hlt : j < s.loops.length := by
          rw [List.getElem?_eq_some_iff] at hj; exact hj.1
        cases x with
        | asking => simp [left, hlt]
        | holding l => simp [h, left, hlt]
        | ended => simp [hj, left]
    · have hne : Act.loop j ≠ Act.loop i := by simpa using hij
      rw [if_neg hne]
      have : (loop s j).loops[i]? = s.loops[i]? := by
        unfold loop
        split
        · simp [hij]
        · rw [if_pos h]; simp [hij]
        · rfl
      rw [this]; rfl

theorem left_exec {acts : List Act} (hn : Act.opens ∉ acts) (i : Nat) : ∀ {s : State}, s.cancelled = true →
    left ((exec s acts).loops[i]?) = left (s.loops[i]?) - acts.count (.loop i) := by
  induction acts with
  | nil => intro s _; simp [exec]
  | cons a r ih =>
    intro s h
    have ha : a ≠ .opens := by rintro rfl; exact hn List.mem_cons_self
    show left ((exec (step s a) r).loops[i]?) = _
    rw [ih (fun hm => hn (List.mem_cons_of_mem _ hm)) (cancelled_step h a), left_step h ha i, List.count_cons]
    by_cases hai : a = .loop i
    · subst hai; simp; omega
    · simp [hai]

theorem length_step {s : State} {a : Act} (ha : a ≠ .opens) : (step s a).loops.length = s.loops.length := by
  cases a with
  | opens => exact absurd rfl ha
  | closeBegin => show (closeBegin s).loops.length = _; unfold closeBegin; split <;> rfl
  | closeNext j => show (closeNext s j).loops.length = _; unfold closeNext; split <;> rfl
  | closeEnd j => show (closeEnd s j).loops.length = _; unfold closeEnd; split <;> rfl
  | register j => show (register s j).loops.length = _; unfold register; split <;> rfl
  | expire l => rfl
  | loop j =>
    show (loop s j).loops.length = _
    unfold loop
    split
    · simp
    · split
      · simp
      · split <;> simp
    · rfl

theorem length_exec {acts : List Act} (hn : Act.opens ∉ acts) : ∀ {s : State},
    (exec s acts).loops.length = s.loops.length := by
  induction acts with
  | nil => intro s; rfl
  | cons a r ih =>
    intro s
    have ha : a ≠ .opens := by rintro rfl; exact hn List.mem_cons_self
    show (exec (step s a) r).loops.length = _
    rw [ih fun hm => hn (List.mem_cons_of_mem _ hm), length_step ha]

/-- **C90** (refutation: a server that has left does not come back): once the server has left — its `Lifecycle`
is closed — every loop, also one started by a later join, ends after two steps, and when all have had them the
server is not registered; whatever happened before and whatever else happens meanwhile. -/
theorem C90_rejoin_lost (before after : List Act) (hc : (exec init before).cancelled = true)
    (hn : Act.opens ∉ after) (hf : ∀ i, i < (exec init before).loops.length → 2 ≤ after.count (.loop i)) :
    (exec init (before ++ after)).key = none := by
  refine C90_ended_unregistered ?_
  intro l hl
  rw [exec_append] at hl
  obtain ⟨i, hi, rfl⟩ := List.mem_iff_getElem.1 hl
  have hlen : i < (exec init before).loops.length := by rw [length_exec hn] at hi; exact hi
  have h0 := left_exec hn i hc
  have h2 := hf i hlen
  have hle : left ((exec init before).loops[i]?) ≤ 2 := by
    unfold left; split <;> omega
  have hz : left ((exec (exec init before) after).loops[i]?) = 0 := by omega
  rw [List.getElem?_eq_getElem hi] at hz
  cases hx : (exec (exec init before) after).loops[i] with
  | asking => rw [hx] at hz; simp [left] at hz
  | holding m => rw [hx] at hz; simp [left] at hz
  | ended => rfl

/-- Joined and registered, left, joined again. -/
def again : List Act :=
  [.opens, .loop 0, .register 0, .closeBegin] ++ (List.replicate 6 (.closeNext 0) ++ [.closeEnd 0, .loop 0, .opens])

example : (exec init again).cancelled = true ∧ (exec init again).openUsed = true ∧
    (exec init again).running = tasks 1 ∧ (exec init again).loops = [.ended, .asking] ∧
    (exec init (again ++ [.loop 1, .register 0])).key = some 2 ∧
    (exec init (again ++ [.loop 0, .loop 0, .loop 1, .register 0, .loop 1])).key = none := by decide

/-- The same with the goroutine that registers coming last: etcd refuses, the lease is revoked. -/
example : (exec init (again ++ [.loop 1, .loop 1, .register 0])).key = none := by decide

/-- Nothing is left to do: no goroutine registers, no loop is about to ask for a lease or has lost one. -/
def settled (s : State) : Prop :=
  s.registering = [] ∧ s.closing = [] ∧
    ∀ x ∈ s.loops, match x with | .asking => False | .holding l => l ∈ s.leases | .ended => True

/-- **C90**, the full statement: a server whose last command was a join is registered once nothing is left to
do. -/
def C90_statement : Prop := ∀ acts : List Act, (exec init acts).openUsed = true → settled (exec init acts) →
  (exec init acts).key.isSome = true

theorem C90_statement_fails : ¬ C90_statement := by
  intro h
  have := h (again ++ [.loop 1, .register 0, .loop 1]) (by decide)
    ⟨by decide, by decide, by
      have he : (exec init (again ++ [.loop 1, .register 0, .loop 1])).loops = [.ended, .ended] := by decide
      rw [he]
      intro x hx
      simp only [List.mem_cons, List.not_mem_nil, or_false, or_self] at hx
      subst hx; trivial⟩
  exact absurd this (by decide)

theorem fold_unregister (ts : List Task) (g : Nat) : ∀ s : State, (g, Kind.unregister) ∈ ts ∨ s.key = none →
    (ts.foldl stop s).key = none := by
  induction ts with
  | nil => intro s h; rcases h with h | h; simp at h; exact h
  | cons t r ih =>
    intro s h
    refine ih (stop s t) ?_
    by_cases ht : t.2 = .unregister
    · exact .inr (by simp [stop, ht])
    · rcases h with h | h
      · rcases List.mem_cons.1 h with h | h
        · exact absurd (by rw [← h]) ht
        · exact .inl h
      · exact .inr (by simp [stop, ht, h])

theorem fold_lifecycle (ts : List Task) (g : Nat) : ∀ s : State, (g, Kind.lifecycle) ∈ ts ∨ s.cancelled = true →
    (ts.foldl stop s).cancelled = true := by
  induction ts with
  | nil => intro s h; rcases h with h | h; simp at h; exact h
  | cons t r ih =>
    intro s h
    refine ih (stop s t) ?_
    rcases h with h | h
    · rcases List.mem_cons.1 h with h | h
      · exact .inr (by simp [stop, ← h])
      · exact .inl h
    · exact .inr (by simp [stop, h])

/-- **C90** (leaving): in whatever state a leave finds a server that has joined, when it is done the server is
not registered and its `Lifecycle` is closed. -/
theorem C90_leave_unregisters {s : State} {g : Nat} (hc : s.closeUsed = false) (hn : s.closing = [])
    (he : s.events = tasks g) : (command s .leaves).key = none ∧ (command s .leaves).cancelled = true := by
  rw [exec_leaves hc hn, he]
  exact ⟨fold_unregister _ g _ (.inl (by simp [tasks, kinds])), fold_lifecycle _ g _ (.inl (by simp [tasks, kinds]))⟩

example : let s := exec init [.opens, .loop 0, .register 0]
    s.closeUsed = false ∧ s.closing = [] ∧ s.events = tasks 0 ∧ s.key = some 1 := by decide

/-! ## The first join -/

/-- A server that has never left. -/
inductive Fresh (s : State) : Prop where
  | idle (hu : s.openUsed = false) (hc : s.cancelled = false) (hl : s.loops = []) (he : s.leases = [])
  | asking (hu : s.openUsed = true) (hc : s.cancelled = false) (hl : s.loops = [.asking]) (he : s.leases = [])
  | holding (l : Nat) (hu : s.openUsed = true) (hc : s.cancelled = false) (hl : s.loops = [.holding l])
      (he : ∀ m ∈ s.leases, m = l) (hr : l ∈ s.leases → l ∈ s.registering ∨ s.key = some l)

theorem mem_of_erased {l : List Nat} {i m x : Nat} (hi : l[i]? = some x) (hm : m ∈ l) (hne : m ≠ x) :
    m ∈ l.eraseIdx i := by
  induction l generalizing i with
  | nil => simp at hm
  | cons y r ih =>
    cases i with
    | zero =>
      simp only [List.getElem?_cons_zero, Option.some.injEq] at hi
      subst hi
      rcases List.mem_cons.1 hm with h | h
      · exact absurd h hne
      · exact h
    | succ i =>
      simp only [List.getElem?_cons_succ] at hi
      rw [List.eraseIdx_cons_succ]
      rcases List.mem_cons.1 hm with h | h
      · rw [h]; exact List.mem_cons_self
      · exact List.mem_cons_of_mem _ (ih hi h)

theorem Fresh.step {s : State} (h : Fresh s) (hn : s.closing = []) {a : Act} (ha : a ≠ .closeBegin) :
    Fresh (step s a) ∧ (step s a).closing = [] := by
  cases a with
  | closeBegin => exact absurd rfl ha
  | closeNext i => simp only [JoinLeave.step, closeNext, hn, List.getElem?_nil]; exact ⟨h, trivial⟩
  | closeEnd i => simp only [JoinLeave.step, closeEnd, hn, List.getElem?_nil]; exact ⟨h, trivial⟩
  | opens =>
    show Fresh (opens s) ∧ (opens s).closing = []
    cases h with
    | idle hu hc hl he =>
      simp only [opens, hu, Bool.false_eq_true, if_false]
      exact ⟨.asking rfl hc (by rw [hl]; rfl) he, hn⟩
    | asking hu hc hl he => simp only [opens, hu, if_true]; exact ⟨.asking hu hc hl he, hn⟩
    | holding l hu hc hl he hr => simp only [opens, hu, if_true]; exact ⟨.holding l hu hc hl he hr, hn⟩
  | expire l =>
    refine ⟨?_, hn⟩
    show Fresh (drop s l)
    cases h with
    | idle hu hc hl he => exact .idle hu hc hl (by simp [drop, he])
    | asking hu hc hl he => exact .asking hu hc hl (by simp [drop, he])
    | holding m hu hc hl he hr =>
      refine .holding m hu hc hl (fun k hk => he k (List.mem_filter.1 hk).1) ?_
      intro hm
      have hm := List.mem_filter.1 hm
      have hne : m ≠ l := by simpa using hm.2
      rcases hr hm.1 with h | h
      · exact .inl h
      · refine .inr ?_
        show (if s.key = some l then none else s.key) = some m
        rw [h, if_neg (by simpa using hne)]
  | register i =>
    show Fresh (register s i) ∧ (register s i).closing = []
    unfold register
    cases hi : s.registering[i]? with
    | none => exact ⟨h, hn⟩
    | some l =>
      refine ⟨?_, hn⟩
      cases h with
      | idle hu hc hl he => exact .idle hu hc hl he
      | asking hu hc hl he => exact .asking hu hc hl he
      | holding m hu hc hl he hr =>
        refine .holding m hu hc hl he ?_
        intro hm
        show m ∈ s.registering.eraseIdx i ∨ (if l ∈ s.leases then some l else s.key) = some m
        by_cases hl : l ∈ s.leases
        · rw [if_pos hl, he l hl]; exact .inr rfl
        · rw [if_neg hl]
          have hne : m ≠ l := by rintro rfl; exact hl hm
          rcases hr hm with h | h
          · exact .inl (mem_of_erased hi h hne)
          · exact .inr h
  | loop i =>
    show Fresh (loop s i) ∧ (loop s i).closing = []
    cases h with
    | idle hu hc hl he => simp only [loop, hl, List.getElem?_nil]; exact ⟨.idle hu hc hl he, hn⟩
    | asking hu hc hl he =>
      cases i with
      | succ i => simp only [loop, hl, List.getElem?_cons_succ, List.getElem?_nil]; exact ⟨.asking hu hc hl he, hn⟩
      | zero =>
        simp only [loop, hl, List.getElem?_cons_zero, List.set_cons_zero]
        refine ⟨.holding s.nextLease hu hc rfl ?_ ?_, hn⟩
        · intro m hm
          rw [he] at hm
          simpa using hm
        · intro _
          exact .inl (by simp)
    | holding l hu hc hl he hr =>
      cases i with
      | succ i =>
        simp only [loop, hl, List.getElem?_cons_succ, List.getElem?_nil]
        exact ⟨.holding l hu hc hl he hr, hn⟩
      | zero =>
        simp only [loop, hl, List.getElem?_cons_zero, List.set_cons_zero, hc, Bool.false_eq_true, if_false]
        by_cases hm : l ∈ s.leases
        · rw [if_pos hm]; exact ⟨.holding l hu hc hl he hr, hn⟩
        · rw [if_neg hm]
          refine ⟨.asking hu rfl rfl ?_, hn⟩
          show s.leases = []
          cases hs : s.leases with
          | nil => rfl
          | cons m r =>
            have := he m (by rw [hs]; exact List.mem_cons_self)
            subst this
            exact absurd (by rw [hs]; exact List.mem_cons_self) hm

theorem Fresh.exec {s : State} (h : Fresh s) (hn : s.closing = []) {acts : List Act} (ha : Act.closeBegin ∉ acts) :
    Fresh (exec s acts) := by
  induction acts generalizing s with
  | nil => exact h
  | cons a r ih =>
    have hs := h.step hn (a := a) (by rintro rfl; exact ha List.mem_cons_self)
    exact ih hs.1 hs.2 fun hm => ha (List.mem_cons_of_mem _ hm)

/-- **C90** (partial: the server has never left): once nothing is left to do a server that was told to join is
registered under a valid lease, however many leases were lost on the way. -/
theorem C90_first_join_partial {acts : List Act} (hn : Act.closeBegin ∉ acts)
    (hj : (exec init acts).openUsed = true) (hs : settled (exec init acts)) :
    ∃ l ∈ (exec init acts).leases, (exec init acts).key = some l := by
  have h : Fresh (exec init acts) := Fresh.exec (.idle rfl rfl rfl rfl) rfl hn
  cases h with
  | idle hu => rw [hu] at hj; exact nomatch hj
  | asking hu hc hl he =>
    have := hs.2.2 .asking (by rw [hl]; exact List.mem_cons_self)
    exact this.elim
  | holding l hu hc hl he hr =>
    have hv : l ∈ (exec init acts).leases := hs.2.2 (.holding l) (by rw [hl]; exact List.mem_cons_self)
    rcases hr hv with h | h
    · rw [hs.1] at h; simp at h
    · exact ⟨l, hv, h⟩

/-- Two leases are lost, the second before the server has registered under it. -/
example : let s := exec init [.opens, .loop 0, .register 0, .expire 1, .loop 0, .loop 0, .expire 2, .loop 0, .loop 0,
      .register 0, .register 0]
    s.openUsed = true ∧ s.registering = [] ∧ s.loops = [.holding 3] ∧ s.leases = [3] ∧ s.key = some 3 := by decide

/-- **C90** (what a join asks comes too early): opening the pool does not register the server — a goroutine will
— so a join right after a leave is answered with "could not find register address" although it has opened the
pool. -/
theorem C90_join_too_early (cs : List Cmd) : (commands init (cs ++ [.leaves, .joins])).key = none := by
  have hk : ∀ (ts : List Task) (s : State), s.key = none → (ts.foldl stop s).key = none := by
    intro ts
    induction ts with
    | nil => intro s h; exact h
    | cons t r ih =>
      intro s h
      refine ih (stop s t) ?_
      simp only [stop, h]
      split <;> rfl
  have hc : ∀ (cs : List Cmd) (s : State) (x : Option Nat × Nat), Pool s x → s.key = none → (commands s cs).key = none := by
    intro cs
    induction cs with
    | nil => intro s x _ h; exact h
    | cons c r ih =>
      intro s x hp h
      refine ih (command s c) _ (hp.command c) ?_
      cases c with
      | joins =>
        show (opens s).key = none
        unfold opens
        split <;> exact h
      | leaves =>
        by_cases hu : s.closeUsed = true
        · unfold command stepsOf; rw [hu]; exact h
        · rw [exec_leaves (by simpa using hu) hp.closing]
          exact hk _ _ h
  exact hc _ init (none, 0) Pool.init rfl

/-! ## Commands that overlap -/

/-- Nothing will ever stop this task. -/
def Lost (s : State) (t : Task) : Prop :=
  t ∈ s.running ∧ t ∉ s.events ∧ (∀ c ∈ s.closing, t ∉ c) ∧ t.1 < s.opened

theorem tasks_fst {g : Nat} {t : Task} (h : t ∈ tasks g) : t.1 = g := by
  simp only [tasks, List.mem_map] at h
  obtain ⟨k, _, rfl⟩ := h
  rfl

theorem Lost.step {s : State} {t : Task} (h : Lost s t) (a : Act) : Lost (step s a) t := by
  obtain ⟨hr, he, hc, ho⟩ := h
  cases a with
  | opens =>
    show Lost (opens s) t
    unfold opens
    split
    · exact ⟨hr, he, hc, ho⟩
    · refine ⟨List.mem_append_left _ hr, ?_, hc, by show t.1 < s.opened + 1; omega⟩
      intro hm
      rcases List.mem_append.1 hm with hm | hm
      · exact he hm
      · have := tasks_fst hm; omega
  | closeBegin =>
    show Lost (closeBegin s) t
    unfold closeBegin
    split
    · exact ⟨hr, he, hc, ho⟩
    · refine ⟨hr, he, ?_, ho⟩
      intro c hm
      rcases List.mem_append.1 hm with hm | hm
      · exact hc c hm
      · simp only [List.mem_singleton] at hm
        subst hm
        simpa using he
  | closeNext i =>
    show Lost (closeNext s i) t
    unfold closeNext
    split
    · rename_i u r hi
      have hu : t ∉ u :: r := hc _ (List.mem_of_getElem? hi)
      have hne : t ≠ u := by rintro rfl; exact hu List.mem_cons_self
      refine ⟨(List.mem_erase_of_ne hne).2 hr, he, ?_, ho⟩
      intro c hm
      rcases List.mem_or_eq_of_mem_set hm with hm | rfl
      · exact hc c hm
      · exact fun h => hu (List.mem_cons_of_mem _ h)
    · exact ⟨hr, he, hc, ho⟩
  | closeEnd i =>
    show Lost (closeEnd s i) t
    unfold closeEnd
    split
    · exact ⟨hr, by simp, fun c hm => hc c (List.mem_of_mem_eraseIdx hm), ho⟩
    · exact ⟨hr, he, hc, ho⟩
  | loop i =>
    show Lost (loop s i) t
    unfold loop
    split
    · exact ⟨hr, he, hc, ho⟩
    · split
      · exact ⟨hr, he, hc, ho⟩
      · split <;> exact ⟨hr, he, hc, ho⟩
    · exact ⟨hr, he, hc, ho⟩
  | register i =>
    show Lost (register s i) t
    unfold register
    split <;> exact ⟨hr, he, hc, ho⟩
  | expire l => exact ⟨hr, he, hc, ho⟩

theorem Lost.exec {s : State} {t : Task} (h : Lost s t) (acts : List Act) : Lost (exec s acts) t := by
  induction acts generalizing s with
  | nil => exact h
  | cons a r ih => exact ih (h.step a)

/-- A join arrives when the leave has replaced `openOnce` and before its functions have run. -/
def overlap : List Act := [.opens, .closeBegin, .opens] ++ (List.replicate 6 (.closeNext 0) ++ [.closeEnd 0])

/-- **C90** (refutation, overlapping commands): all tasks which such a join has started run for ever, however
often the server is told to leave afterwards. -/
theorem C90_overlap_leaks (acts : List Act) : ∀ t ∈ tasks 1, t ∈ (exec init (overlap ++ acts)).running := by
  intro t ht
  rw [exec_append]
  have h : ∀ t ∈ tasks 1, Lost (exec init overlap) t := by
    have he : exec init overlap = { (exec init overlap) with events := [], closing := [], opened := 2, running := tasks 1 } := by
      decide
    intro t ht
    rw [he]
    exact ⟨ht, by simp, by simp, by show t.1 < 2; rw [tasks_fst ht]; omega⟩
  exact ((h t ht).exec acts).1

example : (exec init (overlap ++ ([.closeBegin] ++ [.closeEnd 0, .opens]))).running = tasks 1 ++ tasks 2 := by decide

end Verif.Object.JoinLeave
