/-!
# Task groups: C54

`util.DoneGroup` (src/common/util/done_group.go): a `sync.WaitGroup` with a channel of capacity 1 for one
error.  Every use in the repository but one has the same shape: the creator calls `Todo` and starts tasks
(which may start more, rs_encoder.go:74-94), then calls `WaitUntilError`, and `Close`s the group.  The
model is a state machine whose actions are the atomic steps of these calls; a run is any list of actions,
so statements about all runs are statements about all interleavings.
-/

namespace Verif.Conc

/-- The group and the observers' view of it.  `E` is the type of errors. -/
structure Group (E : Type) where
  /-- the counter of the `sync.WaitGroup`: tasks between `Todo` and `Done` -/
  running : Nat
  /-- `closed`, done_group.go:37 -/
  closed : Bool
  /-- the message in the channel `ec` -/
  buf : Option E
  /-- the channel `ec` is closed -/
  chanClosed : Bool
  /-- a task has won the CAS of `Error` (line 74) and has not sent yet: its error -/
  sending : Option E
  /-- a task has sent and has not yet closed the channel (line 75) -/
  sent : Bool
  /-- tasks that panicked and whose `Done` has decremented but not yet reported (lines 59-64) -/
  late : Nat
  /-- the creator is inside `WaitUntilError` or beyond -/
  waiting : Bool
  /-- the goroutine of `WaitDone` has returned from `Wait` (line 105) -/
  doneReady : Bool
  /-- what `WaitUntilError` returned -/
  result : Option (Option E)
  /-- something was sent to, or closed, a closed channel -/
  panicked : Bool
  /-- not part of the code: all errors handed to `Error`, in the order of the calls' CAS -/
  reported : List E
  /-- not part of the code: number of `Todo` calls and of finished tasks -/
  todos : Nat
  dones : Nat
  deriving DecidableEq

/-- `NewDoneGroup`, done_group.go:46-48. -/
def Group.new (E : Type) : Group E :=
  ⟨0, false, none, false, none, false, 0, false, false, none, false, [], 0, 0⟩

inductive Act (E : Type)
  /-- `Todo`, lines 67-70 -/
  | todo
  /-- `Error(e)` up to the CAS, line 74 -/
  | error (e : E)
  /-- the send of line 76 -/
  | send
  /-- the close of line 75 -/
  | closeChan
  /-- `Done` of a task that did not panic, line 59 -/
  | done
  /-- `Done` of a task that panicked: the counter is decremented first (line 59) -/
  | panicDone
  /-- … and the panic reported afterwards (line 63): `Error(e)` up to the CAS -/
  | lateError (e : E)
  /-- entering `WaitUntilError`, line 119 -/
  | wait
  /-- `Wait` returns in the goroutine of `WaitDone`, line 105 -/
  | zero
  /-- the select takes the first case, lines 121-122 -/
  | takeDone
  /-- the select takes the second case, lines 123-124 -/
  | takeErr
  /-- `Close`, lines 112-116 -/
  | close
  deriving DecidableEq

def tryError {E} (s : Group E) (e : E) : Group E :=
  let s := { s with reported := s.reported ++ [e] }
  if s.closed then s else { s with closed := true, sending := some e }

/-- One step; `none` when the action is not possible in this state.  Tasks act only while they run; the
creator starts tasks only before it waits; it closes the group after waiting, as all callers do.
Simplified: the counter is not below zero (a `Done` without `Todo` panics and is turned into an error). -/
def Group.step {E} (s : Group E) : Act E → Option (Group E)
  | .todo =>
    if s.waiting = false ∨ 0 < s.running then
      some { s with running := s.running + 1, todos := s.todos + 1 } else none
  | .error e => if 0 < s.running then some (tryError s e) else none
  | .send =>
    match s.sending with
    | none => none
    | some e =>
      if s.chanClosed then some { s with panicked := true, sending := none }
      else if s.buf.isSome then none
      else some { s with buf := some e, sending := none, sent := true }
  | .closeChan =>
    if s.sent then
      some { s with sent := false, chanClosed := true, panicked := s.panicked || s.chanClosed } else none
  | .done =>
    if 0 < s.running then some { s with running := s.running - 1, dones := s.dones + 1 } else none
  | .panicDone =>
    if 0 < s.running then
      some { s with running := s.running - 1, dones := s.dones + 1, late := s.late + 1 } else none
  | .lateError e => if 0 < s.late then some (tryError { s with late := s.late - 1 } e) else none
  | .wait => if s.waiting = false then some { s with waiting := true } else none
  | .zero =>
    if s.waiting = true ∧ s.running = 0 then some { s with doneReady := true } else none
  | .takeDone =>
    if s.waiting = true ∧ s.result = none ∧ s.doneReady = true then some { s with result := some none }
    else none
  | .takeErr =>
    if s.waiting = true ∧ s.result = none then
      match s.buf with
      | some e => some { s with buf := none, result := some (some e) }
      | none => if s.chanClosed then some { s with result := some none } else none
    else none
  | .close =>
    if s.result = none then none
    else if s.closed then some s
    else some { s with closed := true, chanClosed := true, panicked := s.panicked || s.chanClosed }

def Group.run {E} (s : Group E) : List (Act E) → Option (Group E)
  | [] => some s
  | a :: l =>
    match s.step a with
    | none => none
    | some s' => s'.run l

/-- States reachable from a fresh group by some interleaving. -/
def Reachable {E} (s : Group E) : Prop := ∃ l, (Group.new E).run l = some s

/-- What holds in every reachable state. -/
structure Inv {E} (s : Group E) : Prop where
  count : s.todos = s.running + s.dones
  idle : s.waiting = true → s.doneReady = true → s.running = 0
  notReady : s.waiting = false → s.doneReady = false
  noResult : s.waiting = false → s.result = none
  first : ∀ e, s.sending = some e ∨ s.buf = some e ∨ s.result = some (some e) → s.reported.head? = some e
  nilRes : s.result = some none → s.doneReady = true
  open_ : s.closed = false → s.reported = [] ∧ s.sending = none ∧ s.buf = none ∧ s.sent = false ∧
    s.chanClosed = false
  sendingClean : s.sending.isSome → s.buf = none ∧ s.sent = false ∧ s.chanClosed = false ∧
    ∀ e, s.result ≠ some (some e)
  sentOpen : s.sent = true → s.chanClosed = false
  sentBuf : s.closed = true → s.sending = none → s.result = none → s.buf.isSome
  noPanic : s.panicked = false

theorem inv_new (E : Type) : Inv (Group.new E) := by
  constructor <;> simp [Group.new]

theorem inv_tryError {E} {s : Group E} (h : Inv s) (e : E) : Inv (tryError s e) := by
  obtain ⟨h1, h2, h3, h4, h5, h6, h7, h8, h9, h10, h12⟩ := h
  unfold tryError
  cases hc : s.closed with
  | false =>
    obtain ⟨a1, a2, a3, a4, a5⟩ := h7 hc
    have a6 : ∀ e, s.result ≠ some (some e) := by
      intro e' he
      have := h5 e' (Or.inr (Or.inr he))
      rw [a1] at this; cases this
    constructor <;> simp_all
  | true =>
    constructor <;> simp_all
    intro e' he'
    have := h5 e' he'
    simp [List.head?_append, this]

theorem inv_step {E} {s s' : Group E} (h : Inv s) (a : Act E) (hs : s.step a = some s') : Inv s' := by
  have h0 := h
  obtain ⟨h1, h2, h3, h4, h5, h6, h7, h8, h9, h10, h12⟩ := h
  cases a with
  | error e =>
    simp only [Group.step] at hs
    split at hs <;> cases hs
    exact inv_tryError h0 e
  | lateError e =>
    simp only [Group.step] at hs
    split at hs <;> cases hs
    apply inv_tryError
    constructor <;> simp_all <;> exact h5
  | send =>
    simp only [Group.step] at hs
    cases hsd : s.sending with
    | none => simp [hsd] at hs
    | some e =>
      have h8' := h8 (by simp [hsd])
      simp only [hsd, h8'.2.2.1, h8'.1] at hs
      simp at hs
      subst hs
      constructor <;> simp_all
  | todo =>
    simp only [Group.step] at hs
    split at hs <;> cases hs
    rename_i hc
    constructor <;> simp_all <;> first | exact h5 | omega | skip
    intro hw
    cases hd : s.doneReady with
    | false => rfl
    | true =>
      have := h2 hw hd
      rcases hc with hc | hc
      · rw [hw] at hc; cases hc
      · omega
  | done =>
    simp only [Group.step] at hs
    split at hs <;> cases hs
    constructor <;> simp_all <;> first | exact h5 | omega | skip
  | panicDone =>
    simp only [Group.step] at hs
    split at hs <;> cases hs
    constructor <;> simp_all <;> first | exact h5 | omega | skip
  | wait =>
    simp only [Group.step] at hs
    split at hs <;> cases hs
    constructor <;> simp_all <;> exact h5
  | zero =>
    simp only [Group.step] at hs
    split at hs <;> cases hs
    constructor <;> simp_all <;> exact h5
  | takeDone =>
    simp only [Group.step] at hs
    split at hs <;> cases hs
    constructor <;> simp_all <;> exact h5
  | takeErr =>
    simp only [Group.step] at hs
    split at hs
    · rename_i hc
      cases hb : s.buf with
      | some e =>
        simp only [hb] at hs; cases hs
        constructor <;> simp_all <;> exact h5
      | none =>
        simp only [hb] at hs
        split at hs <;> cases hs
        constructor <;> simp_all <;> exact h5
    · cases hs
  | closeChan =>
    simp only [Group.step] at hs
    split at hs <;> cases hs
    constructor <;> simp_all <;> exact h5
  | close =>
    simp only [Group.step] at hs
    split at hs
    · cases hs
    · split at hs <;> cases hs
      · exact h0
      · constructor <;> simp_all <;> exact h5

theorem inv_run {E} (l : List (Act E)) {s s' : Group E} (h : Inv s) (hs : s.run l = some s') : Inv s' := by
  induction l generalizing s with
  | nil => cases hs; exact h
  | cons a l ih =>
    simp only [Group.run] at hs
    cases ha : s.step a with
    | none => simp [ha] at hs
    | some s1 =>
      rw [ha] at hs
      exact ih (inv_step h a ha) hs

theorem inv_reachable {E} {s : Group E} (h : Reachable s) : Inv s := by
  obtain ⟨l, hl⟩ := h
  exact inv_run l (inv_new E) hl

/-! ## The property -/

/-- A run with two tasks, the second started by the first; the first fails. -/
def sampleRun : List (Act String) :=
  [.todo, .wait, .todo, .error "e", .done, .send, .closeChan, .takeErr, .close, .done]

example : (Group.new String).run sampleRun = some ⟨0, true, none, true, none, false, 0, true, false,
    some (some "e"), false, ["e"], 2, 2⟩ := by decide

/-- **C54**: an error that is returned is the first one any task reported. -/
theorem C54_returns_first_error {E} {s : Group E} (h : Reachable s) {e : E} (hr : s.result = some (some e)) :
    s.reported.head? = some e :=
  (inv_reachable h).first e (Or.inr (Or.inr hr))

/-- **C54**: if nothing was reported, no error is returned. -/
theorem C54_no_spurious_error {E} {s : Group E} (h : Reachable s) (hn : s.reported = []) (e : E) :
    s.result ≠ some (some e) := by
  intro hr
  have := C54_returns_first_error h hr
  rw [hn] at this; cases this

/-- **C54**: success is returned only after every started task has finished; and no task runs any more. -/
theorem C54_success_waits_for_all {E} {s : Group E} (h : Reachable s) (hr : s.result = some none) :
    s.dones = s.todos ∧ s.running = 0 := by
  have hi := inv_reachable h
  have hw : s.waiting = true := by
    cases hw : s.waiting with
    | true => rfl
    | false => rw [hi.noResult hw] at hr; cases hr
  have := hi.idle hw (hi.nilRes hr)
  have := hi.count
  omega

/-- No interleaving sends on or closes a closed channel. -/
theorem C54_no_panic {E} {s : Group E} (h : Reachable s) : s.panicked = false := (inv_reachable h).noPanic

/-- A waiting creator is never stuck once the tasks have finished: it can be served. -/
theorem C54_no_deadlock {E} {s : Group E} (hw : s.waiting = true)
    (hr : s.result = none) (hz : s.running = 0) :
    ∃ s', s.run [.zero, .takeDone] = some s' ∧ s'.result = some none := by
  simp [Group.run, Group.step, hw, hr, hz]

/-- An error that has been sent while some task is still running is returned by every continuation that
returns anything before the tasks finish. -/
theorem C54_error_while_running_partial {E} {s : Group E} (h : Reachable s) (hc : s.closed = true)
    (hz : 0 < s.running) {r : Option E} {s' : Group E} (a : Act E) (hs : s.step a = some s')
    (hn : s.result = none) (hr : s'.result = some r) : r = s.reported.head? ∧ r.isSome := by
  have hi := inv_reachable h
  cases a with
  | takeDone =>
    simp only [Group.step] at hs
    split at hs <;> cases hs
    rename_i hc
    have := hi.idle hc.1 hc.2.2
    omega
  | takeErr =>
    simp only [Group.step] at hs
    split at hs
    · cases hb : s.buf with
      | some e =>
        simp only [hb] at hs; cases hs
        cases hr
        exact ⟨(hi.first e (Or.inr (Or.inl hb))).symm, rfl⟩
      | none =>
        simp only [hb] at hs
        split at hs <;> cases hs
        rename_i hcl
        cases hsd : s.sending with
        | some e => rw [(hi.sendingClean (by simp [hsd])).2.2.1] at hcl; cases hcl
        | none =>
          have := hi.sentBuf hc hsd hn
          rw [hb] at this; cases this
    · cases hs
  | todo => simp only [Group.step] at hs; split at hs <;> cases hs; rw [hn] at hr; cases hr
  | error e =>
    simp only [Group.step, if_pos hz] at hs; cases hs
    simp only [tryError] at hr
    split at hr <;> simp [hn] at hr
  | lateError e =>
    simp only [Group.step] at hs; split at hs <;> cases hs
    simp only [tryError] at hr
    split at hr <;> simp [hn] at hr
  | send =>
    simp only [Group.step] at hs
    cases hsd : s.sending with
    | none => simp [hsd] at hs
    | some e =>
      have h8 := hi.sendingClean (by simp [hsd])
      simp [hsd, h8.1, h8.2.2.1] at hs
      subst hs
      simp [hn] at hr
  | closeChan => simp only [Group.step] at hs; split at hs <;> cases hs; rw [hn] at hr; cases hr
  | done => simp only [Group.step, if_pos hz] at hs; cases hs; rw [hn] at hr; cases hr
  | panicDone => simp only [Group.step, if_pos hz] at hs; cases hs; rw [hn] at hr; cases hr
  | wait => simp only [Group.step] at hs; split at hs <;> cases hs; rw [hn] at hr; cases hr
  | zero => simp only [Group.step] at hs; split at hs <;> cases hs; rw [hn] at hr; cases hr
  | close => simp [Group.step, hn] at hs

/-- Two tasks, one of which has reported an error; the other still runs; the wait is about to return. -/
example : ∃ s s' : Group String, (Group.new String).run [.todo, .todo, .error "a", .send, .done, .wait] = some s ∧
    s.closed = true ∧ s.running = 1 ∧ s.result = none ∧ s.step .takeErr = some s' ∧
    s'.result = some (some "a") := ⟨_, _, rfl, rfl, rfl, rfl, rfl, rfl⟩

/-- The full statement of C54's first half: an error reported by a task (before the task finished) is
returned. -/
def ErrorsReturned (E : Type) : Prop :=
  ∀ s : Group E, Reachable s → s.reported ≠ [] → s.result ≠ some none

/-- **C54 fails**: with one task that reports an error and finishes before the creator selects, both cases
of the select are ready, and Go may choose the first: the error is lost. -/
theorem C54_error_lost : ¬ ErrorsReturned Unit := by
  intro h
  exact h _ ⟨[.todo, .error (), .send, .closeChan, .done, .wait, .zero, .takeDone], rfl⟩ (by decide) rfl

/-- The same loss for a panicking task, even if the creator is already waiting: the counter is decremented
before the panic is reported. -/
theorem C54_panic_lost : ∃ s : Group Unit, Reachable s ∧ s.reported = [()] ∧ s.result = some none ∧
    s.buf = none :=
  ⟨_, ⟨[.todo, .wait, .panicDone, .zero, .takeDone, .close, .lateError ()], rfl⟩, by decide, rfl, rfl⟩

/-- Exactly which results are possible: a run in which the tasks report the errors `es` in this order (and
nothing else) can end with `nil`, and, if there is one, with the first error; with nothing else. -/
theorem C54_outcomes {E} (es : List E) (r : Option E) :
    (∃ s : Group E, Reachable s ∧ s.reported = es ∧ s.result = some r) ↔ (r = none ∨ r = es.head?) := by
  constructor
  · rintro ⟨s, h, rfl, hr⟩
    cases r with
    | none => exact Or.inl rfl
    | some e => exact Or.inr (C54_returns_first_error h hr).symm
  · intro h
    have errs : ∀ (es : List E) (s : Group E), 0 < s.running → s.closed = true →
        s.run (es.map .error) = some { s with reported := s.reported ++ es } := by
      intro es
      induction es with
      | nil => intro s _ _; simp [Group.run]
      | cons e es ih =>
        intro s h1 h2
        have hs : s.step (.error e) = some { s with reported := s.reported ++ [e] } := by
          simp [Group.step, tryError, h1, h2]
        simp only [List.map_cons, Group.run, hs]
        refine (ih { s with reported := s.reported ++ [e] } h1 h2).trans ?_
        simp
    have app : ∀ (l₁ l₂ : List (Act E)) (s : Group E),
        s.run (l₁ ++ l₂) = (s.run l₁).bind (fun s => s.run l₂) := by
      intro l₁
      induction l₁ with
      | nil => intro l₂ s; rfl
      | cons a l ih =>
        intro l₂ s
        simp only [List.cons_append, Group.run]
        cases s.step a with
        | none => rfl
        | some s1 => exact ih l₂ s1
    cases es with
    | nil =>
      have hr : r = none := by rcases h with h | h <;> simpa using h
      subst hr
      exact ⟨_, ⟨[.wait, .zero, .takeDone], rfl⟩, rfl, rfl⟩
    | cons e es =>
      have h1 : (Group.new E).run [.todo, .error e, .send, .closeChan] =
          some ⟨1, true, some e, true, none, false, 0, false, false, none, false, [e], 1, 0⟩ := rfl
      have h2 := errs es ⟨1, true, some e, true, none, false, 0, false, false, none, false, [e], 1, 0⟩
        (by simp) rfl
      rcases h with h | h
      · subst h
        refine ⟨⟨0, true, some e, true, none, false, 0, true, true, some none, false, [e] ++ es, 1, 1⟩,
          ⟨[.todo, .error e, .send, .closeChan] ++ (es.map .error ++ [.done, .wait, .zero, .takeDone]), ?_⟩,
          rfl, rfl⟩
        rw [app, h1, Option.bind_some, app, h2]
        rfl
      · subst h
        refine ⟨⟨1, true, none, true, none, false, 0, true, false, some (some e), false, [e] ++ es, 1, 0⟩,
          ⟨[.todo, .error e, .send, .closeChan] ++ (es.map .error ++ [.wait, .takeErr]), ?_⟩,
          rfl, rfl⟩
        rw [app, h1, Option.bind_some, app, h2]
        rfl

/-! ## The limited group -/

/-- `limitDoneGroup`, done_group.go:128-151: `slots` messages are in the channel `limitChan`, `held` counts
tasks between the receive on `Todo` and the `Done` of the inner group, `leaving` those after it. -/
structure Limited where
  slots : Nat
  pending : Nat
  running : Nat
  leaving : Nat
  deriving DecidableEq

inductive LAct
  /-- line 139: the send to the channel of capacity `max` -/
  | acquire
  /-- line 140 -/
  | todo
  /-- line 144 -/
  | done
  /-- line 145 -/
  | release
  deriving DecidableEq

def Limited.step (max : Nat) (s : Limited) : LAct → Option Limited
  | .acquire => if s.slots < max then some { s with slots := s.slots + 1, pending := s.pending + 1 } else none
  | .todo => if 0 < s.pending then some { s with pending := s.pending - 1, running := s.running + 1 } else none
  | .done => if 0 < s.running then some { s with running := s.running - 1, leaving := s.leaving + 1 } else none
  | .release =>
    if 0 < s.leaving ∧ 0 < s.slots then
      some { s with leaving := s.leaving - 1, slots := s.slots - 1 } else none

def Limited.run (max : Nat) (s : Limited) : List LAct → Option Limited
  | [] => some s
  | a :: l =>
    match s.step max a with
    | none => none
    | some s' => s'.run max l

theorem limited_inv (max : Nat) (l : List LAct) (s s' : Limited)
    (h : s.slots = s.pending + s.running + s.leaving ∧ s.slots ≤ max) (hs : s.run max l = some s') :
    s'.slots = s'.pending + s'.running + s'.leaving ∧ s'.slots ≤ max := by
  induction l generalizing s with
  | nil => cases hs; exact h
  | cons a l ih =>
    simp only [Limited.run] at hs
    cases ha : s.step max a with
    | none => simp [ha] at hs
    | some s1 =>
      rw [ha] at hs
      refine ih s1 ?_ hs
      cases a <;> simp only [Limited.step] at ha <;> split at ha <;> cases ha <;> simp only <;> omega

/-- In every interleaving at most `max` tasks run at the same time, and a `Done` never blocks: there is a
message to receive. -/
theorem C54_limited (max : Nat) (l : List LAct) (s : Limited)
    (h : Limited.run max ⟨0, 0, 0, 0⟩ l = some s) :
    s.running ≤ max ∧ (0 < s.leaving → s.step max .release ≠ none) := by
  have := limited_inv max l _ s (by simp) h
  refine ⟨by omega, fun hl => ?_⟩
  simp only [Limited.step]
  rw [if_pos (by omega)]
  simp

example : Limited.run 2 ⟨0, 0, 0, 0⟩ [.acquire, .todo, .acquire, .todo, .done, .release, .acquire] =
    some ⟨2, 1, 1, 0⟩ := by decide

example : Limited.run 2 ⟨0, 0, 0, 0⟩ [.acquire, .todo, .acquire, .todo, .acquire] = none := by decide

end Verif.Conc
