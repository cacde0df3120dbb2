import Verif.Perf.Collector

/-!
# The life of the performance collector (C100)

Models `NewCollector`, `getStore`, `PutAsync`, `startAutoFlush` and `Close` of src/common/performance/collector.go on top
of `Put` and `Flush` (`Verif.Perf.Collector`), with a clock, and the way the API server creates and ends the collector
(src/apiserver/internal/usecase/pool/instance.go:36-41, 76-93).

Simplified: time is a number that only grows.  The ticker of the background loop may fire at any time (the theorem about
delays says what follows for an interval between two looks; Go's ticker drops ticks for slow receivers).  A goroutine
started by `PutAsync` runs at any later time, in any order.  The calls between `Lock` and `Unlock` are one step.  `Close`
reads `stopAutoSave` without synchronisation with the goroutine that writes it; it is read as set once the goroutine has
written it.  A panic in the background goroutine ends the process, because `graceful.Recover` panics again
(`Verif.Conc.Panics`).
-/

namespace Verif.Perf.Life
open Verif.Perf

/-! ## Creation -/

/-- `StoreType`; config.go:5-11.  `other` is any other text of the configuration. -/
inductive StoreType | none | loc | remote | other
deriving DecidableEq, Repr

/-- What `NewCollector` gives. -/
inductive Made
  | nothing                 -- `noneCollector`: records are thrown away
  | discards                -- a collector with `noneStore`
  | collects (t : StoreType)
  | panics
deriving DecidableEq, Repr

/-- `NewCollector` with `getStore`; collector.go:28-45, 64-77.  `ready t` says that a store of this kind was set and is not
nil (`NewLocalStore` gives nil if the database cannot be opened, local_store.go:32-43).  A negative `MaxInMemory` makes
`make` panic. -/
def newCollector (enable : Bool) (t : StoreType) (max : Int) (ready : StoreType → Bool) : Made :=
  if ¬ enable then .nothing
  else match t with
    | .none => if max < 0 then .panics else .discards
    | .loc => if ready .loc then (if max < 0 then .panics else .collects .loc) else .panics
    | .remote => if ready .remote then (if max < 0 then .panics else .collects .remote) else .panics
    | .other => .panics

/-- `initPerform`; instance.go:76-93: the store that is configured is set first; `opens` says that the local database could
be opened (`NewEtcdStore` cannot fail). -/
def initPerform (enable : Bool) (t : StoreType) (max : Int) (opens : Bool) : Made :=
  newCollector enable t max fun u => match u with
    | .loc => enable && (t == .loc) && opens
    | .remote => enable && (t == .remote)
    | _ => false

/-! ## The running collector -/

/-- `Config`; config.go:13-19.  An interval of 0 stands for every interval that is not positive. -/
structure Cfg where
  conf : Conf
  interval : Nat

/-- The background goroutine; collector.go:138-164. -/
inductive Loop | fresh | running | stopped | crashed
deriving DecidableEq, Repr

/-- `pmCollector`; collector.go:54-61, and what goes on around it. -/
structure St where
  now : Nat
  col : Col
  /-- `lastSaveTime`; none is the zero time. -/
  last : Option Nat
  /-- Goroutines of `PutAsync` that have not run yet. -/
  waiting : List Rec
  /-- Records dropped because memory was full. -/
  dropped : List Rec
  loop : Loop
  /-- `stopAutoSave` is set. -/
  cancel : Bool
  /-- `stopAutoSave` was called. -/
  cancelled : Bool
deriving DecidableEq

/-- collector.go:68-75. -/
def St.init : St := ⟨0, Col.init, none, [], [], .fresh, false, false⟩

/-- A step; the flag is the answer of the store should it be asked. -/
inductive Ev
  | measure (r : Rec)
  | put (i : Nat) (ok : Bool)
  | start
  | wait (d : Nat)
  | look (ok : Bool)
  | stop
  | close (ok : Bool)
deriving DecidableEq

/-- `Flush` with the time it notes; collector.go:117-124. -/
def St.flush (s : St) (ok : Bool) : St := { s with last := some s.now, col := (Perf.flush s.col ok).1 }

/-- `Put`; collector.go:96-114. -/
def St.put (c : Cfg) (s : St) (r : Rec) (ok : Bool) : St :=
  let col := (collect c.conf s.col r ok).1
  if c.conf.max < s.col.mem.length + 1 then
    if c.conf.flushWhenReached then { s with col := col, last := some s.now }
    else { s with col := col, dropped := s.dropped ++ (s.col.mem ++ [r]).take 1 }
  else { s with col := col }

/-- What happens, none if it cannot happen in this state. -/
def step (c : Cfg) (s : St) (e : Ev) : Option St :=
  if s.loop = .crashed then none
  else match e with
  -- PutAsync; collector.go:83-94
  | .measure r => some { s with waiting := s.waiting ++ [r] }
  | .put i ok => match s.waiting[i]? with
    | some r => some (St.put c { s with waiting := s.waiting.eraseIdx i } r ok)
    | none => none
  -- collector.go:139-143; `NewTicker` panics for an interval that is not positive
  | .start => if s.loop = .fresh then
      (if c.interval = 0 then some { s with loop := .crashed } else some { s with loop := .running, cancel := true })
    else none
  | .wait d => some { s with now := s.now + d }
  -- flushFn; collector.go:144-153, 156-157
  | .look ok => if s.loop = .running then
      (if s.last.any (fun t => s.now - t < c.interval) then some s else some (s.flush ok))
    else none
  -- collector.go:158-160
  | .stop => if s.loop = .running ∧ s.cancelled then some { s with loop := .stopped } else none
  -- Close; collector.go:126-136
  | .close ok => some (if ok then { s.flush ok with cancelled := s.cancelled || s.cancel } else s.flush ok)

def run (c : Cfg) (s : St) : List Ev → Option St
  | [] => some s
  | e :: es => match step c s e with
    | some s' => run c s' es
    | none => none

/-! ## Specification -/

/-- The records measured. -/
def measured (es : List Ev) : List Rec := es.filterMap fun e => match e with | .measure r => some r | _ => none

/-- The time that passes. -/
def elapsed (es : List Ev) : Nat := (es.map fun e => match e with | .wait d => d | _ => 0).sum

/-- The number of records that reach the collector. -/
def puts (es : List Ev) : Nat := es.countP fun e => match e with | .put _ _ => true | _ => false

/-- The store does not fail. -/
def Ev.fine : Ev → Bool
  | .put _ ok | .look ok | .close ok => ok
  | _ => true

def Ev.closes : Ev → Bool
  | .close ok => ok
  | _ => false

/-! ## Lemmas -/

theorem run_append (c : Cfg) : ∀ (a b : List Ev) (s : St), run c s (a ++ b) = (run c s a).bind fun s' => run c s' b := by
  intro a
  induction a with
  | nil => intro b s; rfl
  | cons e a ih =>
    intro b s
    rw [List.cons_append, run, run]
    cases step c s e with
    | none => rfl
    | some s' => exact ih b s'

/-- What one record does to memory, store and the dropped. -/
theorem put_cases (c : Cfg) (s : St) (r : Rec) (ok : Bool) :
    ((s.put c r ok).dropped = s.dropped ∧ (s.put c r ok).col.saved = s.col.saved ∧
      (s.put c r ok).col.mem = s.col.mem ++ [r] ∧ ((s.put c r ok).last = s.last ∨ (s.put c r ok).last = some s.now ∧ ok = false)) ∨
    ((s.put c r ok).dropped = s.dropped ∧ (s.put c r ok).col.saved = s.col.saved ++ (s.col.mem ++ [r]) ∧
      (s.put c r ok).col.mem = [] ∧ ok = true) ∨
    (c.conf.flushWhenReached = false ∧ (s.put c r ok).dropped = s.dropped ++ (s.col.mem ++ [r]).take 1 ∧
      (s.put c r ok).col.saved = s.col.saved ∧ (s.put c r ok).col.mem = (s.col.mem ++ [r]).tail ∧
      (s.put c r ok).last = s.last) := by
  unfold St.put collect Perf.flush
  simp only [List.length_append, List.length_singleton]
  by_cases h1 : c.conf.max < s.col.mem.length + 1 <;> cases h2 : c.conf.flushWhenReached <;> cases ok <;> simp [h1]

theorem put_frame (c : Cfg) (s : St) (r : Rec) (ok : Bool) :
    (s.put c r ok).now = s.now ∧ (s.put c r ok).waiting = s.waiting ∧ (s.put c r ok).loop = s.loop ∧
    (s.put c r ok).cancel = s.cancel ∧ (s.put c r ok).cancelled = s.cancelled := by
  unfold St.put
  dsimp only
  split <;> (try split) <;> simp

theorem eraseIdx_perm {α : Type} : ∀ {l : List α} {i : Nat} {a : α}, l[i]? = some a → l.Perm (a :: l.eraseIdx i)
  | [], _, _, h => by simp at h
  | x :: l, 0, a, h => by simp at h; subst h; exact List.Perm.refl _
  | x :: l, i + 1, a, h => by
    simp only [List.getElem?_cons_succ] at h
    exact ((eraseIdx_perm h).cons x).trans (List.Perm.swap a x _)

/-- Everything that is somewhere. -/
def St.all (s : St) : List Rec := s.waiting ++ (s.dropped ++ (s.col.mem ++ s.col.saved))

theorem flush_all (s : St) (ok : Bool) : (s.flush ok).all.Perm s.all := by
  unfold St.flush St.all Perf.flush
  cases ok
  · exact List.Perm.refl _
  · simp only [if_true, List.nil_append]
    exact List.Perm.append_left _ (List.Perm.append_left _ List.perm_append_comm)

theorem put_all (c : Cfg) (s : St) (r : Rec) (ok : Bool) : (s.put c r ok).all.Perm (r :: s.all) := by
  have hw := (put_frame c s r ok).2.1
  unfold St.all
  rw [hw]
  have key : ∀ (w d m v : List Rec), (r :: (w ++ (d ++ (m ++ v)))).Perm (w ++ (d ++ ((m ++ [r]) ++ v))) := by
    intro w d m v
    have := (List.perm_middle (a := r) (l₁ := w ++ (d ++ m)) (l₂ := v)).symm
    simpa [List.append_assoc] using this
  rcases put_cases c s r ok with ⟨h1, h2, h3, _⟩ | ⟨h1, h2, h3, _⟩ | ⟨_, h1, h2, h3, _⟩
  · rw [h1, h2, h3]; exact (key ..).symm
  · rw [h1, h2, h3, List.nil_append]
    refine List.Perm.trans ?_ (key ..).symm
    exact List.Perm.append_left _ (List.Perm.append_left _ List.perm_append_comm)
  · rw [h1, h2, h3]
    refine List.Perm.trans ?_ (key ..).symm
    refine List.Perm.append_left _ ?_
    rw [List.append_assoc]
    refine List.Perm.append_left _ ?_
    rw [← List.append_assoc]
    refine List.Perm.append_right _ ?_
    cases s.col.mem <;> simp

theorem step_all {c : Cfg} {s s' : St} {e : Ev} (h : step c s e = some s') :
    s'.all.Perm (measured [e] ++ s.all) := by
  unfold step at h
  split at h
  · simp at h
  · cases e <;> simp only [] at h
    case measure r =>
      simp only [Option.some.injEq] at h; subst h
      unfold St.all
      simp only [measured, List.filterMap_cons, List.filterMap_nil, List.singleton_append]
      rw [List.append_assoc]
      exact List.perm_middle
    case put i ok =>
      split at h
      · rename_i r hr
        simp only [Option.some.injEq] at h; subst h
        refine (put_all ..).trans ?_
        simp only [measured, List.filterMap_cons, List.filterMap_nil, List.nil_append]
        unfold St.all
        exact ((eraseIdx_perm hr).append_right _).symm
      · simp at h
    case start =>
      split at h
      · split at h <;> (simp only [Option.some.injEq] at h; subst h; exact List.Perm.refl _)
      · simp at h
    case wait d => simp only [Option.some.injEq] at h; subst h; exact List.Perm.refl _
    case look ok =>
      split at h
      · split at h <;> (simp only [Option.some.injEq] at h; subst h)
        · exact List.Perm.refl _
        · exact flush_all s ok
      · simp at h
    case stop =>
      split at h
      · simp only [Option.some.injEq] at h; subst h; exact List.Perm.refl _
      · simp at h
    case close ok =>
      simp only [Option.some.injEq] at h; subst h
      split
      · exact flush_all s ok
      · exact flush_all s ok

theorem run_all {c : Cfg} : ∀ {es : List Ev} {s s' : St}, run c s es = some s' → s'.all.Perm (measured es ++ s.all) := by
  intro es
  induction es with
  | nil => intro s s' h; simp only [run, Option.some.injEq] at h; subst h; exact List.Perm.refl _
  | cons e es ih =>
    intro s s' h
    rw [run] at h
    split at h
    · rename_i s1 h1
      have a := ih h
      have b := step_all h1
      refine a.trans (((List.Perm.append_left _ b)).trans ?_)
      have : measured (e :: es) = measured [e] ++ measured es := by
        simp only [measured]; cases e <;> simp
      rw [this, ← List.append_assoc]
      exact List.perm_append_comm.append_right _
    · simp at h

/-- Anything that a step keeps, a run keeps. -/
theorem run_keeps {c : Cfg} {P : St → Prop} {Q : Ev → Bool} (hstep : ∀ s s' e, Q e = true → P s → step c s e = some s' → P s') :
    ∀ {es : List Ev} {s s' : St}, (∀ e ∈ es, Q e = true) → P s → run c s es = some s' → P s' := by
  intro es
  induction es with
  | nil => intro s s' _ hp h; simp only [run, Option.some.injEq] at h; subst h; exact hp
  | cons e es ih =>
    intro s s' hq hp h
    rw [run] at h
    split at h
    · rename_i s1 h1
      exact ih (fun e' he => hq e' (List.mem_cons_of_mem _ he)) (hstep s s1 e (hq e (List.mem_cons_self ..)) hp h1) h
    · simp at h

theorem step_dropped {c : Cfg} (hf : c.conf.flushWhenReached = true) {s s' : St} {e : Ev} (h : step c s e = some s') :
    s'.dropped = s.dropped := by
  unfold step at h
  split at h
  · simp at h
  · cases e <;> simp only [] at h
    case put i ok =>
      split at h
      · rename_i r hr
        simp only [Option.some.injEq] at h; subst h
        rcases put_cases c { s with waiting := s.waiting.eraseIdx i } r ok with h | h | h
        · exact h.1
        · exact h.1
        · rw [hf] at h; exact absurd h.1 (by simp)
      · simp at h
    all_goals (first | (simp only [Option.some.injEq] at h; subst h; first | rfl | (split <;> rfl)) | skip)
    all_goals grind [St.flush]

/-! ## C100 -/

/-- **C100** Nothing gets lost inside the process: whatever happens, every record measured is waiting for its goroutine, in
memory, in the store or was dropped, and nothing else is. -/
theorem C100_accounted {c : Cfg} {es : List Ev} {s : St} (h : run c .init es = some s) :
    (measured es).Perm (s.waiting ++ (s.dropped ++ (s.col.mem ++ s.col.saved))) := by
  have := run_all h
  simp only [St.all, St.init, Col.init, List.append_nil] at this
  exact this.symm

/-- **C100** With `flush-when-reached` nothing is ever dropped. -/
theorem C100_none_dropped {c : Cfg} (hf : c.conf.flushWhenReached = true) {es : List Ev} {s : St} (h : run c .init es = some s) :
    s.dropped = [] :=
  run_keeps (P := fun s => s.dropped = []) (Q := fun _ => true)
    (fun s s' e _ hp hs => (step_dropped hf hs).trans hp) (fun _ _ => rfl) rfl h

theorem step_now {c : Cfg} {s s' : St} {e : Ev} (h : step c s e = some s') : s'.now = s.now + elapsed [e] := by
  unfold step at h
  split at h
  · simp at h
  · cases e <;> simp only [elapsed, List.map_cons, List.map_nil, List.sum_cons, List.sum_nil] at h ⊢
    case put i ok =>
      split at h
      · simp only [Option.some.injEq] at h; subst h
        rw [(put_frame ..).1]; rfl
      · simp at h
    all_goals grind [St.flush]

theorem run_now {c : Cfg} : ∀ {es : List Ev} {s s' : St}, run c s es = some s' → s'.now = s.now + elapsed es := by
  intro es
  induction es with
  | nil => intro s s' h; simp only [run, Option.some.injEq] at h; subst h; rfl
  | cons e es ih =>
    intro s s' h
    rw [run] at h
    split at h
    · rename_i s1 h1
      rw [ih h, step_now h1]
      simp only [elapsed, List.map_cons, List.sum_cons, List.map_nil, List.sum_nil]
      omega
    · simp at h

theorem put_last (c : Cfg) (s : St) (r : Rec) (ok : Bool) : (s.put c r ok).last = s.last ∨ (s.put c r ok).last = some s.now := by
  unfold St.put
  dsimp only
  split <;> (try split) <;> simp

/-- The time of the last flush has passed. -/
def Past (s : St) : Prop := ∀ t, s.last = some t → t ≤ s.now

theorem Past.step {c : Cfg} {s s' : St} {e : Ev} (hp : Past s) (h : step c s e = some s') : Past s' := by
  unfold Life.step at h
  split at h
  · simp at h
  · cases e <;> simp only [] at h
    case put i ok =>
      split at h
      · simp only [Option.some.injEq] at h; subst h
        rename_i r _
        intro t ht
        rw [(put_frame ..).1]
        rcases put_last c { s with waiting := s.waiting.eraseIdx i } r ok with h | h
        · exact hp t (h.symm.trans ht)
        · rw [h] at ht; simp only [Option.some.injEq] at ht; exact Nat.le_of_eq ht.symm
      · simp at h
    all_goals (unfold Past at *; grind [St.flush])

theorem Past.run {c : Cfg} {es : List Ev} {s : St} (h : run c .init es = some s) : Past s :=
  run_keeps (P := Past) (Q := fun _ => true) (fun _ _ _ _ hp hs => hp.step hs) (fun _ _ => rfl)
    (by intro t ht; simp [St.init] at ht) h

/-- What became of the memory of `s1`, at most `n` records later. -/
def Since (c : Cfg) (s1 : St) (n : Nat) (s : St) : Prop :=
  ∃ k, k ≤ n ∧ (c.conf.flushWhenReached = true → k = 0) ∧
    ((∃ rest, s.col.saved = s1.col.saved ++ s1.col.mem.drop k ++ rest) ∨
     (s.col.saved = s1.col.saved ∧ s.last = s1.last ∧ ∃ new, s.col.mem = s1.col.mem.drop k ++ new))

theorem Since.mono {c : Cfg} {s1 s : St} {n m : Nat} (h : Since c s1 n s) (hnm : n ≤ m) : Since c s1 m s := by
  obtain ⟨k, hk, r⟩ := h; exact ⟨k, Nat.le_trans hk hnm, r⟩

theorem Since.frame {c : Cfg} {s1 s s' : St} {n : Nat} (h : Since c s1 n s) (h1 : s'.col = s.col) (h2 : s'.last = s.last) :
    Since c s1 n s' := by
  unfold Since at *; rw [h1, h2]; exact h

theorem Since.flush {c : Cfg} {s1 s : St} {n : Nat} (h : Since c s1 n s) : Since c s1 n (s.flush true) := by
  obtain ⟨k, hk, hf, h⟩ := h
  refine ⟨k, hk, hf, Or.inl ?_⟩
  rcases h with ⟨rest, h⟩ | ⟨h, _, new, hm⟩
  · exact ⟨rest ++ s.col.mem, by simp [St.flush, Perf.flush, h]⟩
  · exact ⟨new, by simp [St.flush, Perf.flush, h, hm]⟩

theorem Since.put {c : Cfg} {s1 s : St} {n : Nat} (r : Rec) (h : Since c s1 n s) : Since c s1 (n + 1) (s.put c r true) := by
  obtain ⟨k, hk, hf, h⟩ := h
  rcases put_cases c s r true with ⟨_, h2, h3, h4⟩ | ⟨_, h2, h3, _⟩ | ⟨h0, _, h2, h3, h4⟩
  · have h4 : (s.put c r true).last = s.last := by
      rcases h4 with h4 | ⟨_, h4⟩
      · exact h4
      · simp at h4
    refine ⟨k, by omega, hf, ?_⟩
    rcases h with ⟨rest, h⟩ | ⟨h, hl, new, hm⟩
    · exact Or.inl ⟨rest, h2.trans h⟩
    · exact Or.inr ⟨h2.trans h, h4.trans hl, new ++ [r], by rw [h3, hm]; simp⟩
  · refine ⟨k, by omega, hf, Or.inl ?_⟩
    rcases h with ⟨rest, h⟩ | ⟨h, hl, new, hm⟩
    · exact ⟨rest ++ (s.col.mem ++ [r]), by rw [h2, h]; simp⟩
    · exact ⟨new ++ [r], by rw [h2, h, hm]; simp⟩
  · rcases h with ⟨rest, h⟩ | ⟨h, hl, new, hm⟩
    · exact ⟨k, by omega, hf, Or.inl ⟨rest, h2.trans h⟩⟩
    · refine ⟨k + 1, by omega, fun hx => absurd hx (by simp [h0]), Or.inr ⟨h2.trans h, h4.trans hl, ?_⟩⟩
      rw [h3, hm]
      cases hd : s1.col.mem.drop k with
      | nil =>
        refine ⟨(new ++ [r]).tail, ?_⟩
        have : s1.col.mem.drop (k + 1) = [] := by
          rw [List.drop_eq_nil_iff] at hd ⊢; omega
        rw [this]; simp
      | cons x xs =>
        refine ⟨new ++ [r], ?_⟩
        have : s1.col.mem.drop (k + 1) = xs := by
          rw [← List.drop_drop, hd]; rfl
        rw [this]; simp

theorem Since.step {c : Cfg} {s1 s s' : St} {n : Nat} {e : Ev} (hs : Since c s1 n s) (he : e.fine = true)
    (h : step c s e = some s') : Since c s1 (n + puts [e]) s' := by
  unfold Life.step at h
  split at h
  · simp at h
  · cases e <;> simp only [] at h
    case put i ok =>
      simp only [Ev.fine] at he; subst he
      split at h
      · simp only [Option.some.injEq] at h; subst h
        exact Since.put (s := { s with waiting := s.waiting.eraseIdx i }) _ (hs.frame rfl rfl)
      · simp at h
    case look ok =>
      simp only [Ev.fine] at he; subst he
      split at h
      · split at h <;> (simp only [Option.some.injEq] at h; subst h)
        · exact hs
        · exact hs.flush
      · simp at h
    case close ok =>
      simp only [Ev.fine] at he; subst he
      simp only [if_true, Option.some.injEq] at h; subst h
      exact hs.flush.frame rfl rfl
    case measure r => simp only [Option.some.injEq] at h; subst h; exact hs.frame rfl rfl
    case wait d => simp only [Option.some.injEq] at h; subst h; exact hs.frame rfl rfl
    case start =>
      split at h
      · split at h <;> (simp only [Option.some.injEq] at h; subst h; exact hs.frame rfl rfl)
      · simp at h
    case stop =>
      split at h
      · simp only [Option.some.injEq] at h; subst h; exact hs.frame rfl rfl
      · simp at h

theorem Since.run {c : Cfg} {s1 : St} : ∀ {es : List Ev} {n : Nat} {s s' : St}, Since c s1 n s →
    (∀ e ∈ es, e.fine = true) → Life.run c s es = some s' → Since c s1 (n + puts es) s' := by
  intro es
  induction es with
  | nil => intro n s s' hs _ h; simp only [Life.run, Option.some.injEq] at h; subst h; exact hs
  | cons e es ih =>
    intro n s s' hs hf h
    rw [Life.run] at h
    split at h
    · rename_i s2 h2
      have := ih (hs.step (hf e (List.mem_cons_self ..)) h2) (fun e' he => hf e' (List.mem_cons_of_mem _ he)) h
      refine this.mono ?_
      simp only [puts, List.countP_cons, List.countP_nil]
      omega
    · simp at h

/-- **C100** What is in memory is handed to the store by the first look that comes an interval later, if the store works
meanwhile; of a full memory without `flush-when-reached` at most as many records are missing as came in meanwhile, the
oldest ones. -/
theorem C100_soon {c : Cfg} {pre es : List Ev} {s1 s2 : St} (h1 : run c .init pre = some s1)
    (h2 : run c s1 (es ++ [.look true]) = some s2) (hf : ∀ e ∈ es, e.fine = true) (ht : c.interval ≤ elapsed es) :
    ∃ k rest, s2.col.saved = s1.col.saved ++ s1.col.mem.drop k ++ rest ∧ k ≤ puts es ∧
      (c.conf.flushWhenReached = true → k = 0) := by
  rw [run_append] at h2
  cases hm : run c s1 es with
  | none => rw [hm] at h2; simp at h2
  | some s =>
    rw [hm] at h2
    simp only [Option.bind_some] at h2
    have hs : Since c s1 (0 + puts es) s := Since.run ⟨0, Nat.le_refl _, fun _ => rfl, Or.inr ⟨rfl, rfl, [], by simp⟩⟩ hf hm
    rw [Nat.zero_add] at hs
    have hn := run_now hm
    have hp := Past.run h1
    rw [run] at h2
    split at h2
    · rename_i s3 h3
      simp only [run, Option.some.injEq] at h2; subst h2
      unfold step at h3
      split at h3
      · simp at h3
      · simp only [] at h3
        split at h3
        · split at h3
          · rename_i hlast
            simp only [Option.some.injEq] at h3; subst h3
            obtain ⟨k, hk, hkf, hs⟩ := hs
            rcases hs with ⟨rest, hs⟩ | ⟨_, hl, _⟩
            · exact ⟨k, rest, hs, hk, hkf⟩
            · exfalso
              rw [hl] at hlast
              rw [Option.any_eq_true] at hlast
              obtain ⟨t, ht1, ht2⟩ := hlast
              have := hp t ht1
              simp only [decide_eq_true_eq] at ht2
              omega
          · simp only [Option.some.injEq] at h3; subst h3
            obtain ⟨k, hk, hkf, hs⟩ := hs
            rcases hs with ⟨rest, hs⟩ | ⟨h, _, new, hmem⟩
            · exact ⟨k, rest ++ s.col.mem, by simp [St.flush, Perf.flush, hs], hk, hkf⟩
            · exact ⟨k, new, by simp [St.flush, Perf.flush, h, hmem], hk, hkf⟩
        · simp at h3
    · simp at h2

def sampleCfg : Cfg := ⟨⟨2, true⟩, 5⟩
def windowCfg : Cfg := ⟨⟨2, false⟩, 5⟩
def recA : Rec := ⟨"http".toList, "read".toList, 7⟩
def recB : Rec := ⟨"http".toList, "write".toList, 9⟩
def recC : Rec := ⟨"grpc".toList, "write".toList, 4⟩

/-- Two records come in, the store fails once, five time units later the loop stores them. -/
example : (run sampleCfg .init [.start, .measure recA, .put 0 true, .look false, .wait 3, .look true, .wait 2, .look true]).map
    (fun s => (s.col.mem, s.col.saved)) = some ([], [recA]) := by decide

/-- Without `flush-when-reached` the first of three is gone. -/
example : (run windowCfg .init [.start, .measure recA, .measure recB, .put 1 true, .put 0 true, .measure recC, .wait 5, .put 0 true,
    .look true]).map (fun s => (s.dropped, s.col.saved)) = some ([recB], [recA, recC]) := by decide

/-- **C100** After a flush that failed, the loop does not try again before the interval is over, although the store may work:
the time is noted before the store is asked. -/
theorem C100_failed_waits {c : Cfg} {s s' : St} {d : Nat} (hd : d < c.interval) (hl : ∀ t, s.last = some t → t + c.interval ≤ s.now)
    (h : run c s [.look false, .wait d, .look true] = some s') :
    s'.col.mem = s.col.mem ∧ s'.col.saved = s.col.saved := by
  have hany : s.last.any (fun t => decide (s.now - t < c.interval)) = false := by
    rw [Option.any_eq_false]
    intro t ht
    have := hl t ht
    simp only [decide_eq_false_iff_not, Nat.not_lt, decide_eq_true_eq]; omega
  by_cases hr : s.loop = .running
  · simp [run, step, hr, hany, St.flush, Perf.flush, hd] at h
    subst h
    exact ⟨rfl, rfl⟩
  · simp [run, step, hr] at h

example : (run sampleCfg .init [.start, .measure recA, .put 0 true, .look false, .wait 3, .look true]).map
    (fun s => (s.col.mem, s.col.saved)) = some ([recA], []) := by decide

/-! ### The end -/

/-- **C100** A `Close` without an error leaves nothing in memory: what was measured is in the store, waits for its goroutine
or was dropped. -/
theorem C100_close {c : Cfg} {es : List Ev} {s : St} (h : run c .init (es ++ [.close true]) = some s) :
    s.col.mem = [] ∧ (measured es).Perm (s.waiting ++ (s.dropped ++ s.col.saved)) := by
  have hm : s.col.mem = [] := by
    rw [run_append] at h
    cases hx : run c .init es with
    | none => rw [hx] at h; simp at h
    | some s1 =>
      rw [hx] at h
      simp only [Option.bind_some, run, step] at h
      by_cases hc : s1.loop = .crashed
      · simp [hc] at h
      · simp only [hc, if_false, if_true, Option.some.injEq] at h
        subst h
        rfl
  refine ⟨hm, ?_⟩
  have := C100_accounted h
  have he : measured (es ++ [.close true]) = measured es := by simp [measured]
  rwa [he, hm, List.nil_append] at this

/-- **C100** in full: once the collector has been closed without an error, every record measured is in the store, and the
background loop is told to stop. -/
def C100_statement : Prop :=
  ∀ (c : Cfg) (es : List Ev) (s : St), c.conf.flushWhenReached = true → 0 < c.interval →
    run c .init (es ++ [.close true]) = some s → (measured es).Perm s.col.saved ∧ s.cancelled = true

/-- **C100** holds for a collector whose loop has started and whose records have all been put in. -/
theorem C100_partial {c : Cfg} {es : List Ev} {s : St} (hf : c.conf.flushWhenReached = true)
    (h : run c .init (es ++ [.close true]) = some s) (hw : s.waiting = []) (hc : s.cancel = true) :
    (measured es).Perm s.col.saved ∧ s.cancelled = true := by
  have h1 := (C100_close h).2
  rw [hw, C100_none_dropped hf h] at h1
  refine ⟨h1, ?_⟩
  rw [run_append] at h
  cases hx : run c .init es with
  | none => rw [hx] at h; simp at h
  | some s1 =>
    rw [hx] at h
    simp only [Option.bind_some, run, step] at h
    by_cases hcr : s1.loop = .crashed
    · simp [hcr] at h
    · simp only [hcr, if_false, if_true, Option.some.injEq] at h
      subst h
      have : s1.cancel = true := hc
      simp [this]

example : (run sampleCfg .init ([.start, .measure recA, .measure recB, .put 1 true, .put 0 true] ++ [.close true])).map
    (fun s => (s.col.saved, s.waiting, s.cancel, s.cancelled)) = some ([recB, recA], [], true, true) := by decide

/-- **C100** in full is false: a record whose goroutine has not run yet is not in the store when `Close` returns (and is lost
when the process ends). -/
theorem C100_statement_fails : ¬ C100_statement := by
  intro h
  have := (h sampleCfg [.start, .measure recA] _ rfl (by decide) rfl).1
  have := this.length_eq
  simp [measured, St.init, St.flush, Col.init, Perf.flush] at this

/-- **C100** The background loop does not end unless a `Close` succeeds after the loop has begun: closing before that, or a
`Close` whose flush fails, leaves it running for good. -/
theorem C100_loop_goes_on {c : Cfg} {es : List Ev} {s s' : St} (hs : s.cancelled = false) (hl : s.loop ≠ .stopped)
    (hn : ∀ e ∈ es, e.closes = false) (h : run c s es = some s') : s'.cancelled = false ∧ s'.loop ≠ .stopped := by
  refine run_keeps (P := fun s => s.cancelled = false ∧ s.loop ≠ .stopped) (Q := fun e => ! e.closes) ?_ (by simpa using hn) ⟨hs, hl⟩ h
  intro s s' e he ⟨hc, hl⟩ h
  unfold step at h
  split at h
  · simp at h
  · cases e <;> simp only [] at h
    case put i ok =>
      split at h
      · simp only [Option.some.injEq] at h; subst h
        have := put_frame c { s with waiting := s.waiting.eraseIdx i } (by assumption) ok
        exact ⟨this.2.2.2.2.trans hc, fun hx => hl (this.2.2.1.symm.trans hx)⟩
      · simp at h
    all_goals grind [St.flush, Ev.closes]

/-- **C100** A `Close` that comes before the loop has begun does not end it. -/
theorem C100_early_close {c : Cfg} {es : List Ev} {s s' : St} (hs : s.cancelled = false) (hc : s.cancel = false) (hl : s.loop = .fresh)
    (hn : ∀ e ∈ es, e.closes = false) (h : run c s (.close true :: es) = some s') : s'.cancelled = false ∧ s'.loop ≠ .stopped := by
  rw [run] at h
  have : step c s (.close true) = some { s.flush true with cancelled := false } := by simp [step, hl, hs, hc]
  rw [this] at h
  exact C100_loop_goes_on rfl (by simp [St.flush, hl]) hn h

/-- **C100** …and then it does end: a `Close` that succeeds after the loop has begun lets the loop end with the next step. -/
theorem C100_loop_ends {c : Cfg} {s s' : St} (hl : s.loop = .running) (hc : s.cancel = true)
    (h : run c s [.close true] = some s') : ∃ s'', run c s' [.stop] = some s'' ∧ s''.loop = .stopped := by
  simp only [run, step, hl] at h
  simp only [reduceCtorEq, if_false, if_true, Option.some.injEq] at h
  subst h
  simp [run, step, St.flush, hl, hc]

/-- Closed before the loop has begun: the loop runs, and stores what comes in later. -/
example : (run sampleCfg .init [.close true, .start, .measure recA, .put 0 true, .wait 5, .look true]).map
    (fun s => (s.cancelled, s.loop, s.col.saved)) = some (false, .running, [recA]) := by decide

/-- The loop has begun, the flush of `Close` fails: nothing ends, nothing is stored. -/
example : (run sampleCfg .init [.start, .measure recA, .put 0 true, .close false]).map
    (fun s => (s.cancelled, s.loop, s.col.saved)) = some (false, .running, []) := by decide

/-- **C100** With an interval that is not positive the process ends as soon as the loop begins. -/
theorem C100_no_interval {c : Cfg} (hi : c.interval = 0) {es : List Ev} {s : St} (hl : s.loop = .fresh) (h : run c s (.start :: es) ≠ none) :
    es = [] ∧ ∃ s', run c s (.start :: es) = some s' ∧ s'.loop = .crashed := by
  have hs : step c s .start = some { s with loop := .crashed } := by simp [step, hl, hi]
  rw [run, hs] at h ⊢
  cases es with
  | nil => exact ⟨rfl, _, rfl, rfl⟩
  | cons e es => simp [run, step] at h

/-- **C100** Memory holds no more than the limit, provided the store works. -/
theorem C100_memory {c : Cfg} {es : List Ev} {s : St} (hf : ∀ e ∈ es, e.fine = true) (h : run c .init es = some s) :
    s.col.mem.length ≤ c.conf.max := by
  refine run_keeps (P := fun s => s.col.mem.length ≤ c.conf.max) (Q := Ev.fine) ?_ hf (by simp [St.init, Col.init]) h
  intro s s' e he hp h
  unfold step at h
  split at h
  · simp at h
  · cases e <;> simp only [] at h
    case put i ok =>
      simp only [Ev.fine] at he; subst he
      split at h
      · simp only [Option.some.injEq] at h; subst h
        unfold St.put collect Perf.flush
        simp only [List.length_append, List.length_singleton]
        by_cases h1 : c.conf.max < s.col.mem.length + 1 <;> cases h2 : c.conf.flushWhenReached <;> simp [h1]
        · omega
        · omega
        · omega
      · simp at h
    all_goals grind [St.flush, Perf.flush, Ev.fine]

/-- **C100** Which collector there is: none if it is not enabled, none that keeps anything for the store "none", the
configured one otherwise; an unknown store, a database that cannot be opened and a negative limit end the server. -/
theorem C100_created (enable : Bool) (t : StoreType) (max : Int) (opens : Bool) :
    (initPerform enable t max opens = .nothing ↔ enable = false) ∧
    (initPerform enable t max opens = .discards ↔ enable = true ∧ t = .none ∧ 0 ≤ max) ∧
    (∀ u, initPerform enable t max opens = .collects u ↔
      enable = true ∧ u = t ∧ 0 ≤ max ∧ (t = .remote ∨ t = .loc ∧ opens = true)) ∧
    (initPerform enable t max opens = .panics ↔
      enable = true ∧ (t = .other ∨ max < 0 ∨ t = .loc ∧ opens = false)) := by
  unfold initPerform newCollector
  cases enable <;> cases t <;> cases opens <;> by_cases hm : max < 0 <;> simp [hm] <;> (try omega) <;>
    (intro u; cases u <;> simp <;> omega)

example : initPerform true .loc 1000 true = .collects .loc ∧ initPerform true .loc 1000 false = .panics ∧
    initPerform true .remote 1000 false = .collects .remote ∧ initPerform false .other (-1) false = .nothing := by decide

end Verif.Perf.Life
