import Verif.Perf.Store

/-!
# The collector of performance records (C71)

Models src/common/performance/collector.go: records are kept in memory and handed to the store in
batches.

Simplified: the calls are serialised by the mutex of the collector (`Put`, `Close` and the ticker
take it; the exported `Flush` does not and is not modelled as a separate caller); the store's
answer is an input of the call; a batch that is refused leaves the store unchanged (bbolt rolls the
transaction back); `MaxInMemory` is not negative.  The ticker's test of the time since the last
flush is an input: a tick that does not flush changes nothing.
-/

namespace Verif.Perf

/-- `pmCollector` with the batches its store accepted; collector.go:54-61. -/
structure Col where
  mem : List Rec
  saved : List Rec
deriving DecidableEq

def Col.init : Col := ⟨[], []⟩

/-- `Config`; config.go:13-19. -/
structure Conf where
  max : Nat
  flushWhenReached : Bool

/-- A call, with the answer of the store should it be asked. -/
inductive Call where
  | put (r : Rec) (ok : Bool)
  | flush (ok : Bool)
deriving DecidableEq

/-- `Flush`; collector.go:117-124.  `Close` (126-136) and the ticker (144-153) call it too. -/
def flush (c : Col) (ok : Bool) : Col × Bool :=
  if ok then (⟨[], c.saved ++ c.mem⟩, true) else (c, false)

/-- `Put`; collector.go:96-114. -/
def collect (cf : Conf) (c : Col) (r : Rec) (ok : Bool) : Col × Bool :=
  let c := { c with mem := c.mem ++ [r] }
  if cf.max < c.mem.length then
    if cf.flushWhenReached then flush c ok
    else ({ c with mem := c.mem.tail }, true)
  else (c, true)

def step (cf : Conf) (c : Col) : Call → Col × Bool
  | .put r ok => collect cf c r ok
  | .flush ok => flush c ok

def run (cf : Conf) (c : Col) (calls : List Call) : Col :=
  calls.foldl (fun c e => (step cf c e).1) c

/-! ### Specification -/

/-- All records handed to the collector, in order. -/
def handed (calls : List Call) : List Rec :=
  calls.filterMap fun e => match e with
    | .put r _ => some r
    | .flush _ => none

/-- The last `n` elements. -/
def lastN {α : Type} (n : Nat) (l : List α) : List α := l.drop (l.length - n)

/-- The records handed over since the last flush that succeeded, in a history (newest call first)
in which only `flush` calls the store. -/
def sinceFlush : List Call → List Rec
  | [] => []
  | .put r _ :: older => sinceFlush older ++ [r]
  | .flush true :: _ => []
  | .flush false :: older => sinceFlush older

/-- Full statement: whatever the store answers, no record is lost or doubled, their order is kept,
and the memory never holds more than the configured number. -/
def C71_statement : Prop :=
  ∀ (cf : Conf) (calls : List Call),
    (run cf Col.init calls).saved ++ (run cf Col.init calls).mem = handed calls ∧
      (run cf Col.init calls).mem.length ≤ cf.max

/-! ### Theorems -/

theorem run_append (cf : Conf) (c : Col) (xs ys : List Call) :
    run cf c (xs ++ ys) = run cf (run cf c xs) ys := by simp [run]

/-- With `FlushWhenReached` no record is lost or doubled, whatever the store answers.  Missing
from the full statement: the limit, which fails when the store refuses (`C71_over_limit`). -/
theorem C71_kept_partial (cf : Conf) (hf : cf.flushWhenReached = true) (calls : List Call) :
    (run cf Col.init calls).saved ++ (run cf Col.init calls).mem = handed calls := by
  have key : ∀ (calls : List Call) (c : Col),
      (run cf c calls).saved ++ (run cf c calls).mem = c.saved ++ c.mem ++ handed calls := by
    intro calls
    induction calls with
    | nil => intro c; simp [run, handed]
    | cons e calls ih =>
      intro c
      have h1 := ih (step cf c e).1
      rw [show run cf c (e :: calls) = run cf (step cf c e).1 calls from rfl, h1]
      cases e with
      | put r ok =>
        simp only [step, collect, hf, if_true, flush, handed, List.filterMap_cons]
        split <;> cases ok <;> simp
      | flush ok =>
        simp only [step, flush, handed, List.filterMap_cons]
        cases ok <;> simp
  simpa [Col.init] using key calls Col.init

/-- … and the limit holds as long as the store accepts. -/
theorem C71_limit (cf : Conf) (hf : cf.flushWhenReached = true) (calls : List Call)
    (hok : ∀ e ∈ calls, (∃ r, e = .put r true) ∨ e = .flush true) :
    (run cf Col.init calls).mem.length ≤ cf.max := by
  have key : ∀ (calls : List Call) (c : Col), c.mem.length ≤ cf.max →
      (∀ e ∈ calls, (∃ r, e = .put r true) ∨ e = .flush true) →
      (run cf c calls).mem.length ≤ cf.max := by
    intro calls
    induction calls with
    | nil => intro c h _; exact h
    | cons e calls ih =>
      intro c h hok
      refine ih (step cf c e).1 ?_ fun x hx => hok x (List.mem_cons_of_mem _ hx)
      rcases hok e List.mem_cons_self with ⟨r, rfl⟩ | rfl
      · simp only [step, collect, hf, if_true, flush]
        split
        · simp
        · rename_i hle
          exact Nat.le_of_not_lt hle
      · simp [step, flush]
  exact key calls Col.init (by simp [Col.init]) hok

/-- A flush that succeeds (in particular `Close`) leaves everything in the store. -/
theorem C71_flushed (cf : Conf) (hf : cf.flushWhenReached = true) (calls : List Call) :
    (run cf Col.init (calls ++ [.flush true])).saved = handed calls ∧
      (run cf Col.init (calls ++ [.flush true])).mem = [] := by
  rw [run_append]
  have := C71_kept_partial cf hf calls
  simp only [run, List.foldl_cons, List.foldl_nil, step, flush, if_true] at this ⊢
  exact ⟨this, trivial⟩

/-- The records in the store of `Perf/Store` after a closed session are those handed over: a read
by kind returns them all.  Composes the collector with `LocalStore`; the store is given the
batches one after the other. -/
theorem C71_end_to_end (cf : Conf) (hf : cf.flushWhenReached = true) (calls : List Call)
    (kind : Str) (hk : kind ≠ []) (hp : ∀ r ∈ handed calls, r.Plain) :
    match getRecs (put Db.init (run cf Col.init (calls ++ [.flush true])).saved) kind [] with
    | some rs => rs.Perm ((handed calls).filter (wanted kind []))
    | none => (handed calls).filter (wanted kind []) = [] := by
  rw [(C71_flushed cf hf calls).1]
  exact C70_by_kind _ kind hk hp

theorem lastN_snoc {α : Type} (n : Nat) (l : List α) (a : α) :
    lastN n (l ++ [a]) =
      if n < (lastN n l).length + 1 then (lastN n l ++ [a]).tail else lastN n l ++ [a] := by
  have hl : (lastN n l).length = min n l.length := by simp only [lastN, List.length_drop]; omega
  split
  · rename_i h
    have hn : n ≤ l.length := by omega
    simp only [lastN, List.length_append, List.length_cons, List.length_nil]
    rw [← List.drop_append_of_le_length (by omega), List.tail_drop]
    congr 1
    omega
  · rename_i h
    have hn : l.length < n := by omega
    have h1 : (l ++ [a]).length - n = 0 := by simp; omega
    have h2 : l.length - n = 0 := by omega
    simp only [lastN, h1, h2, List.drop_zero]

/-- Without `FlushWhenReached` the memory holds, at any time, the last `MaxInMemory` records handed
over since the last flush that succeeded: the oldest are dropped, and only they. -/
theorem C71_window (cf : Conf) (hf : cf.flushWhenReached = false) (calls : List Call) :
    (run cf Col.init calls).mem = lastN cf.max (sinceFlush calls.reverse) := by
  have key : ∀ (calls : List Call), (run cf Col.init calls.reverse).mem = lastN cf.max (sinceFlush calls) := by
    intro calls
    induction calls with
    | nil => simp [run, Col.init, sinceFlush, lastN]
    | cons e calls ih =>
      rw [List.reverse_cons, run_append]
      simp only [run, List.foldl_cons, List.foldl_nil] at ih ⊢
      generalize (List.foldl (fun c e => (step cf c e).1) Col.init calls.reverse) = c at ih
      cases e with
      | put r ok =>
        rw [show sinceFlush (.put r ok :: calls) = sinceFlush calls ++ [r] from rfl, lastN_snoc]
        simp only [step, collect, hf, Bool.false_eq_true, if_false, List.length_append,
          List.length_cons, List.length_nil, ih]
        split <;> rfl
      | flush ok =>
        cases ok with
        | true => simp [step, flush, sinceFlush, lastN]
        | false => simpa [step, flush, sinceFlush] using ih
  simpa using key calls.reverse

/-- … so the limit holds whatever the store answers. -/
theorem C71_window_limit (cf : Conf) (hf : cf.flushWhenReached = false) (calls : List Call) :
    (run cf Col.init calls).mem.length ≤ cf.max := by
  rw [C71_window cf hf]
  simp only [lastN, List.length_drop]
  omega

/-- … and what reaches the store was handed over, in that order and at most once. -/
theorem C71_sublist (cf : Conf) (calls : List Call) :
    ((run cf Col.init calls).saved ++ (run cf Col.init calls).mem).Sublist (handed calls) := by
  have key : ∀ (calls : List Call) (c : Col) (h : List Rec), (c.saved ++ c.mem).Sublist h →
      ((run cf c calls).saved ++ (run cf c calls).mem).Sublist (h ++ handed calls) := by
    intro calls
    induction calls with
    | nil => intro c h hs; simpa [run, handed] using hs
    | cons e calls ih =>
      intro c h hs
      rw [show run cf c (e :: calls) = run cf (step cf c e).1 calls from rfl]
      cases e with
      | put r ok =>
        have h1 : (c.saved ++ (c.mem ++ [r])).Sublist (h ++ [r]) := by
          rw [← List.append_assoc]
          exact hs.append (List.Sublist.refl _)
        have := ih (step cf c (.put r ok)).1 (h ++ [r]) (by
          simp only [step, collect, flush]
          split
          · split
            · cases ok <;> simpa using h1
            · exact ((List.Sublist.refl _).append (List.tail_sublist _)).trans h1
          · exact h1)
        simpa [handed] using this
      | flush ok =>
        have := ih (step cf c (.flush ok)).1 h (by
          simp only [step, flush]
          cases ok <;> simpa using hs)
        simpa [handed] using this
  simpa [Col.init] using key calls Col.init [] (by simp [Col.init])

/-! ### Examples and findings -/

private def r (n : Nat) : Rec := ⟨"http".toList, "read".toList, n⟩

example : run ⟨2, true⟩ Col.init [.put (r 1) true, .put (r 2) true, .put (r 3) true, .put (r 4) true] =
    ⟨[r 4], [r 1, r 2, r 3]⟩ := by decide
example : run ⟨2, false⟩ Col.init [.put (r 1) true, .put (r 2) true, .put (r 3) true, .flush false,
    .put (r 4) true] = ⟨[r 3, r 4], []⟩ := by decide
example : ∀ e ∈ handed [.put (r 1) true, .flush false, .put (r 2) false],
    e.kind ≠ [] ∧ '.' ∉ e.kind ∧ e.action ≠ [] ∧ '.' ∉ e.action := by decide

/-- FINDING.  While the store refuses, the memory grows beyond the limit, by one record per call:
there is no bound on it. -/
theorem C71_over_limit (cf : Conf) (hf : cf.flushWhenReached = true) (x : Rec) (n : Nat) :
    (run cf Col.init (List.replicate n (.put x false))).mem.length = n := by
  have key : ∀ (n : Nat) (c : Col),
      (run cf c (List.replicate n (.put x false))).mem.length = c.mem.length + n := by
    intro n
    induction n with
    | zero => intro c; rfl
    | succ n ih =>
      intro c
      rw [List.replicate_succ, show run cf c (.put x false :: List.replicate n (.put x false)) =
        run cf (step cf c (.put x false)).1 (List.replicate n (.put x false)) from rfl, ih]
      simp only [step, collect, hf, if_true, flush]
      split <;> simp <;> omega
  simpa [Col.init] using key n Col.init

/-- FINDING.  A `Put` that reports an error has kept the record: a caller that tries again records
it twice. -/
theorem C71_error_kept (cf : Conf) (c : Col) (x : Rec) (ok : Bool)
    (he : (collect cf c x ok).2 = false) : (collect cf c x ok).1.mem = c.mem ++ [x] := by
  revert he
  simp only [collect, flush]
  repeat' split
  all_goals simp

example : (collect ⟨1, true⟩ ⟨[r 1], []⟩ (r 2) false).2 = false := by decide

theorem C71_statement_fails : ¬ C71_statement := by
  intro h
  have := (h ⟨0, true⟩ [.put (r 1) false]).2
  revert this
  decide

/-- FINDING.  In the default configuration (`FlushWhenReached` off), records above the limit are
lost between two flushes. -/
theorem C71_lost :
    (run ⟨1, false⟩ Col.init [.put (r 1) true, .put (r 2) true, .flush true]).saved = [r 2] := by
  decide

end Verif.Perf
