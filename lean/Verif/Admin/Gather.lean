import Verif.Admin.Paging

/-!
# Answers put together from several servers (C126)

The administration server asks several servers at the same time and puts the answers together:

* the objects and the buckets of all metadata servers: `MetadataPaging` and `BucketPaging`,
  src/adminserver/internal/usecase/logic/metadata_logic.go:48-125, also behind the numbers of the overview (`TotalBuckets`,
  `TotalObjects`, 246-260; `Overview`, src/adminserver/internal/controller/http/server_state.go:30-51);
* the servers of the three services: `Stat`, server_state.go:53-101.

Each task is a goroutine that asks, and then either adds the answer under a mutex or calls `Error` of the group; `Done` is
deferred.  The handler calls `WaitUntilError` (src/common/util/done_group.go:119-126): a `select` over "all are done" and
"there is an error".  `Verif.Admin.Paging` (C14) leaves out that the error may be lost; here are the interleavings.  Compared to
`Verif.Conc.DoneGroup` (C54) the steps of `Error` are one step, and the answers are followed; and a select that is
already waiting when something becomes ready takes that and nothing else, which says when an error is not lost.
The states of the endpoints of etcd (`EtcdStatus`, logic/server_monitor.go:110-130) are asked for one after the other.
-/

namespace Verif.Admin.Gather

open Verif Verif.Meta

variable {E A : Type}

/-- The answers among what came back. -/
def oks : List (Except E A) → List A := List.filterMap fun x => match x with | .ok a => some a | .error _ => none

/-- The errors. -/
def errs : List (Except E A) → List E := List.filterMap fun x => match x with | .ok _ => none | .error e => some e

/-- A request of the administration server under way.  `asking`: what the servers that have not answered yet will answer;
`log`: what came back, in this order; `undone`: tasks that got their answer and have not called `Done`; `got`: `lst` of
metadata_logic.go:50, or `info` of server_state.go:57; `chan`: the error in the channel; `closed`: done_group.go:37;
`parked`: the handler is in the select; `result`: what `WaitUntilError` returned, with `got` at that time. -/
structure St (E A : Type) where
  asking : List (Except E A)
  log : List (Except E A)
  undone : Nat
  got : List A
  chan : Option E
  closed : Bool
  parked : Bool
  result : Option (Except E (List A))

/-- All tasks are started (metadata_logic.go:58-74, server_state.go:55-91). -/
def start (outs : List (Except E A)) : St E A := ⟨outs, [], 0, [], none, false, false, none⟩

/-- `answer i`: the answer of a server arrives and is added or reported; `done`: a task ends; `select e`: the handler comes to
the select, with `e` for the choice if both cases are ready; `wake`: the goroutine of `WaitDone` (done_group.go:95-109) wakes
the waiting handler. -/
inductive Ev
  | answer (i : Nat)
  | done
  | select (e : Bool)
  | wake

/-- Everything is done. -/
def St.over (s : St E A) : Bool := s.asking.isEmpty && s.undone == 0

/-- One step.  In `answer`: metadata_logic.go:62-72, 105-114, server_state.go:58-70; `Error`, done_group.go:72-78: only the first
error is sent; a handler that waits in the select gets it at once.  In `select`: done_group.go:119-126. -/
def St.step (s : St E A) : Ev → St E A
  | .answer i =>
    match s.asking[i]? with
    | none => s
    | some (.ok a) =>
      { s with asking := s.asking.eraseIdx i, log := s.log ++ [.ok a], undone := s.undone + 1, got := s.got ++ [a] }
    | some (.error e) =>
      let s := { s with asking := s.asking.eraseIdx i, log := s.log ++ [.error e], undone := s.undone + 1 }
      if s.closed then s
      else if s.parked && s.result.isNone then { s with closed := true, result := some (.error e) }
      else { s with closed := true, chan := some e }
  | .done => { s with undone := s.undone - 1 }
  | .select e =>
    if s.parked then s
    else
      match s.chan, s.over with
      | none, false => { s with parked := true }
      | none, true => { s with parked := true, result := some (.ok s.got) }
      | some x, false => { s with parked := true, chan := none, result := some (.error x) }
      | some x, true =>
        if e then { s with parked := true, chan := none, result := some (.error x) }
        else { s with parked := true, result := some (.ok s.got) }
  | .wake => if s.parked && s.result.isNone && s.over then { s with result := some (.ok s.got) } else s

def St.run (s : St E A) (es : List Ev) : St E A := es.foldl St.step s

/-! ## Invariant -/

structure Inv (outs : List (Except E A)) (s : St E A) : Prop where
  all : (s.asking ++ s.log).Perm outs
  got : s.got = oks s.log
  open_ : s.closed = false → errs s.log = []
  shut : s.closed = true → errs s.log ≠ []
  chan : ∀ e, s.chan = some e → (errs s.log).head? = some e
  error : ∀ e, s.result = some (.error e) → (errs s.log).head? = some e
  parked : s.parked = true → s.result = none → s.closed = false
  before : s.parked = false → s.result = none
  sent : s.parked = false → s.closed = true → s.chan.isSome = true
  ok : ∀ l, s.result = some (.ok l) → s.asking = [] ∧ l = oks s.log

theorem inv_start (outs : List (Except E A)) : Inv outs (start outs) := by
  refine ⟨by simp [start], rfl, fun _ => rfl, ?_, ?_, ?_, ?_, fun _ => rfl, ?_, ?_⟩ <;>
    (intros; rename_i h; try cases h)
  all_goals (rename_i h; cases h)

theorem cons_eraseIdx_perm {α : Type} {l : List α} {i : Nat} {x : α} (h : l[i]? = some x) : (x :: l.eraseIdx i).Perm l := by
  induction l generalizing i with
  | nil => cases h
  | cons y l ih =>
    cases i with
    | zero => cases h; exact List.Perm.refl _
    | succ i =>
      rw [List.eraseIdx_cons_succ]
      exact (List.Perm.swap _ _ _).trans ((ih h).cons y)

theorem oks_snoc (l : List (Except E A)) (x : Except E A) : oks (l ++ [x]) = oks l ++ oks [x] := List.filterMap_append
theorem errs_snoc (l : List (Except E A)) (x : Except E A) : errs (l ++ [x]) = errs l ++ errs [x] := List.filterMap_append

theorem moved {outs asking log : List (Except E A)} {i : Nat} {x : Except E A} (h : asking[i]? = some x)
    (ha : (asking ++ log).Perm outs) : (asking.eraseIdx i ++ (log ++ [x])).Perm outs := by
  refine List.Perm.trans ?_ ha
  rw [← List.append_assoc]
  refine (List.perm_append_singleton x _).trans ?_
  rw [← List.cons_append]
  exact (cons_eraseIdx_perm h).append_right _

theorem head_snoc {l m : List E} {e : E} (h : l.head? = some e) : (l ++ m).head? = some e := by
  cases l with
  | nil => cases h
  | cons a l => exact h

theorem inv_step {outs : List (Except E A)} {s : St E A} (h : Inv outs s) (ev : Ev) : Inv outs (s.step ev) := by
  cases ev with
  | answer i =>
    unfold St.step
    dsimp only
    split
    · exact h
    · rename_i a ha
      refine ⟨moved ha h.all, by dsimp only; rw [oks_snoc, h.got]; rfl, fun hc => ?_, fun hc => ?_, fun e he => ?_,
        fun e he => ?_, h.parked, h.before, h.sent, fun l hl => ?_⟩
      · dsimp only; rw [errs_snoc, h.open_ hc]; rfl
      · dsimp only; rw [errs_snoc]; intro h0; exact h.shut hc (List.append_eq_nil_iff.1 h0).1
      · dsimp only; rw [errs_snoc]; exact head_snoc (h.chan e he)
      · dsimp only; rw [errs_snoc]; exact head_snoc (h.error e he)
      · have h1 := (h.ok l hl).1
        rw [h1] at ha; cases ha
    · rename_i e ha
      have hok : ∀ l, s.result ≠ some (.ok l) := by
        intro l hl
        rw [(h.ok l hl).1] at ha; cases ha
      have hg : s.got = oks (s.log ++ [.error e]) := by rw [oks_snoc, h.got]; simp [oks]
      have hne : errs (s.log ++ [.error e] : List (Except E A)) ≠ [] := by rw [errs_snoc]; simp [errs]
      split
      · rename_i hc
        refine ⟨moved ha h.all, hg, fun hc' => ?_, fun _ => hne, fun x hx => ?_, fun x hx => ?_, h.parked, h.before, h.sent,
          fun l hl => absurd hl (hok l)⟩
        · exact absurd hc (by rw [show s.closed = false from hc']; simp)
        · dsimp only; rw [errs_snoc]; exact head_snoc (h.chan x hx)
        · dsimp only; rw [errs_snoc]; exact head_snoc (h.error x hx)
      · rename_i hc
        have hc' : s.closed = false := by simpa using hc
        have h1 : errs (s.log ++ [.error e] : List (Except E A)) = [e] := by rw [errs_snoc, h.open_ hc']; rfl
        split
        · rename_i hp
          refine ⟨moved ha h.all, hg, (fun hx => by cases hx), fun _ => hne, fun x hx => ?_, fun x hx => ?_, (fun _ hx => by cases hx),
            fun hx => ?_, fun hx => ?_, (fun l hl => by cases hl)⟩
          · have := h.chan x hx
            rw [h.open_ hc'] at this; cases this
          · cases hx; dsimp only; rw [h1]; rfl
          · dsimp only at hx; rw [hx] at hp; cases hp
          · dsimp only at hx; rw [hx] at hp; cases hp
        · rename_i hp
          refine ⟨moved ha h.all, hg, (fun hx => by cases hx), fun _ => hne, fun x hx => ?_, fun x hx => ?_, fun hx hr => ?_,
            h.before, fun _ _ => rfl, fun l hl => absurd hl (hok l)⟩
          · cases hx; dsimp only; rw [h1]; rfl
          · have := h.error x hx
            rw [h.open_ hc'] at this; cases this
          · dsimp only at hx hr
            rw [hx, hr] at hp; simp at hp
  | done => exact ⟨h.all, h.got, h.open_, h.shut, h.chan, h.error, h.parked, h.before, h.sent, h.ok⟩
  | select e =>
    unfold St.step
    dsimp only
    split
    · exact h
    · rename_i hp
      have hp' : s.parked = false := by simpa using hp
      have hr := h.before hp'
      split
      · rename_i hcn ho
        refine ⟨h.all, h.got, h.open_, h.shut, h.chan, h.error, fun _ _ => ?_, (fun hx => by cases hx), (fun hx => by cases hx), h.ok⟩
        cases hc : s.closed with
        | false => rfl
        | true => have := h.sent hp' hc; rw [hcn] at this; cases this
      · rename_i hcn ho
        refine ⟨h.all, h.got, h.open_, h.shut, h.chan, (fun x hx => by cases hx), (fun _ hx => by cases hx), (fun hx => by cases hx),
          (fun hx => by cases hx), fun l hl => ?_⟩
        cases hl
        refine ⟨?_, h.got⟩
        have : s.asking.isEmpty = true := by unfold St.over at ho; grind
        exact List.isEmpty_iff.1 this
      · rename_i x hcn ho
        refine ⟨h.all, h.got, h.open_, h.shut, (fun x hx => by cases hx), fun y hy => ?_, (fun _ hx => by cases hx),
          (fun hx => by cases hx), (fun hx => by cases hx), (fun l hl => by cases hl)⟩
        cases hy; exact h.chan _ hcn
      · rename_i x hcn ho
        split
        · refine ⟨h.all, h.got, h.open_, h.shut, (fun x hx => by cases hx), fun y hy => ?_, (fun _ hx => by cases hx),
            (fun hx => by cases hx), (fun hx => by cases hx), (fun l hl => by cases hl)⟩
          cases hy; exact h.chan _ hcn
        · refine ⟨h.all, h.got, h.open_, h.shut, h.chan, (fun x hx => by cases hx), (fun _ hx => by cases hx), (fun hx => by cases hx),
            (fun hx => by cases hx), fun l hl => ?_⟩
          cases hl
          refine ⟨?_, h.got⟩
          have : s.asking.isEmpty = true := by unfold St.over at ho; grind
          exact List.isEmpty_iff.1 this
  | wake =>
    unfold St.step
    dsimp only
    split
    · rename_i hc
      refine ⟨h.all, h.got, h.open_, h.shut, h.chan, (fun x hx => by cases hx), (fun _ hx => by cases hx), fun hx => ?_, h.sent,
        fun l hl => ?_⟩
      · dsimp only at hx; rw [hx] at hc; cases hc
      · cases hl
        refine ⟨?_, h.got⟩
        have : s.asking.isEmpty = true := by unfold St.over at hc; grind
        exact List.isEmpty_iff.1 this
    · exact h

theorem inv_run {outs : List (Except E A)} {s : St E A} (h : Inv outs s) (es : List Ev) : Inv outs (s.run es) := by
  induction es generalizing s with
  | nil => exact h
  | cons e es ih => exact ih (inv_step h e)

/-! ## What an answer is worth -/

theorem ok_all {outs : List (Except E A)} {s : St E A} (h : Inv outs s) {l : List A} (hl : s.result = some (.ok l)) :
    s.log.Perm outs ∧ l = oks s.log := by
  have h1 := h.ok l hl
  have h2 := h.all
  rw [h1.1] at h2
  exact ⟨by simpa using h2, h1.2⟩

/-- An answer without error is what all servers that did not fail have answered, in some order; a server is never left out because
it is slow. -/
theorem C126_waits_for_all (outs : List (Except E A)) (es : List Ev) (l : List A)
    (h : ((start outs).run es).result = some (.ok l)) : l.Perm (oks outs) := by
  obtain ⟨h1, h2⟩ := ok_all (inv_run (inv_start outs) es) h
  rw [h2]
  exact h1.filterMap _

/-- An error that is answered is the one that was reported first. -/
theorem C126_error_is_real (outs : List (Except E A)) (es : List Ev) (e : E)
    (h : ((start outs).run es).result = some (.error e)) :
    (errs ((start outs).run es).log).head? = some e ∧ .error e ∈ outs := by
  have hi := inv_run (inv_start outs) es
  have h1 := hi.error e h
  refine ⟨h1, ?_⟩
  have h2 : e ∈ errs ((start outs).run es).log := List.mem_of_mem_head? h1
  unfold errs at h2
  rw [List.mem_filterMap] at h2
  obtain ⟨x, hx, he⟩ := h2
  cases x with
  | ok a => cases he
  | error e' =>
    cases he
    exact hi.all.subset (List.mem_append_right _ hx)

/-- If no server fails, the request does not fail and the answer is complete. -/
theorem C126_all_good (answers : List A) (es : List Ev) (r : Except E (List A))
    (h : ((start (answers.map (.ok : A → Except E A))).run es).result = some r) : ∃ l, r = .ok l ∧ l.Perm answers := by
  cases r with
  | error e =>
    have h1 := (C126_error_is_real _ es e h).2
    obtain ⟨a, _, ha⟩ := List.mem_map.1 h1
    cases ha
  | ok l =>
    refine ⟨l, rfl, (C126_waits_for_all _ es l h).trans ?_⟩
    have : oks (answers.map (.ok : A → Except E A)) = answers := by
      unfold oks
      rw [List.filterMap_map]
      exact List.filterMap_some
    rw [this]

/-- If the handler was waiting when the first server failed, the failure is answered: an answer without error then means that no
server failed.  (Missing: a handler that comes to the select later, `C126_error_lost`.) -/
theorem C126_waiting_partial (outs : List (Except E A)) (es es' : List Ev) (l : List A)
    (hp : ((start outs).run es).parked = true) (hr : ((start outs).run es).result = none)
    (h : ((start outs).run (es ++ es')).result = some (.ok l)) : errs outs = [] ∧ l.Perm (oks outs) := by
  refine ⟨?_, C126_waits_for_all outs _ l h⟩
  have key : ∀ (es' : List Ev) (s : St E A), Inv outs s → s.parked = true →
      (s.closed = true → ∃ e, s.result = some (.error e)) →
      (s.run es').closed = true → ∃ e, (s.run es').result = some (.error e) := by
    intro es'
    induction es' with
    | nil => intro s _ _ h; exact h
    | cons ev es' ih =>
      intro s hi hpk hcl
      refine ih (s.step ev) (inv_step hi ev) ?_ ?_
      · unfold St.step; dsimp only; (repeat' split) <;> exact hpk
      · have hpar := hi.parked hpk
        have hok := hi.ok
        cases ev with
        | answer i =>
          unfold St.step
          dsimp only
          split
          · exact hcl
          · exact hcl
          · rename_i e ha
            split
            · rename_i hc; intro _; exact hcl hc
            · split
              · intro _; exact ⟨e, rfl⟩
              · rename_i hc hn
                exfalso
                rw [hpk] at hn
                cases hres : s.result with
                | none => rw [hres] at hn; simp at hn
                | some r =>
                  cases r with
                  | ok l => rw [(hok l hres).1] at ha; cases ha
                  | error e' =>
                    have h1 := hi.error e' hres
                    rw [hi.open_ (by simpa using hc)] at h1; cases h1
        | done => exact hcl
        | select e => unfold St.step; dsimp only; rw [if_pos hpk]; exact hcl
        | wake =>
          unfold St.step
          dsimp only
          split
          · rename_i hc
            intro hx
            have hn : s.result = none := by
              cases hres : s.result with
              | none => rfl
              | some r => rw [hres] at hc; simp at hc
            rw [show s.closed = true from hx] at hpar
            cases hpar hn
          · exact hcl
  have hi := inv_run (inv_start outs) es
  have hrun : (start outs).run (es ++ es') = ((start outs).run es).run es' := by unfold St.run; rw [List.foldl_append]
  rw [hrun] at h
  have hi' := inv_run hi es'
  have hopen : (((start outs).run es).run es').closed = false := by
    cases hc : (((start outs).run es).run es').closed with
    | false => rfl
    | true =>
      obtain ⟨e, he⟩ := key es' _ hi hp (fun hc => by rw [hi.parked hp hr] at hc; cases hc) hc
      rw [h] at he; cases he
  have h1 := (ok_all hi' h).1
  have h2 : (errs (((start outs).run es).run es').log).Perm (errs outs) := h1.filterMap _
  rw [hi'.open_ hopen] at h2
  exact List.nil_perm.1 h2

example : let s := (start ([.ok 1, .ok 2, .ok 3] : List (Except String Nat))).run [.select false, .answer 1]
    s.parked = true ∧ s.result = none ∧
      (s.run [.answer 1, .answer 0, .done, .done, .done, .wake]).result = some (.ok [2, 3, 1]) := ⟨rfl, rfl, rfl⟩
example : ((start [.ok 1, .error "down", .ok 3]).run [.select false, .answer 0, .answer 0, .answer 0, .done, .done, .done,
    .wake]).result = some (.error "down") := rfl

/-- Whatever fails, and even if everything fails, the request may be answered as if the servers that failed did not exist: all
servers answer before the handler comes to the select, which then has the choice. -/
theorem C126_error_lost (outs : List (Except E A)) :
    ∃ es, ((start outs).run es).result = some (.ok (oks outs)) := by
  have key : ∀ (outs : List (Except E A)) (s : St E A), s.asking = outs → s.parked = false →
      let s' := s.run (outs.map fun _ => .answer 0)
      s'.asking = [] ∧ s'.parked = false ∧ s'.got = s.got ++ oks outs := by
    intro outs
    induction outs with
    | nil => intro s h1 h2; exact ⟨h1, h2, by simp [St.run, oks]⟩
    | cons x outs ih =>
      intro s h1 h2
      have h3 : (s.step (.answer 0)).asking = outs ∧ (s.step (.answer 0)).parked = false ∧
          (s.step (.answer 0)).got = s.got ++ oks [x] := by
        unfold St.step
        rw [h1]
        cases x with
        | ok a => exact ⟨rfl, h2, rfl⟩
        | error e =>
          simp only [List.getElem?_cons_zero, h2, Bool.false_and, Bool.false_eq_true, ↓reduceIte]
          split
          · exact ⟨rfl, rfl, by simp [oks]⟩
          · exact ⟨rfl, rfl, by simp [oks]⟩
      obtain ⟨g1, g2, g3⟩ := ih _ h3.1 h3.2.1
      refine ⟨g1, g2, ?_⟩
      refine g3.trans ?_
      rw [h3.2.2, List.append_assoc]
      congr 1
      show _ = oks ([x] ++ outs)
      exact List.filterMap_append.symm
  have dones : ∀ (n : Nat) (s : St E A), s.undone ≤ n →
      s.run (List.replicate n .done) = { s with undone := 0 } := by
    intro n
    induction n with
    | zero => intro s h; have : s.undone = 0 := by omega
              cases s; cases this; rfl
    | succ n ih =>
      intro s h
      show (s.step .done).run _ = _
      rw [ih (s.step .done) (by show s.undone - 1 ≤ n; omega)]
      rfl
  obtain ⟨h1, h2, h3⟩ := key outs (start outs) rfl rfl
  refine ⟨(outs.map fun _ => .answer 0) ++ (List.replicate ((start outs).run (outs.map fun _ => .answer 0)).undone .done ++
    [.select false]), ?_⟩
  have happ : ∀ (s : St E A) (a b : List Ev), s.run (a ++ b) = (s.run a).run b := fun s a b => by
    unfold St.run; rw [List.foldl_append]
  rw [happ, happ, dones _ _ (Nat.le_refl _)]
  generalize (start outs).run (outs.map fun _ => .answer 0) = s at h1 h2 h3
  show (St.step _ (.select false)).result = _
  unfold St.step
  have ho : ({ s with undone := 0 } : St E A).over = true := by unfold St.over; simp [h1]
  have hgot : s.got = oks outs := by rw [h3]; rfl
  simp only [h2, Bool.false_eq_true, ↓reduceIte, ho]
  split <;> simp_all

/-- When all tasks are done and the handler has not looked yet, the first error is in the channel: looking there first would
return it. -/
theorem C126_repair (outs : List (Except E A)) (es : List Ev) (h : ((start outs).run es).parked = false)
    (ho : ((start outs).run es).over = true) (he : errs outs ≠ []) :
    ∃ e, ((start outs).run es).chan = some e ∧ (((start outs).run es).step (.select true)).result = some (.error e) := by
  have hi := inv_run (inv_start outs) es
  generalize (start outs).run es = s at h ho hi
  have ha : s.asking = [] := by
    have : s.asking.isEmpty = true := by unfold St.over at ho; grind
    exact List.isEmpty_iff.1 this
  have hp := hi.all
  rw [ha] at hp
  have hc : s.closed = true := by
    cases hc : s.closed with
    | true => rfl
    | false =>
      exfalso
      apply he
      have h2 : (errs s.log).Perm (errs outs) := List.Perm.filterMap _ (by simpa using hp)
      rw [hi.open_ hc] at h2
      exact List.nil_perm.1 h2
  have hs := hi.sent h hc
  cases hch : s.chan with
  | none => rw [hch] at hs; cases hs
  | some e => exact ⟨e, rfl, by unfold St.step; simp [h, hch, ho]⟩

example : errs [.ok 1, .error "down"] ≠ ([] : List String) ∧
    ((start [.ok 1, .error "down"]).run [.answer 1, .answer 0, .done, .done]).over = true := by decide

/-! ## The pages -/

/-- What `BucketPaging` does with the answers, metadata_logic.go:120-124; the total is the sum of theirs. -/
def bucketPage (S : TextSorter Bucket bucketID) (page size : Nat) (l : List (List Bucket × Nat)) : Option (List Bucket × Nat) :=
  let lst := S.run (l.flatMap (·.1))
  match pagingOffset page size lst.length with
  | (st, ed, _) => (slice lst st ed).map fun x => (x, (l.map (·.2)).sum)

/-- What can be answered for a page of buckets when the servers answer `outs`; `.ok none` is a panic. -/
def BucketAnswer (S : TextSorter Bucket bucketID) (page size : Nat) (outs : List (Except E (List Bucket × Nat)))
    (r : Except E (Option (List Bucket × Nat))) : Prop :=
  ∃ es x, ((start outs).run es).result = some x ∧
    r = match x with | .error e => .error e | .ok l => .ok (bucketPage S page size l)

/-- The number of buckets shown is the sum over the servers that did not fail; every bucket shown is of such a server. -/
theorem C126_page_partial (S : TextSorter Bucket bucketID) (page size : Nat) (outs : List (Except E (List Bucket × Nat)))
    (bs : List Bucket) (total : Nat) (h : BucketAnswer S page size outs (.ok (some (bs, total)))) :
    total = ((oks outs).map (·.2)).sum ∧ ∀ b ∈ bs, ∃ p ∈ oks outs, b ∈ p.1 := by
  obtain ⟨es, x, hx, hr⟩ := h
  cases x with
  | error e => cases hr
  | ok l =>
    have hp := C126_waits_for_all outs es l hx
    have hr : some (bs, total) = bucketPage S page size l := by injection hr
    unfold bucketPage at hr
    dsimp only at hr
    have hr := hr.symm
    rw [Option.map_eq_some_iff] at hr
    obtain ⟨y, hy, he⟩ := hr
    have h1 : y = bs := congrArg Prod.fst he
    have h2 : (l.map (·.2)).sum = total := congrArg Prod.snd he
    subst h1
    refine ⟨?_, fun b hb => ?_⟩
    · rw [← h2]
      exact (hp.map _).sum_nat
    · unfold slice at hy
      split at hy
      · cases hy
        have h3 := List.mem_of_mem_drop (List.mem_of_mem_take hb)
        have h4 := (S.perm _).subset h3
        obtain ⟨p, hp1, hp2⟩ := List.mem_flatMap.1 h4
        exact ⟨p, hp.subset hp1, hp2⟩
      · cases hy

/-- Two metadata servers with a bucket each, one of them cannot be reached: the page may show one bucket, and the number of all
buckets is one. -/
theorem C126_page_hides :
    BucketAnswer (.insertion bucketID) 1 10 [.ok ([sampleBucket ['a'] 1], 1), .error "down"]
      (.ok (some ([sampleBucket ['a'] 1], 1))) :=
  ⟨[.answer 0, .answer 0, .done, .done, .select false], _, rfl, rfl⟩

/-! ## The servers of the three services -/

/-- What `Stat` answers, server_state.go:57, 96-100: `info[i]` is nil unless the task of service `i` has set it.  An element of
the list is a service (0 metadata, 1 data, 2 API) with its servers. -/
def statAnswer {I : Type} (l : List (Nat × I)) : List (Option I) :=
  [0, 1, 2].map fun i => (l.find? fun p => p.1 == i).map (·.2)

/-- If the state of no service fails, all three are shown, whatever the order of the tasks. -/
theorem C126_stat_partial {I : Type} (a b c : I) (es : List Ev) (r : Except E (List (Nat × I)))
    (h : ((start (E := E) [.ok (0, a), .ok (1, b), .ok (2, c)]).run es).result = some r) :
    ∃ l, r = .ok l ∧ statAnswer l = [some a, some b, some c] := by
  obtain ⟨l, hl, hp⟩ := C126_all_good [(0, a), (1, b), (2, c)] es r h
  refine ⟨l, hl, ?_⟩
  have key : ∀ i x, (i, x) ∈ [(0, a), (1, b), (2, c)] → (l.find? fun p => p.1 == i) = some (i, x) := by
    intro i x hm
    have hml := hp.symm.subset hm
    cases hf : l.find? (fun p => p.1 == i) with
    | none =>
      have := List.find?_eq_none.1 hf _ hml
      simp at this
    | some q =>
      have h1 := List.find?_some hf
      have h2 := hp.subset (List.mem_of_find?_eq_some hf)
      simp only [List.mem_cons, List.not_mem_nil, or_false] at h2 hm
      have h3 : q.1 = i := by simpa using h1
      grind
  unfold statAnswer
  simp [key 0 a (by simp), key 1 b (by simp), key 2 c (by simp)]

/-- The state of the metadata servers cannot be asked for: the answer may be 200 with null for them, as if it had not been
written. -/
theorem C126_stat_null : ∃ es l,
    ((start [.error "no leader", .ok (1, 'd'), .ok (2, 'a')]).run es).result = some (.ok l) ∧
      statAnswer l = [none, some 'd', some 'a'] :=
  ⟨[.answer 0, .answer 0, .answer 0, .done, .done, .done, .select false], _, rfl, rfl⟩

/-- The statement of C126 for pages: an answer without error shows what every server has. -/
theorem C126_statement_fails : ¬ ∀ (outs : List (Except String Nat)) (es : List Ev) (l : List Nat),
    ((start outs).run es).result = some (.ok l) → errs outs = [] := by
  intro h
  have h1 := h [.error "down"] [.answer 0, .done, .select false] [] rfl
  cases h1

/-! ## Etcd -/

/-- `EtcdStatus`, server_monitor.go:110-130: one endpoint after the other, the first error ends it. -/
def etcdStatus : List (Except E A) → Except E (List A)
  | [] => .ok []
  | .error e :: _ => .error e
  | .ok a :: l =>
    match etcdStatus l with
    | .error e => .error e
    | .ok as => .ok (a :: as)

/-- The states are shown if every endpoint answers; otherwise none is shown, and the error is that of the first endpoint that does
not answer. -/
theorem C126_etcd (outs : List (Except E A)) :
    etcdStatus outs = match (errs outs).head? with | some e => .error e | none => .ok (oks outs) := by
  induction outs with
  | nil => rfl
  | cons x outs ih =>
    cases x with
    | error e => rfl
    | ok a =>
      simp only [etcdStatus, ih]
      have h1 : errs (.ok a :: outs) = errs outs := by simp [errs]
      have h2 : oks (.ok a :: outs) = a :: oks outs := by simp [oks]
      rw [h1, h2]
      cases (errs outs).head? <;> rfl

/-- With one endpoint of three down nothing is shown of the two others. -/
theorem C126_etcd_hides : etcdStatus [.ok 1, .error "down", .ok 3] = .error "down" := rfl

end Verif.Admin.Gather
