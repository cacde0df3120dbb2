import Verif.Meta.Fsm

/-!
# Replacing the database by a snapshot: C29

`MetadataRepo.Snapshot`, `MetadataRepo.Restore` (repo/metadata_repo.go:304-328), `FSMImpl.Snapshot`,
`FSMImpl.Restore`, `snapshot.Persist` (raftimpl/fsm_impl.go:166-196) and `Storage.Replace`
(db/storage.go:119-144), interleaved with writers.
-/

namespace Verif.Meta

open Verif

/-! ## Model -/

/-- A write transaction on its way through `Storage.Update` / `Storage.Batch`, db/storage.go:49-73:
it has passed the read-only check; `some h` once `s.DB()` has returned the handle `h`. -/
structure Writer where
  id : Nat
  op : Op
  handle : Option Nat
  deriving DecidableEq

/-- `Storage`, db/storage.go:23-27: the open files (`current` is an index), the flag, the writers
under way and the snapshot a `Replace` is about to install. -/
structure Sys where
  files : List Store
  closed : List Nat
  cur : Nat
  rdOnly : Bool
  writers : List Writer
  replacing : Option Store
  deriving DecidableEq

/-- A storage with one open database. -/
def Sys.init (s : Store) : Sys := ⟨[s], [], 0, false, [], none⟩

/-- Atomic steps.  The order of steps of different goroutines is arbitrary. -/
inductive Ev
  | check (w : Nat) (op : Op)             -- storage.go:56, 69
  | load (w : Nat) (op : Op)              -- storage.go:59, 72: s.DB()
  | commit (w : Nat) (op : Op) (h : Nat)  -- the transaction on handle `h`
  | begin (snap : Store)                  -- storage.go:120, for the file written by Restore
  | swap (snap : Store)                   -- storage.go:126-135
  | finish                                -- storage.go:123
  | close (h : Nat)                       -- storage.go:137-142
  deriving DecidableEq

/-- What a step answers to its caller. -/
inductive EvAns
  | none
  | readOnly            -- ErrReadOnly, or "storage is in readonly mode"
  | notOpen             -- bbolt: the database is closed
  | done (r : Res)      -- the transaction was committed or rolled back with this result
  deriving DecidableEq

/-- One step; `none` if the step is not possible in this state.  Simplified: opening the new file
succeeds (if it fails nothing but the flag changes).  A transaction runs to its end once it has
begun: bbolt's `Close` waits for it. -/
def ev (s : Sys) : Ev → Option (EvAns × Sys)
  | .check w op =>
    if s.rdOnly then some (.readOnly, s)
    else some (.none, { s with writers := ⟨w, op, none⟩ :: s.writers })
  | .load w op =>
    if (⟨w, op, none⟩ : Writer) ∈ s.writers then
      some (.none, { s with writers := ⟨w, op, some s.cur⟩ :: s.writers.erase ⟨w, op, none⟩ })
    else none
  | .commit w op h =>
    if (⟨w, op, some h⟩ : Writer) ∈ s.writers then
      let s' := { s with writers := s.writers.erase ⟨w, op, some h⟩ }
      if h ∈ s.closed then some (.notOpen, s')
      else
        match s.files[h]? with
        | none => none
        | some f => some (.done (step f op).1, { s' with files := s.files.set h (step f op).2 })
    else none
  | .begin snap =>
    if s.rdOnly then some (.readOnly, s)
    else some (.none, { s with rdOnly := true, replacing := some snap })
  | .swap snap =>
    if s.replacing = some snap then
      some (.none, { s with files := s.files ++ [snap], cur := s.files.length, replacing := none })
    else none
  | .finish =>
    if s.rdOnly ∧ s.replacing = none then some (.none, { s with rdOnly := false }) else none
  | .close h =>
    if h ≠ s.cur ∧ h < s.files.length then some (.none, { s with closed := h :: s.closed }) else none

/-- An execution. -/
def runEv : Sys → List Ev → Option (List EvAns × Sys)
  | s, [] => some ([], s)
  | s, e :: es =>
    match ev s e with
    | none => none
    | some (a, s') => (runEv s' es).map fun r => (a :: r.1, r.2)

/-- The store that reads see (`Storage.View`, storage.go:39-47). -/
def Sys.visible (s : Sys) : Option Store := s.files[s.cur]?

/-! ## Specification -/

/-- The store that should be visible after an execution, from the events and the answers alone: a
replacement installs its snapshot, an acknowledged write changes what is there. -/
def expected : Store → List Ev → List EvAns → Store
  | s, .swap snap :: es, _ :: as => let _ := s; expected snap es as
  | s, .commit _ op _ :: es, .done _ :: as => expected (step s op).2 es as
  | s, _ :: es, _ :: as => expected s es as
  | s, _, _ => s

/-- The full property: acknowledged writes are not lost. -/
def NothingLost : Prop :=
  ∀ (s : Store) (es : List Ev) (as : List EvAns) (y : Sys),
    runEv (.init s) es = some (as, y) → y.visible = some (expected s es as)

/-- No write is under way when a replacement begins. -/
def quiet (s : Sys) : List Ev → Bool
  | [] => true
  | e :: es =>
    (match e with
      | .begin _ => s.writers.isEmpty
      | _ => true) &&
    match ev s e with
    | none => true
    | some (_, s') => quiet s' es

/-! ## Theorems -/

/-- What the executions with quiet replacements preserve. -/
structure Settled (s : Sys) : Prop where
  rd : s.rdOnly = true → s.writers = []
  rep : s.replacing ≠ none → s.rdOnly = true
  cur : s.cur < s.files.length
  handle : ∀ w ∈ s.writers, ∀ h, w.handle = some h → h = s.cur
  open_ : s.cur ∉ s.closed
  closedLt : ∀ h ∈ s.closed, h < s.files.length

theorem init_settled (s : Store) : Settled (.init s) := by
  constructor <;> simp [Sys.init]

theorem expected_other {s : Store} {e : Ev} {es : List Ev} {a : EvAns} {as : List EvAns}
    (h1 : ∀ snap, e ≠ .swap snap) (h2 : ∀ w op h r, ¬ (e = .commit w op h ∧ a = .done r)) :
    expected s (e :: es) (a :: as) = expected s es as := by
  cases e with
  | swap snap => exact absurd rfl (h1 snap)
  | commit w op h =>
    cases a with
    | done r => exact absurd ⟨rfl, rfl⟩ (h2 w op h r)
    | _ => rfl
  | _ => cases a <;> rfl

/-- One step of a quiet execution. -/
theorem ev_settled {s s' : Sys} {e : Ev} {a : EvAns} {cur : Store} (hs : Settled s)
    (hv : s.visible = some cur) (hq : ∀ snap, e = .begin snap → s.writers = [])
    (h : ev s e = some (a, s')) :
    Settled s' ∧ ∃ cur', s'.visible = some cur' ∧
      ∀ es as, expected cur (e :: es) (a :: as) = expected cur' es as := by
  obtain ⟨hrd, hrep, hcur, hhandle, hopen, hlt⟩ := hs
  have same : ∀ {e : Ev} {a : EvAns}, (∀ snap, e ≠ .swap snap) →
      (∀ w op h r, ¬ (e = .commit w op h ∧ a = .done r)) →
      ∀ es as, expected cur (e :: es) (a :: as) = expected cur es as :=
    fun h1 h2 es as => expected_other h1 h2
  cases e with
  | check w op =>
    simp only [ev] at h
    split at h
    · cases h
      exact ⟨⟨hrd, hrep, hcur, hhandle, hopen, hlt⟩, cur, hv, same (by simp) (by simp)⟩
    · rename_i hr
      cases h
      refine ⟨⟨fun h' => absurd h' hr, hrep, hcur, ?_, hopen, hlt⟩, cur, hv, same (by simp) (by simp)⟩
      intro v hv' h' hh
      rcases List.mem_cons.1 hv' with rfl | hv'
      · cases hh
      · exact hhandle v hv' h' hh
  | load w op =>
    simp only [ev] at h
    split at h
    · rename_i hm
      cases h
      refine ⟨⟨fun h' => ?_, hrep, hcur, ?_, hopen, hlt⟩, cur, hv, same (by simp) (by simp)⟩
      · rw [hrd h'] at hm; cases hm
      · intro v hv' h' hh
        rcases List.mem_cons.1 hv' with rfl | hv'
        · cases hh; rfl
        · exact hhandle v (List.mem_of_mem_erase hv') h' hh
    · cases h
  | commit w op hd =>
    simp only [ev] at h
    split at h
    · rename_i hm
      have hhd : hd = s.cur := hhandle _ hm hd rfl
      have hfile : s.files[hd]? = some cur := by rw [hhd]; exact hv
      rw [if_neg (by rw [hhd]; exact hopen), hfile] at h
      cases h
      refine ⟨⟨fun h' => ?_, hrep, by simpa using hcur, ?_, hopen, by simpa using hlt⟩,
        (step cur op).2, ?_, fun es as => rfl⟩
      · rw [hrd h'] at hm; cases hm
      · intro v hv' h' hh
        exact hhandle v (List.mem_of_mem_erase hv') h' hh
      · show (s.files.set hd (step cur op).2)[s.cur]? = _
        rw [hhd, List.getElem?_set_self hcur]
    · cases h
  | begin snap =>
    simp only [ev] at h
    split at h
    · cases h
      exact ⟨⟨hrd, hrep, hcur, hhandle, hopen, hlt⟩, cur, hv, same (by simp) (by simp)⟩
    · cases h
      exact ⟨⟨fun _ => hq snap rfl, fun _ => rfl, hcur, hhandle, hopen, hlt⟩, cur, hv,
        same (by simp) (by simp)⟩
  | swap snap =>
    simp only [ev] at h
    split at h
    · rename_i hr
      cases h
      have hro : s.rdOnly = true := hrep (by rw [hr]; simp)
      refine ⟨⟨hrd, by simp, by simp, ?_, ?_, ?_⟩, snap, ?_, fun es as => rfl⟩
      · intro v hv'
        rw [hrd hro] at hv'; cases hv'
      · intro hc
        exact absurd (hlt _ hc) (by simp)
      · intro h' hc
        have := hlt h' hc
        simp only [List.length_append, List.length_cons, List.length_nil]
        omega
      · show (s.files ++ [snap])[s.files.length]? = _
        simp
    · cases h
  | finish =>
    simp only [ev] at h
    split at h
    · rename_i hc
      cases h
      exact ⟨⟨by simp, fun h' => absurd hc.2 h', hcur, hhandle, hopen, hlt⟩, cur, hv,
        same (by simp) (by simp)⟩
    · cases h
  | close hd =>
    simp only [ev] at h
    split at h
    · rename_i hc
      cases h
      refine ⟨⟨hrd, hrep, hcur, hhandle, ?_, ?_⟩, cur, hv, same (by simp) (by simp)⟩
      · intro h'
        rcases List.mem_cons.1 h' with h' | h'
        · exact hc.1 h'.symm
        · exact hopen h'
      · intro h' hm
        rcases List.mem_cons.1 hm with rfl | hm
        · exact hc.2
        · exact hlt h' hm
    · cases h

theorem quiet_expected {s : Sys} {es : List Ev} {as : List EvAns} {y : Sys} {cur : Store}
    (hs : Settled s) (hv : s.visible = some cur) (hq : quiet s es = true)
    (h : runEv s es = some (as, y)) : y.visible = some (expected cur es as) := by
  induction es generalizing s as cur with
  | nil => cases h; simpa [expected] using hv
  | cons e es ih =>
    simp only [runEv] at h
    cases he : ev s e with
    | none => rw [he] at h; cases h
    | some r =>
      obtain ⟨a, s'⟩ := r
      simp only [he] at h
      cases hr : runEv s' es with
      | none => rw [hr] at h; cases h
      | some q =>
        rw [hr] at h
        simp only [Option.map_some, Option.some.injEq, Prod.mk.injEq] at h
        obtain ⟨h1, h2⟩ := h
        simp only [quiet, he, Bool.and_eq_true] at hq
        have hbeg : ∀ snap, e = .begin snap → s.writers = [] := by
          intro snap heq
          subst heq
          simpa using hq.1
        obtain ⟨hs', cur', hv', hex⟩ := ev_settled hs hv hbeg he
        have := ih hs' hv' hq.2 (as := q.1) (by rw [hr, ← h2])
        rw [this, ← h1, hex]

/-- **C29, partial**: what is missing are writers that are under way when the replacement begins.
For every store and every execution in which a replacement only begins when no writer is between
its read-only check and its commit, the visible store is the last installed snapshot (or the
original store) plus all writes acknowledged since.  (hashicorp/raft runs `Apply` and `Restore` in the
same goroutine, so writes that come through the log satisfy this.) -/
theorem C29_nothing_lost_partial (s : Store) (es : List Ev) (as : List EvAns) (y : Sys)
    (h : runEv (.init s) es = some (as, y)) (hq : quiet (.init s) es = true) :
    y.visible = some (expected s es as) :=
  quiet_expected (init_settled s) rfl hq h

/-- **C29** Writes that arrive while a replacement is in progress are refused and change nothing. -/
theorem C29_refused_during_replacement (s : Sys) (w : Nat) (op : Op) (h : s.rdOnly = true) :
    ev s (.check w op) = some (.readOnly, s) := by
  simp [ev, h]

/-- A replacement keeps the flag from its beginning to its end: from `begin` up to `finish` every
state is read-only. -/
theorem C29_flag_during_replacement (es : List Ev) (s : Sys) (hr : s.rdOnly = true)
    (hne : ∀ e ∈ es, e ≠ .finish) (as : List EvAns) (y : Sys) (h : runEv s es = some (as, y)) :
    y.rdOnly = true := by
  induction es generalizing s as with
  | nil => cases h; exact hr
  | cons e es ih =>
    simp only [runEv] at h
    cases he : ev s e with
    | none => rw [he] at h; cases h
    | some r =>
      obtain ⟨a, s'⟩ := r
      simp only [he] at h
      cases hq : runEv s' es with
      | none => rw [hq] at h; cases h
      | some q =>
        rw [hq] at h
        simp only [Option.map_some, Option.some.injEq, Prod.mk.injEq] at h
        have hs' : s'.rdOnly = true := by
          cases e with
          | finish => exact absurd rfl (hne _ (List.mem_cons_self ..))
          | check w op => simp only [ev, hr, ↓reduceIte] at he; cases he; exact hr
          | begin snap => simp only [ev, hr, ↓reduceIte] at he; cases he; exact hr
          | load w op =>
            simp only [ev] at he
            split at he
            · cases he; exact hr
            · cases he
          | commit w op hd =>
            simp only [ev] at he
            split at he
            · split at he
              · cases he; exact hr
              · split at he
                · cases he
                · cases he; exact hr
            · cases he
          | swap snap =>
            simp only [ev] at he
            split at he
            · cases he; exact hr
            · cases he
          | close hd =>
            simp only [ev] at he
            split at he
            · cases he; exact hr
            · cases he
        exact ih s' hs' (fun e he => hne e (List.mem_cons_of_mem _ he)) q.1 (by rw [hq, ← h.2])

/-- **C29** A restored replica shows exactly the store that the snapshot was taken of: `snap` is
what the read transaction of `Snapshot` sees, that is the visible store of the writing replica at
that moment, whatever happens there afterwards. -/
theorem C29_restore_reproduces (writer reader : Sys) (snap : Store) (hsnap : writer.visible = some snap)
    (hr : reader.rdOnly = false) :
    ∃ y as, runEv reader [.begin snap, .swap snap, .finish] = some (as, y) ∧
      y.visible = writer.visible := by
  refine ⟨{ reader with
    files := reader.files ++ [snap], cur := reader.files.length, replacing := none, rdOnly := false },
    [.none, .none, .none], ?_, ?_⟩
  · simp [runEv, ev, hr]
  · rw [hsnap]; simp [Sys.visible]

/-- **C29 fails** as stated: a writer has the old handle when the replacement swaps; its write is
acknowledged and gone. -/
theorem C29_statement_fails : ¬ NothingLost := by
  intro h
  have := h .empty
    [.check 0 (.addMeta "b/a".toList (sampleMeta 1)), .load 0 (.addMeta "b/a".toList (sampleMeta 1)),
     .begin .empty, .swap .empty, .commit 0 (.addMeta "b/a".toList (sampleMeta 1)) 0, .finish]
    [.none, .none, .none, .none, .done .ok, .none] _ rfl
  revert this
  decide

/-- An execution with two replacements and writes before, between and during them. -/
example :
    let a := Op.addMeta "b/a".toList (sampleMeta 1)
    let c := Op.addMeta "b/c".toList (sampleMeta 2)
    let snap := (step .empty c).2
    let es : List Ev := [.check 0 a, .load 0 a, .commit 0 a 0, .begin snap, .check 1 a, .swap snap,
      .finish, .check 2 a, .close 0, .load 2 a, .commit 2 a 1, .begin .empty, .swap .empty, .finish,
      .check 3 c, .load 3 c, .commit 3 c 2]
    quiet (.init .empty) es = true ∧
    (runEv (.init .empty) es).map (fun r => (r.1[4]?, r.2.visible)) =
      some (some .readOnly, some snap) := by decide

end Verif.Meta
