import Verif.Common.Str

/-!
# The database file of a metadata server over replacements, stops and crashes: C109

* src/metaserver/internal/usecase/db/storage.go: `Open` 102-117, `Stop` 75-87, `Replace` 119-144;
* repo/metadata_repo.go: `Restore` 308-328;
* pool/pool.go: `initStorage` 72-78, `Close` 99-107.

What the transactions do is in `Meta/Model`, who may write during a replacement in `Meta/Restore`, what raft's replay of a log does
to a database in `Meta/Replay`.  Here the content of a database is any type `σ`, a transaction any function.  Trusted: bbolt commits
are durable, a database opened at a path without file is empty, bbolt ignores what follows its last page (`Restore` does not truncate
the file it writes); rename is atomic.
-/

namespace Verif.DbFile
open Verif

/-- A file: a whole database, or the beginning of one. -/
inductive File (σ : Type)
  | db (x : σ)
  | torn
deriving DecidableEq

/-- What the process is doing: not running, running with the database at a path, or after `Stop`. -/
inductive Phase
  | down
  | up (cur : Str)
  | stopped
deriving DecidableEq

/-- The files, the process, and the paths its goroutines of storage.go:137-142 have still to remove. -/
structure St (σ : Type) where
  disk : Str → Option (File σ)
  phase : Phase
  pending : List Str

/-- metadata_repo.go:309 -/
def suffix : Str := "_replace".toList

/-- pool.go:75: the path the database is opened at. -/
def origPath (dir sid : Str) : Str := dir ++ '/' :: sid ++ ".db".toList

def set {σ : Type} (d : Str → Option (File σ)) (p : Str) (x : Option (File σ)) : Str → Option (File σ) :=
  fun q => if q = p then x else d q

/-- What happens. -/
inductive Ev (σ κ : Type)
  | start                    -- pool.go:72-78, storage.go:102-117
  | apply (c : κ)            -- a transaction
  | copy (x : σ)             -- metadata_repo.go:309-325: the new file is written
  | copyFails                -- metadata_repo.go:317-321: a part of it is written
  | swap                     -- storage.go:119-135
  | remove (p : Str)         -- storage.go:139-141
  | stop                     -- storage.go:75-87
  | exit                     -- the process ends, in order or not

/-- What is fixed: the transactions, an empty database, the path, and how long a path may be. -/
structure Env (σ κ : Type) where
  f : σ → κ → σ
  empty : σ
  orig : Str
  limit : Nat

/-- metadata_repo.go:309: where a new file is written.  bbolt's `Close` clears the path, so after `Stop` it is a file in the working
directory. -/
def target : Phase → Str
  | .down => []
  | .up p => p ++ suffix
  | .stopped => suffix

/-- One step; none if it is not possible.  Simplified: the database that is opened in a replacement after `Stop` is not followed, the
process ends then. -/
def step {σ κ : Type} (E : Env σ κ) (s : St σ) : Ev σ κ → Option (St σ)
  | .start =>
    match s.phase with
    | .down =>
      match s.disk E.orig with
      | none => some { disk := set s.disk E.orig (some (.db E.empty)), phase := .up E.orig, pending := [] }
      | some (.db _) => some { s with phase := .up E.orig, pending := [] }
      | some .torn => none
    | _ => none
  | .apply c =>
    match s.phase with
    | .up p =>
      match s.disk p with
      | some (.db x) => some { s with disk := set s.disk p (some (.db (E.f x c))) }
      | _ => none
    | _ => none
  | .copy x =>
    if s.phase = .down ∨ E.limit < (target s.phase).length then none
    else some { s with disk := set s.disk (target s.phase) (some (.db x)) }
  | .copyFails =>
    if s.phase = .down ∨ E.limit < (target s.phase).length then none
    else some { s with disk := set s.disk (target s.phase) (some .torn) }
  | .swap =>
    match s.phase with
    | .up p =>
      match s.disk (p ++ suffix) with
      | some (.db _) => some { s with phase := .up (p ++ suffix), pending := p :: s.pending }
      | _ => none
    | _ => none
  | .remove p =>
    if p ∈ s.pending then some { s with disk := set s.disk p none, pending := s.pending.erase p } else none
  | .stop =>
    match s.phase with
    | .up p =>
      if p ≠ E.orig then some { s with disk := set (set s.disk E.orig (s.disk p)) p none, phase := .stopped }
      else some { s with phase := .stopped }
    | _ => none
  | .exit => if s.phase = .down then none else some { s with phase := .down, pending := [] }

def run {σ κ : Type} (E : Env σ κ) : St σ → List (Ev σ κ) → Option (St σ)
  | s, [] => some s
  | s, e :: es => (step E s e).bind fun s' => run E s' es

/-- A machine on which the server never ran. -/
def St.init (σ : Type) : St σ := { disk := fun _ => none, phase := .down, pending := [] }

/-! ## Specification -/

/-- What a reader sees. -/
def St.visible {σ : Type} (s : St σ) : Option σ :=
  match s.phase with
  | .up p => match s.disk p with
    | some (.db x) => some x
    | _ => none
  | _ => none

def Reach {σ κ : Type} (E : Env σ κ) (s : St σ) : Prop := ∃ es, run E (.init σ) es = some s

/-- Full statement: a server that was stopped in order shows after its next start what it showed before. -/
def C109_statement : Prop :=
  ∀ (σ κ : Type) (E : Env σ κ) (s s' : St σ) (x : σ) (ps : List Str), Reach E s → s.visible = some x → E.orig ≠ suffix →
    run E s (.stop :: ps.map .remove ++ [.exit, .start]) = some s' → s'.visible = some x

/-! ## Paths -/

/-- `n` times the suffix. -/
def rep : Nat → Str
  | 0 => []
  | n + 1 => rep n ++ suffix

theorem suffix_length : suffix.length = 8 := by decide

theorem rep_length (n : Nat) : (rep n).length = 8 * n := by
  induction n with
  | zero => rfl
  | succ n ih => unfold rep; rw [List.length_append, ih, suffix_length]; omega

theorem rep_inj {o : Str} {a b : Nat} (h : o ++ rep a = o ++ rep b) : a = b := by
  have := congrArg List.length h
  simp only [List.length_append, rep_length] at this
  omega

theorem orig_ne_suffix (dir sid : Str) : origPath dir sid ≠ suffix := by
  intro h
  have : '/' ∈ suffix := by rw [← h]; simp [origPath]
  revert this
  decide

/-! ## The invariant -/

structure Inv {σ κ : Type} (E : Env σ κ) (s : St σ) : Prop where
  whole : s.disk E.orig ≠ some .torn
  down : s.phase = .down → s.pending = []
  up : ∀ p, s.phase = .up p → ∃ n, p = E.orig ++ rep n ∧ (∃ x, s.disk p = some (.db x)) ∧
    ∀ q ∈ s.pending, ∃ m, m < n ∧ q = E.orig ++ rep m

theorem set_same {σ : Type} (d : Str → Option (File σ)) (p : Str) (x : Option (File σ)) : set d p x p = x := if_pos rfl

theorem set_ne {σ : Type} (d : Str → Option (File σ)) {p q : Str} (x : Option (File σ)) (h : q ≠ p) : set d p x q = d q := if_neg h

theorem append_suffix_ne (o : Str) : o ≠ o ++ suffix := by
  intro h
  have := congrArg List.length h
  rw [List.length_append, suffix_length] at this
  omega

theorem Inv.write {σ κ : Type} {E : Env σ κ} (ho : E.orig ≠ suffix) {s : St σ} (h : Inv E s) (hd : s.phase ≠ .down) (y : File σ) :
    Inv E { s with disk := set s.disk (target s.phase) (some y) } := by
  cases hp : s.phase with
  | down => exact absurd hp hd
  | stopped =>
    refine ⟨?_, ?_, ?_⟩
    · show set s.disk suffix (some y) E.orig ≠ _
      rw [set_ne _ _ ho]; exact h.whole
    · intro x; cases x
    · intro p x; cases x
  | up p =>
    obtain ⟨n, hn, ⟨x, hx⟩, hq⟩ := h.up p hp
    have e1 : E.orig ≠ p ++ suffix := by
      rw [hn, List.append_assoc]
      intro e
      have := congrArg List.length e
      simp only [List.length_append, suffix_length] at this
      omega
    refine ⟨?_, ?_, ?_⟩
    · show set s.disk (p ++ suffix) (some y) E.orig ≠ _
      rw [set_ne _ _ e1]; exact h.whole
    · intro x; cases x
    · intro p' hp'
      cases hp'
      refine ⟨n, hn, ⟨x, ?_⟩, hq⟩
      show set s.disk (p ++ suffix) (some y) p = _
      rw [set_ne _ _ (append_suffix_ne p)]; exact hx

theorem Inv.step {σ κ : Type} {E : Env σ κ} (ho : E.orig ≠ suffix) {s s' : St σ} (h : Inv E s) (e : Ev σ κ)
    (hs : step E s e = some s') : Inv E s' := by
  cases e with
  | start =>
    unfold DbFile.step at hs
    cases hp : s.phase with
    | up p => rw [hp] at hs; cases hs
    | stopped => rw [hp] at hs; cases hs
    | down =>
      rw [hp] at hs
      dsimp only at hs
      cases hd : s.disk E.orig with
      | none =>
        rw [hd] at hs
        cases hs
        refine ⟨?_, ?_, ?_⟩
        · show set _ _ _ _ ≠ _
          rw [set_same]; intro x; cases x
        · intro x; cases x
        · intro p hp'
          cases hp'
          exact ⟨0, by simp [rep], ⟨E.empty, set_same _ _ _⟩, by intro q hq; cases hq⟩
      | some y =>
        rw [hd] at hs
        cases y with
        | torn => cases hs
        | db x =>
          cases hs
          refine ⟨h.whole, ?_, ?_⟩
          · intro x; cases x
          · intro p hp'
            cases hp'
            exact ⟨0, by simp [rep], ⟨x, hd⟩, by intro q hq; cases hq⟩
  | apply c =>
    unfold DbFile.step at hs
    cases hp : s.phase with
    | down => rw [hp] at hs; cases hs
    | stopped => rw [hp] at hs; cases hs
    | up p =>
      obtain ⟨n, hn, ⟨x, hx⟩, hq⟩ := h.up p hp
      rw [hp] at hs
      dsimp only at hs
      rw [hx] at hs
      cases hs
      refine ⟨?_, ?_, ?_⟩
      · show set _ _ _ _ ≠ _
        by_cases e : E.orig = p
        · rw [e, set_same]; intro x; cases x
        · rw [set_ne _ _ e]; exact h.whole
      · intro x; cases x
      · intro p' hp'
        cases hp'
        exact ⟨n, hn, ⟨_, set_same _ _ _⟩, hq⟩
  | copy x =>
    unfold DbFile.step at hs
    dsimp only at hs
    split at hs
    · cases hs
    · rename_i hc
      cases hs
      exact h.write ho (fun a => hc (.inl a)) _
  | copyFails =>
    unfold DbFile.step at hs
    dsimp only at hs
    split at hs
    · cases hs
    · rename_i hc
      cases hs
      exact h.write ho (fun a => hc (.inl a)) _
  | swap =>
    unfold DbFile.step at hs
    cases hp : s.phase with
    | down => rw [hp] at hs; cases hs
    | stopped => rw [hp] at hs; cases hs
    | up p =>
      obtain ⟨n, hn, _, hq⟩ := h.up p hp
      rw [hp] at hs
      dsimp only at hs
      cases hd : s.disk (p ++ suffix) with
      | none => rw [hd] at hs; cases hs
      | some y =>
        rw [hd] at hs
        cases y with
        | torn => cases hs
        | db x =>
          cases hs
          refine ⟨h.whole, ?_, ?_⟩
          · intro x; cases x
          · intro p' hp'
            cases hp'
            refine ⟨n + 1, ?_, ⟨x, hd⟩, ?_⟩
            · rw [hn, List.append_assoc]; rfl
            · intro q hq'
              rcases List.mem_cons.1 hq' with e | e
              · exact ⟨n, by omega, by rw [e, hn]⟩
              · obtain ⟨m, hm, e⟩ := hq q e
                exact ⟨m, by omega, e⟩
  | remove q =>
    unfold DbFile.step at hs
    dsimp only at hs
    split at hs
    · rename_i hm
      cases hs
      refine ⟨?_, ?_, ?_⟩
      · show set _ _ _ _ ≠ _
        by_cases e : E.orig = q
        · rw [e, set_same]; intro x; cases x
        · rw [set_ne _ _ e]; exact h.whole
      · intro x
        rw [h.down x] at hm; cases hm
      · intro p hp
        obtain ⟨n, hn, ⟨x, hx⟩, hq⟩ := h.up p hp
        refine ⟨n, hn, ⟨x, ?_⟩, fun q' hq' => hq q' (List.mem_of_mem_erase hq')⟩
        obtain ⟨m, hm', e⟩ := hq q hm
        show set s.disk q none p = _
        rw [set_ne, hx]
        intro e'
        rw [hn, e] at e'
        have := rep_inj e'
        omega
    · cases hs
  | stop =>
    unfold DbFile.step at hs
    cases hp : s.phase with
    | down => rw [hp] at hs; cases hs
    | stopped => rw [hp] at hs; cases hs
    | up p =>
      obtain ⟨n, hn, ⟨x, hx⟩, hq⟩ := h.up p hp
      rw [hp] at hs
      dsimp only at hs
      split at hs
      · rename_i hne
        cases hs
        refine ⟨?_, ?_, ?_⟩
        · show set _ _ _ _ ≠ _
          rw [set_ne _ _ (fun e => hne e.symm), set_same, hx]
          intro a; cases a
        · intro a; cases a
        · intro a b; cases b
      · cases hs
        exact ⟨h.whole, (by intro a; cases a), (by intro a b; cases b)⟩
  | exit =>
    unfold DbFile.step at hs
    dsimp only at hs
    split at hs
    · cases hs
    · cases hs
      exact ⟨h.whole, fun _ => rfl, by intro a b; cases b⟩

theorem Inv.run {σ κ : Type} {E : Env σ κ} (ho : E.orig ≠ suffix) : ∀ (es : List (Ev σ κ)) {s s' : St σ}, Inv E s →
    run E s es = some s' → Inv E s' := by
  intro es
  induction es with
  | nil => intro s s' h hs; cases hs; exact h
  | cons e es ih =>
    intro s s' h hs
    unfold DbFile.run at hs
    cases he : DbFile.step E s e with
    | none => rw [he] at hs; cases hs
    | some t =>
      rw [he] at hs
      exact ih (h.step ho e he) hs

theorem Reach.inv {σ κ : Type} {E : Env σ κ} (ho : E.orig ≠ suffix) {s : St σ} (h : Reach E s) : Inv E s := by
  obtain ⟨es, h⟩ := h
  refine Inv.run ho es ⟨?_, fun _ => rfl, ?_⟩ h
  · intro a; cases a
  · intro a b; cases b

theorem run_append {σ κ : Type} (E : Env σ κ) : ∀ (a b : List (Ev σ κ)) (s : St σ),
    run E s (a ++ b) = (run E s a).bind fun t => run E t b := by
  intro a
  induction a with
  | nil => intro b s; rfl
  | cons e a ih =>
    intro b s
    show (step E s e).bind (fun t => run E t (a ++ b)) = ((step E s e).bind fun t => run E t a).bind _
    cases step E s e with
    | none => rfl
    | some t => exact ih b t

/-! ## C109 -/

/-- **C109** Whatever happened before, crashes during a replacement included, the server can be started: the file at its path is
missing or a whole database. -/
theorem C109_starts {σ κ : Type} (E : Env σ κ) (ho : E.orig ≠ suffix) {s : St σ} (h : Reach E s) (hd : s.phase = .down) :
    ∃ s', step E s .start = some s' ∧ s'.phase = .up E.orig ∧
      s'.visible = some (match s.disk E.orig with | some (.db x) => x | _ => E.empty) := by
  have hw := (h.inv ho).whole
  unfold step
  rw [hd]
  dsimp only
  cases hf : s.disk E.orig with
  | none => exact ⟨_, rfl, rfl, by simp [St.visible, set]⟩
  | some y =>
    cases y with
    | torn => exact absurd hf hw
    | db x => exact ⟨_, rfl, rfl, by simp [St.visible, hf]⟩

/-- **C109** While the server runs its database is there: no replacement, complete or not, and no goroutine that removes an old file
takes it away. -/
theorem C109_open {σ κ : Type} (E : Env σ κ) (ho : E.orig ≠ suffix) {s : St σ} (h : Reach E s) (p : Str) (hp : s.phase = .up p) :
    ∃ x, s.visible = some x := by
  obtain ⟨_, _, ⟨x, hx⟩, _⟩ := (h.inv ho).up p hp
  exact ⟨x, by simp [St.visible, hp, hx]⟩

/-- **C109** Only transactions and replacements change what is seen: a transaction applies its function, a replacement installs the
file written last; writing that file, failing to write it and removing old files change nothing. -/
theorem C109_seen {σ κ : Type} (E : Env σ κ) (ho : E.orig ≠ suffix) {s s' : St σ} (h : Reach E s) (p : Str) (hp : s.phase = .up p)
    (x : σ) (hx : s.visible = some x) (e : Ev σ κ) (hs : step E s e = some s') :
    (∀ c, e = .apply c → s'.visible = some (E.f x c)) ∧
    ((∃ y, e = .copy y) ∨ e = .copyFails ∨ (∃ q, e = .remove q) → s'.visible = some x) ∧
    (e = .swap → ∃ y, s.disk (p ++ suffix) = some (.db y) ∧ s'.visible = some y) := by
  obtain ⟨n, hn, ⟨x', hx'⟩, hq⟩ := (h.inv ho).up p hp
  have ex : x' = x := by
    simp only [St.visible, hp, hx', Option.some.injEq] at hx
    exact hx
  subst ex
  refine ⟨?_, ?_, ?_⟩
  · intro c e'
    subst e'
    unfold step at hs
    rw [hp] at hs
    dsimp only at hs
    rw [hx'] at hs
    cases hs
    simp [St.visible, hp, set]
  · intro hc
    rcases hc with ⟨y, e'⟩ | e' | ⟨q, e'⟩ <;> subst e' <;> unfold step at hs <;> dsimp only at hs <;> split at hs <;> cases hs
    · simp [St.visible, hp, set, target, append_suffix_ne p, hx']
    · simp [St.visible, hp, set, target, append_suffix_ne p, hx']
    · rename_i hm
      obtain ⟨m, hm', e⟩ := hq q hm
      have : p ≠ q := by
        intro e'
        rw [hn, e] at e'
        have := rep_inj e'
        omega
      simp [St.visible, hp, set, this, hx']
  · intro e'
    subst e'
    unfold step at hs
    rw [hp] at hs
    dsimp only at hs
    cases hd : s.disk (p ++ suffix) with
    | none => rw [hd] at hs; cases hs
    | some y =>
      rw [hd] at hs
      cases y with
      | torn => cases hs
      | db y =>
        cases hs
        exact ⟨y, rfl, by simp [St.visible, hd]⟩

theorem run_applies {σ κ : Type} (E : Env σ κ) : ∀ (l : List κ) (s : St σ) (p : Str) (x : σ), s.phase = .up p →
    s.disk p = some (.db x) → ∃ s', run E s (l.map .apply) = some s' ∧ s'.visible = some (l.foldl E.f x) := by
  intro l
  induction l with
  | nil => intro s p x hp hx; exact ⟨s, rfl, by simp [St.visible, hp, hx]⟩
  | cons c l ih =>
    intro s p x hp hx
    have : step E s (.apply c) = some { s with disk := set s.disk p (some (.db (E.f x c))) } := by
      unfold step
      rw [hp]
      dsimp only
      rw [hx]
    obtain ⟨s', h1, h2⟩ := ih { s with disk := set s.disk p (some (.db (E.f x c))) } p (E.f x c) hp (set_same _ _ _)
    refine ⟨s', ?_, h2⟩
    show (step E s (.apply c)).bind _ = _
    rw [this]
    exact h1

/-- **C109** Recovery.  However the server ended, the snapshot and the log that raft kept bring back their state: the start of raft
replaces the database by the snapshot and applies the log, and what was left in the files does not matter. -/
theorem C109_recovers {σ κ : Type} (E : Env σ κ) (ho : E.orig ≠ suffix) (hl : E.orig.length + 8 ≤ E.limit) {s : St σ} (h : Reach E s)
    (hd : s.phase = .down) (x : σ) (l : List κ) :
    ∃ s', run E s (.start :: .copy x :: .swap :: l.map .apply) = some s' ∧ s'.visible = some (l.foldl E.f x) := by
  obtain ⟨t, h1, h2, _⟩ := C109_starts E ho h hd
  have hc : step E t (.copy x) = some { t with disk := set t.disk (E.orig ++ suffix) (some (.db x)) } := by
    unfold step
    dsimp only
    rw [h2, if_neg]
    · rfl
    · intro a
      rcases a with a | a
      · cases a
      · simp only [target, List.length_append, suffix_length] at a
        omega
  have hw : step E { t with disk := set t.disk (E.orig ++ suffix) (some (.db x)) } (.swap : Ev σ κ) =
      some ⟨set t.disk (E.orig ++ suffix) (some (.db x)), .up (E.orig ++ suffix), E.orig :: t.pending⟩ := by
    unfold step
    dsimp only
    rw [h2]
    dsimp only
    rw [set_same]
  obtain ⟨s', h3, h4⟩ := run_applies E l ⟨set t.disk (E.orig ++ suffix) (some (.db x)), .up (E.orig ++ suffix), E.orig :: t.pending⟩
    (E.orig ++ suffix) x rfl (set_same _ _ _)
  refine ⟨s', ?_, h4⟩
  show (step E s .start).bind _ = _
  rw [h1]
  show (step E t (.copy x)).bind _ = _
  rw [hc]
  show (step E _ .swap).bind _ = _
  rw [hw]
  exact h3

theorem removes {σ κ : Type} (E : Env σ κ) : ∀ (ps : List Str) (s s' : St σ), E.orig ∉ s.pending → s.phase = .stopped →
    run E s (ps.map .remove) = some s' → s'.disk E.orig = s.disk E.orig ∧ s'.phase = .stopped := by
  intro ps
  induction ps with
  | nil => intro s s' _ hp h; cases h; exact ⟨rfl, hp⟩
  | cons q ps ih =>
    intro s s' hq hp h
    have h' : (step E s (.remove q)).bind (fun t => run E t (ps.map .remove)) = some s' := h
    by_cases hm : q ∈ s.pending
    · have : step E s (.remove q : Ev σ κ) = some { s with disk := set s.disk q none, pending := s.pending.erase q } := by
        unfold step; dsimp only; rw [if_pos hm]
      rw [this] at h'
      have hne : E.orig ≠ q := fun e => hq (e ▸ hm)
      obtain ⟨h1, h2⟩ := ih { s with disk := set s.disk q none, pending := s.pending.erase q } s'
        (fun a => hq (List.mem_of_mem_erase a)) hp h'
      exact ⟨h1.trans (set_ne _ _ hne), h2⟩
    · unfold step at h'; dsimp only at h'; rw [if_neg hm] at h'; cases h'

/-- **C109** partial: what was seen before an orderly stop is seen after the next start, whatever other files are removed meanwhile, if
the file of the first database has been removed before.  Missing: that goroutine after `Stop` (`C109_race`). -/
theorem C109_stop_partial {σ κ : Type} (E : Env σ κ) (ho : E.orig ≠ suffix) {s s' : St σ} (h : Reach E s) (x : σ)
    (hx : s.visible = some x) (hq : E.orig ∉ s.pending) (ps : List Str)
    (hr : run E s (.stop :: ps.map .remove ++ [.exit, .start]) = some s') : s'.visible = some x ∧ s'.phase = .up E.orig := by
  have key : ∃ t, step E s (.stop : Ev σ κ) = some t ∧ t.disk E.orig = some (.db x) ∧ t.phase = .stopped ∧ t.pending = s.pending := by
    cases hp : s.phase with
    | down => simp [St.visible, hp] at hx
    | stopped => simp [St.visible, hp] at hx
    | up p =>
      obtain ⟨n, hn, ⟨x', hx'⟩, _⟩ := (h.inv ho).up p hp
      have ex : x' = x := by
        simp only [St.visible, hp, hx', Option.some.injEq] at hx
        exact hx
      subst ex
      by_cases e : p = E.orig
      · subst e
        exact ⟨{ s with phase := .stopped }, by simp [step, hp], hx', rfl, rfl⟩
      · have e' : E.orig ≠ p := fun a => e a.symm
        exact ⟨⟨set (set s.disk E.orig (s.disk p)) p none, .stopped, s.pending⟩, by simp [step, hp, e], by simp [set, e', hx'], rfl, rfl⟩
  obtain ⟨t, h1, h2, h3, h4⟩ := key
  have hr' : (step E s .stop).bind (fun t => run E t (ps.map .remove ++ [.exit, .start])) = some s' := hr
  rw [h1] at hr'
  have hr'' : run E t (ps.map .remove ++ [.exit, .start]) = some s' := hr'
  rw [run_append] at hr''
  cases hu : run E t (ps.map .remove) with
  | none => rw [hu] at hr''; cases hr''
  | some u =>
    rw [hu] at hr''
    obtain ⟨h5, h6⟩ := removes E ps t u (by rw [h4]; exact hq) h3 hu
    rw [h2] at h5
    have : run E u [.exit, .start] = some ⟨u.disk, .up E.orig, []⟩ := by simp [run, step, h6, h5]
    rw [Option.bind_some, this] at hr''
    cases hr''
    exact ⟨by simp [St.visible, h5], rfl⟩

/-- An old file of a later replacement does no harm. -/
example : ((run (Env.mk (fun (l : List Nat) (c : Nat) => l ++ [c]) [] "d/m.db".toList 40) (.init _)
    [.start, .copy [1], .swap, .remove "d/m.db".toList, .copy [2], .swap, .stop, .remove ("d/m.db".toList ++ suffix), .exit, .start]).bind
    St.visible) = some [2] := by decide

/-- **C109** A server without raft, whose database is never replaced, has after any sequence of starts, stops and crashes exactly what
its transactions made. -/
theorem C109_plain {σ κ : Type} (E : Env σ κ) (es : List (Ev σ κ)) (s : St σ) (h : run E (.init σ) es = some s)
    (hn : ∀ e ∈ es, e = .start ∨ (∃ c, e = .apply c) ∨ e = .stop ∨ e = .exit) :
    (s.phase = .down ∨ s.phase = .stopped ∨ s.phase = .up E.orig) ∧
    (s.disk E.orig = some (.db ((es.filterMap fun e => match e with | .apply c => some c | _ => none).foldl E.f E.empty)) ∨
      es = []) := by
  suffices H : ∀ (es : List (Ev σ κ)) (t s : St σ) (x : σ), run E t es = some s →
      (∀ e ∈ es, e = .start ∨ (∃ c, e = .apply c) ∨ e = .stop ∨ e = .exit) →
      (t.phase = .down ∨ t.phase = .stopped ∨ t.phase = .up E.orig) → t.disk E.orig = some (.db x) →
      (s.phase = .down ∨ s.phase = .stopped ∨ s.phase = .up E.orig) ∧
      s.disk E.orig = some (.db ((es.filterMap fun e => match e with | .apply c => some c | _ => none).foldl E.f x)) by
    cases es with
    | nil => cases h; exact ⟨.inl rfl, .inr rfl⟩
    | cons e es =>
      have he := hn e (by simp)
      have h' : (step E (.init σ) e).bind (fun t => run E t es) = some s := h
      rcases he with rfl | ⟨c, rfl⟩ | rfl | rfl
      · have : step E (.init σ) (.start : Ev σ κ) = some ⟨set (fun _ => none) E.orig (some (.db E.empty)), .up E.orig, []⟩ := rfl
        rw [this] at h'
        have := H es _ s E.empty h' (fun e he => hn e (by simp [he])) (.inr (.inr rfl)) (by simp [set])
        exact ⟨this.1, .inl this.2⟩
      · cases h'
      · cases h'
      · cases h'
  intro es
  induction es with
  | nil => intro t s x h _ hp hd; cases h; exact ⟨hp, hd⟩
  | cons e es ih =>
    intro t s x h hn hp hd
    have he := hn e (by simp)
    have hn' : ∀ e ∈ es, e = .start ∨ (∃ c, e = .apply c) ∨ e = .stop ∨ e = .exit := fun e he => hn e (by simp [he])
    have h' : (step E t e).bind (fun t => run E t es) = some s := h
    rcases he with rfl | ⟨c, rfl⟩ | rfl | rfl
    · rcases hp with hp | hp | hp
      · have : step E t (.start : Ev σ κ) = some { t with phase := .up E.orig, pending := [] } := by
          unfold step; rw [hp]; dsimp only; rw [hd]
        rw [this] at h'
        exact ih _ s x h' hn' (.inr (.inr rfl)) hd
      · unfold step at h'; rw [hp] at h'; cases h'
      · unfold step at h'; rw [hp] at h'; cases h'
    · rcases hp with hp | hp | hp
      · unfold step at h'; rw [hp] at h'; cases h'
      · unfold step at h'; rw [hp] at h'; cases h'
      · have : step E t (.apply c) = some { t with disk := set t.disk E.orig (some (.db (E.f x c))) } := by
          unfold step; rw [hp]; dsimp only; rw [hd]
        rw [this] at h'
        exact ih _ s _ h' hn' (.inr (.inr hp)) (set_same _ _ _)
    · rcases hp with hp | hp | hp
      · unfold step at h'; rw [hp] at h'; cases h'
      · unfold step at h'; rw [hp] at h'; cases h'
      · have : step E t (.stop : Ev σ κ) = some { t with phase := .stopped } := by
          unfold step; rw [hp]; dsimp only; rw [if_neg (fun a => a rfl)]
        rw [this] at h'
        exact ih _ s x h' hn' (.inr (.inl rfl)) hd
    · by_cases hdn : t.phase = .down
      · unfold step at h'; dsimp only at h'; rw [if_pos hdn] at h'; cases h'
      · have : step E t (.exit : Ev σ κ) = some { t with phase := .down, pending := [] } := by
          unfold step; dsimp only; rw [if_neg hdn]
        rw [this] at h'
        exact ih _ s x h' hn' (.inl rfl) hd

/-! ### What goes wrong -/

/-- Transactions append to a list; the path is short. -/
def env : Env (List Nat) Nat := ⟨fun l c => l ++ [c], [], origPath "d".toList "m".toList, 40⟩

/-- Starts, takes a snapshot with the entry 7, writes 8. -/
def taken : List (Ev (List Nat) Nat) := [.start, .copy [7], .swap, .apply 8]

def seen (es : List (Ev (List Nat) Nat)) : Option (List Nat) := (run env (.init _) es).bind St.visible

example : seen taken = some [7, 8] ∧ seen (taken ++ [.remove env.orig, .stop, .exit, .start]) = some [7, 8] ∧
    seen (taken ++ [.remove env.orig, .exit, .start, .copy [7], .swap, .apply 8]) = some [7, 8] := by decide

/-- **C109** FINDING.  The file of the old database is removed by a goroutine that waits for the readers of it.  If the server is
stopped first, the current database has been renamed to that path, and it is the one that is removed. -/
theorem C109_race : seen taken = some [7, 8] ∧ seen (taken ++ [.stop, .remove env.orig, .exit, .start]) = some [] := by decide

theorem C109_statement_fails : ¬ C109_statement := by
  intro h
  cases hr : run env (.init _) taken with
  | none => exact absurd C109_race.1 (by simp [seen, hr])
  | some s =>
    have h1 : s.visible = some [7, 8] := by
      have := C109_race.1
      simpa [seen, hr] using this
    have h2 := C109_race.2
    unfold seen at h2
    rw [run_append, hr] at h2
    cases hs : run env s [.stop, .remove env.orig, .exit, .start] with
    | none => simp [hs] at h2
    | some s' =>
      simp only [Option.bind_some, hs] at h2
      have := h (List Nat) Nat env s s' [7, 8] [env.orig] ⟨taken, hr⟩ h1 (orig_ne_suffix _ _) hs
      rw [h2] at this
      cases this

/-- **C109** FINDING.  After a crash the file at the path of the database is gone or old, and the current one stays behind under
another name: without the snapshot of raft the server starts empty. -/
theorem C109_crash : seen (taken ++ [.remove env.orig, .exit, .start]) = some [] ∧
    ((run env (.init _) (taken ++ [.remove env.orig, .exit, .start])).bind fun s => s.disk (env.orig ++ suffix)) =
      some (.db [7, 8]) := by decide

/-- **C109** Every replacement makes the path longer by eight characters, until the server is stopped. -/
theorem C109_path {σ κ : Type} (E : Env σ κ) {s s' : St σ} (p : Str) (hp : s.phase = .up p)
    (hs : step E s (.swap : Ev σ κ) = some s') : ∃ p', s'.phase = .up p' ∧ p'.length = p.length + 8 := by
  unfold step at hs
  rw [hp] at hs
  dsimp only at hs
  cases hd : s.disk (p ++ suffix) with
  | none => rw [hd] at hs; cases hs
  | some y =>
    rw [hd] at hs
    cases y with
    | torn => cases hs
    | db x =>
      cases hs
      exact ⟨p ++ suffix, rfl, by rw [List.length_append, suffix_length]⟩

/-- **C109** FINDING.  So a server that runs long enough cannot take a snapshot any more: when the next path is too long the file is
not written, and neither is it at any later time before the server is stopped. -/
theorem C109_full {σ κ : Type} (E : Env σ κ) {s : St σ} (p : Str) (hp : s.phase = .up p) (hl : E.limit < p.length + 8) (x : σ) :
    step E s (.copy x : Ev σ κ) = none := by
  unfold step
  dsimp only
  rw [hp, if_pos]
  right
  simp only [target, List.length_append, suffix_length]
  exact hl

/-- Here the fifth snapshot fails. -/
example : (seen [.start, .copy [1], .swap, .copy [2], .swap, .copy [3], .swap, .copy [4], .swap] = some [4]) ∧
    run env (.init _) [.start, .copy [1], .swap, .copy [2], .swap, .copy [3], .swap, .copy [4], .swap, .copy [5]] = none := by
  constructor
  · decide
  · rfl

end Verif.DbFile
