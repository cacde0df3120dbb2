import Verif.Meta.Fsm

/-!
# Replicas whose database cannot be written (C133)

What `FSMImpl` (src/metaserver/internal/usecase/raftimpl/fsm_impl.go) does when the transaction of an entry fails for a reason that is not in
the log: the drive is full, an error of the drive, the database is closed.  `FSMResult` makes an answer with status 500 of the error
(fsm_impl.go:207-222), and the next entry is applied.  Only the leader looks at the answer (raft_apply.go:26-39).

Simplified: which entries fail on a replica is a parameter; bbolt undoes a transaction that fails.
-/

namespace Verif.Meta.Faults

open Verif Verif.Meta

/-! ## Model -/

/-- The loop of `ApplyBatch`, fsm_impl.go:127-153, on a replica where the entries `bad` cannot be written.  The answer `none` is the error
of the drive.  `none` as a whole is a panic. -/
def apply (bad : Nat → Bool) : Nat → Store → List Cmd → Option (List (Option FsmAns) × Store)
  | _, s, [] => some ([], s)
  | k, s, c :: cs =>
    if bad k then (apply bad (k + 1) s cs).map fun r => (none :: r.1, r.2)
    else
      match dispatch true c s with
      | none => none
      | some (a, s') => (apply bad (k + 1) s' cs).map fun r => (some a :: r.1, r.2)

/-- The end of `ApplyBatch`, fsm_impl.go:155-162: the error of `Sync` replaces the answers that are nil.  An answer of the loop is `some`;
`none` is nil. -/
def afterSync {α : Type} (syncErr : Option α) (res : List (Option α)) : List (Option α) :=
  match syncErr with
  | none => res
  | some e => res.map fun a => if a.isNone then some e else a

/-- A replica that ends at the first entry it cannot write (it panics, say), instead. -/
def stopping (bad : Nat → Bool) : Nat → Store → List Cmd → Option Store
  | _, s, [] => some s
  | k, s, c :: cs =>
    if bad k then some s
    else
      match dispatch true c s with
      | none => none
      | some (_, s') => stopping bad (k + 1) s' cs

/-! ## Specification -/

/-- The full statement: replicas that apply the same log have the same store. -/
def Statement : Prop := ∀ (bad bad' : Nat → Bool) (cs : List Cmd) (r r' : List (Option FsmAns) × Store),
  apply bad 0 .empty cs = some r → apply bad' 0 .empty cs = some r' → r.2 = r'.2

/-- The log as the state machine gets it. -/
def entries (cs : List Cmd) : List Entry := cs.map fun c => .cmd (encodeCmd c)

/-! ## Proofs -/

theorem decode_encode (z c : Cmd) : decodeInto z (encodeCmd c) = c := rfl

/-- **C133, partial** Without failures a replica is the state machine of C27: replicas are identical.  Missing: failures. -/
theorem C133_no_fault_partial (cs : List Cmd) : ∀ (k : Nat) (z : Cmd) (s : Store) (bad : Nat → Bool), (∀ j, k ≤ j → j < k + cs.length → bad j = false) →
    apply bad k s cs = (batchLoop z s (entries cs)).map fun r => (r.1.map some, r.2) := by
  induction cs with
  | nil => intro k z s bad _; rfl
  | cons c cs ih =>
    intro k z s bad hb
    have h0 : bad k = false := hb k (Nat.le_refl k) (by simp)
    simp only [apply, entries, List.map_cons, batchLoop, h0, decode_encode, Bool.false_eq_true, ↓reduceIte]
    cases dispatch true c s with
    | none => rfl
    | some p =>
      obtain ⟨a, s'⟩ := p
      dsimp only
      rw [ih (k + 1) c s' bad (fun j h1 h2 => hb j (by omega) (by simp; omega))]
      simp only [entries]
      cases batchLoop c s' (List.map (fun c => Entry.cmd (encodeCmd c)) cs) <;> rfl

/-- **C133** Two replicas agree up to the first failure. -/
theorem C133_prefix (cs : List Cmd) (m : Nat) (bad bad' : Nat → Bool) (h : ∀ j < m, bad j = false ∧ bad' j = false) :
    apply bad 0 .empty (cs.take m) = apply bad' 0 .empty (cs.take m) := by
  have hl : (cs.take m).length ≤ m := List.length_take_le m cs
  rw [C133_no_fault_partial (cs.take m) 0 .zero .empty bad (fun j _ hj => (h j (by omega)).1),
    C133_no_fault_partial (cs.take m) 0 .zero .empty bad' (fun j _ hj => (h j (by omega)).2)]

/-- **C133** A failure of an entry that would not have changed the store does no harm to it. -/
theorem C133_harmless (cs : List Cmd) : ∀ (k : Nat) (s : Store) (bad : Nat → Bool) (r : List (Option FsmAns) × Store),
    apply (fun _ => false) k s cs = some r →
    (∀ j c, bad (k + j) = true → cs[j]? = some c → ∀ t, apply (fun _ => false) k s (cs.take j) = some t → ∃ a, dispatch true c t.2 = some (a, t.2)) →
    ∃ r', apply bad k s cs = some r' ∧ r'.2 = r.2 := by
  induction cs with
  | nil => intro k s bad r h _; exact ⟨_, rfl, by cases h; rfl⟩
  | cons c cs ih =>
    intro k s bad r h hb
    simp only [apply, Bool.false_eq_true, ↓reduceIte] at h
    cases hd : dispatch true c s with
    | none => rw [hd] at h; cases h
    | some p =>
      obtain ⟨a, s'⟩ := p
      rw [hd] at h
      dsimp only at h
      obtain ⟨q, hq, rfl⟩ := Option.map_eq_some_iff.1 h
      have hrest : ∀ j d, bad (k + 1 + j) = true → cs[j]? = some d → ∀ t, apply (fun _ => false) (k + 1) s' (cs.take j) = some t →
          ∃ a, dispatch true d t.2 = some (a, t.2) := by
        intro j d hj hc t ht
        refine hb (j + 1) d (by rw [← hj]; congr 1; omega) (by simpa using hc) (some a :: t.1, t.2) ?_
        simp only [List.take_succ_cons, apply, Bool.false_eq_true, ↓reduceIte, hd, ht, Option.map_some]
      obtain ⟨r', h1, h2⟩ := ih (k + 1) s' bad q hq hrest
      unfold apply
      by_cases hk : bad k = true
      · obtain ⟨a', ha'⟩ := hb 0 c hk (by simp) ([], s) rfl
        have he : s' = s := by
          have := hd.symm.trans ha'
          simp only [Option.some.injEq, Prod.mk.injEq] at this
          exact this.2
        rw [if_pos hk]
        rw [he] at h1
        rw [h1]
        exact ⟨_, rfl, h2⟩
      · rw [if_neg hk, hd]
        dsimp only
        rw [h1]
        exact ⟨_, rfl, h2⟩

/-- An object, and two uploads to it. -/
def sampleLog : List Cmd :=
  [⟨1, 4, "b/a".toList, 0, none, some (sampleMeta 1), none⟩,
   ⟨1, 1, "b/a".toList, 0, some (sampleVer "h1".toList "u1".toList 1), none, none⟩,
   ⟨1, 1, "b/a".toList, 0, some (sampleVer "h2".toList "u2".toList 2), none, none⟩]

/-- The hash of a version. -/
def hashOf (s : Store) (q : Int) : Option Str := (getVersion s "b/a".toList q).toOption.map (·.hash)

/-- **C133** A follower could not write the first upload.  Both uploads are acknowledged by the leader as versions 1 and 2; on the follower
version 1 is the second upload and version 2 does not exist. -/
theorem C133_other_content :
    (apply (fun _ => false) 0 .empty sampleLog).map (fun r => (r.1, hashOf r.2 1, hashOf r.2 2)) =
      some ([some (.resp none none), some (.resp none (some 1)), some (.resp none (some 2))], some "h1".toList, some "h2".toList) ∧
    (apply (· == 1) 0 .empty sampleLog).map (fun r => (hashOf r.2 1, hashOf r.2 2)) = some (some "h2".toList, none) := by decide

/-- **C133** A restart, which applies the log again (C62), makes it worse: the follower then has both uploads with their numbers exchanged. -/
theorem C133_restart_exchanges :
    ((apply (· == 1) 0 .empty sampleLog).bind fun r => apply (fun _ => false) 0 r.2 sampleLog).map (fun r => (hashOf r.2 1, hashOf r.2 2)) =
      some (some "h2".toList, some "h1".toList) := by decide

/-- **C133** The leader could not write: the client is told so, and the upload is there on the followers, which one day lead. -/
theorem C133_error_applied :
    (apply (· == 2) 0 .empty sampleLog).map (fun r => (r.1[2]?, hashOf r.2 2)) = some (some none, none) ∧
    (apply (fun _ => false) 0 .empty sampleLog).map (fun r => hashOf r.2 2) = some (some "h2".toList) := by decide

theorem C133_statement_fails : ¬ Statement := by
  intro h
  have hx : ∃ r, apply (fun _ => false) 0 .empty sampleLog = some r ∧ hashOf r.2 1 = some "h1".toList := ⟨_, rfl, by decide⟩
  have hy : ∃ r, apply (· == 1) 0 .empty sampleLog = some r ∧ hashOf r.2 1 = some "h2".toList := ⟨_, rfl, by decide⟩
  obtain ⟨r, h1, h2⟩ := hx
  obtain ⟨r', h3, h4⟩ := hy
  have := h _ _ _ _ _ h1 h3
  rw [this, h4] at h2
  revert h2
  decide

/-- **C133** An error of `Sync` is never reported: no answer of the loop is nil. -/
theorem C133_sync_unnoticed {α : Type} (e : α) (res : List α) : afterSync (some e) (res.map some) = res.map some := by
  unfold afterSync
  dsimp only
  rw [List.map_map]
  rfl

/-- **C133** With replicas that end at the first entry they cannot write, every replica is what the log up to some point makes. -/
theorem C133_repair (cs : List Cmd) : ∀ (k : Nat) (s : Store) (bad : Nat → Bool) (t : Store), stopping bad k s cs = some t →
    ∃ m as, apply (fun _ => false) k s (cs.take m) = some (as, t) ∧ (∀ j < m, j < cs.length → bad (k + j) = false) := by
  induction cs with
  | nil => intro k s bad t h; cases h; exact ⟨0, [], rfl, by simp⟩
  | cons c cs ih =>
    intro k s bad t h
    unfold stopping at h
    by_cases hk : bad k = true
    · rw [if_pos hk] at h
      cases h
      exact ⟨0, [], rfl, by simp⟩
    · rw [if_neg hk] at h
      cases hd : dispatch true c s with
      | none => rw [hd] at h; cases h
      | some p =>
        obtain ⟨a, s'⟩ := p
        rw [hd] at h
        obtain ⟨m, as, h1, h2⟩ := ih (k + 1) s' bad t h
        refine ⟨m + 1, some a :: as, ?_, ?_⟩
        · simp only [List.take_succ_cons, apply, Bool.false_eq_true, ↓reduceIte, hd, h1, Option.map_some]
        · intro j hj hl
          cases j with
          | zero => simpa using hk
          | succ j =>
            have := h2 j (by omega) (by simpa using hl)
            rw [← this]
            congr 1
            omega

/-! ## Non-vacuity -/

example : ∃ r, apply (fun _ => false) 0 .empty sampleLog = some r ∧ r.1.length = 3 := ⟨_, rfl, rfl⟩

/-- The first three entries agree if only the fourth fails somewhere. -/
example : apply (· == 3) 0 .empty ((sampleLog ++ sampleLog).take 3) = apply (fun _ => false) 0 .empty ((sampleLog ++ sampleLog).take 3) :=
  C133_prefix _ 3 _ _ (by decide)

/-- A second delivery of an upload fails on one replica: it would not have changed anything. -/
example : ∃ r', apply (· == 3) 0 .empty (sampleLog ++ sampleLog.drop 2) = some r' ∧ hashOf r'.2 2 = some "h2".toList := by
  have h : ∃ r, apply (fun _ => false) 0 .empty (sampleLog ++ sampleLog.drop 2) = some r ∧ hashOf r.2 2 = some "h2".toList := ⟨_, rfl, by decide⟩
  obtain ⟨r, hr, h2⟩ := h
  obtain ⟨r', h3, h4⟩ := C133_harmless _ 0 .empty (· == 3) r hr (by
    intro j c hj hc t ht
    have : j = 3 := by simpa using hj
    subst this
    have hc' : c = ⟨1, 1, "b/a".toList, 0, some (sampleVer "h2".toList "u2".toList 2), none, none⟩ := by
      simpa [sampleLog] using hc.symm
    subst hc'
    have hx : ∃ u, apply (fun _ => false) 0 .empty ((sampleLog ++ sampleLog.drop 2).take 3) = some u ∧
        ∃ a, dispatch true ⟨1, 1, "b/a".toList, 0, some (sampleVer "h2".toList "u2".toList 2), none, none⟩ u.2 = some (a, u.2) := ⟨_, rfl, _, rfl⟩
    obtain ⟨u, hu, ha⟩ := hx
    rw [hu] at ht
    cases ht
    exact ha)
  exact ⟨r', h3, by rw [h4]; exact h2⟩

example : ∃ t, stopping (· == 1) 0 .empty sampleLog = some t ∧ hashOf t 1 = none := ⟨_, rfl, by decide⟩

end Verif.Meta.Faults
