import Verif.Meta.Fsm

/-!
# Restarting a replica: C62

The database file of a replica survives a restart, and `FSMImpl` does not record how far it got:
`ApplyIndex` and `LastAppliedIndex` (repo/metadata_repo.go:364-388) have no caller.  A server that has
not written a snapshot yet therefore applies its whole log once more to the store that already
contains it (`raft.NewRaft` starts with nothing applied; app.go:26-29).  The same happens to a client
command that raft delivers twice.
-/

namespace Verif.Meta

open Verif

/-- The store of a replica after it has applied the log of `ops`, was restarted and has applied the
log again.  (By `C27_log_is_run` applying a log is `run`.) -/
def afterRestart (ops : List Op) : Store := (run (run .empty ops).2 ops).2

/-- The full property: a restart does not change what is stored. -/
def RestartHarmless : Prop :=
  ∀ ops : List Op, (∀ op ∈ ops, (opCmd op).isSome) → afterRestart ops = (run .empty ops).2

/-- The operation removes nothing. -/
def Op.keeps : Op → Bool
  | .addMeta .. | .updateMeta .. | .addVer .. | .migrateVer .. | .updateVer .. | .bucketCreate ..
  | .bucketUpdate .. => true
  | _ => false

/-- The answer reports success. -/
def Res.success : Res → Bool
  | .ok => true
  | .seq _ => true
  | _ => false

/-- What an operation wanted is in the store already, or something newer. -/
def Done (s : Store) : Op → Prop
  | .addMeta id _ => ∃ o, s.metas.get id = some o
  | .updateMeta id d => ∃ o, s.metas.get id = some o ∧ d.updateTime ≤ o.updateTime
  | .addVer _ d => existsByUniqueId s d.uniqueId = true
  | .migrateVer n d => ∃ b v, s.vers.get n = some b ∧ b.items.get (verKey n d.sequence) = some v
  | .updateVer n d =>
    ∃ b o, s.vers.get n = some b ∧ b.items.get (verKey n d.sequence) = some o ∧ d.ts ≤ o.ts
  | .bucketCreate d => ∃ o, s.buckets.get d.name = some o
  | .bucketUpdate d => ∃ o, s.buckets.get d.name = some o ∧ d.updateTime ≤ o.updateTime
  | _ => False

theorem update_error {α : Type} {fn : Tx α} {s : Store} (h : ∀ a s', fn s ≠ (.ok a, s')) :
    (update fn s).2 = s := by
  rcases update_cases fn s with ⟨e, h1, _⟩ | ⟨a, s', h1, _⟩
  · rw [h1]
  · exact absurd h1 (h a s')

/-- An operation that is done changes nothing. -/
theorem done_step {s : Store} {op : Op} (h : Done s op) : (step s op).2 = s := by
  cases op with
  | addMeta id d =>
    obtain ⟨o, ho⟩ := h
    refine update_error (fn := addMeta id d) fun a s' hu => ?_
    have := (addMeta_ok hu).2.1
    rw [ho] at this; cases this
  | updateMeta id d =>
    obtain ⟨o, ho, hle⟩ := h
    refine update_error (fn := updateMeta id d) fun a s' hu => ?_
    obtain ⟨o', h1, h2, _⟩ := updateMeta_ok hu
    rw [ho] at h1; cases h1; omega
  | addVer n d =>
    have hu : (update (addVer n d) s).2 = s := by
      refine update_error fun a s' hu => ?_
      obtain ⟨b, hi, ui, _, _, h3, _⟩ := addVer_ok hu
      rw [show existsByUniqueId s d.uniqueId = true from h] at h3; cases h3
    simp only [step, repoAddVersion]
    split <;> rename_i hr <;> split at hr
    · cases hr
    · split at hr
      · cases hr
      · rw [hr] at hu; exact hu
    · cases hr; rfl
    · split at hr
      · cases hr; rfl
      · rw [hr] at hu; exact hu
  | migrateVer n d =>
    obtain ⟨b, v, h1, h2⟩ := h
    have hu : (update (addVerWithSequence n d) s).2 = s := by
      refine update_error fun a s' hu => ?_
      obtain ⟨b', hi, ui, g1, _, g3, _⟩ := addVerWithSequence_ok hu
      rw [h1] at g1; cases g1
      rw [h2] at g3; cases g3
    simp only [step, repoMigrateVersion]
    split
    · rfl
    · split
      · rfl
      · exact hu
  | updateVer n d =>
    obtain ⟨b, o, h1, h2, h3⟩ := h
    refine update_error (fn := updateVer n d) fun a s' hu => ?_
    obtain ⟨b', o', g1, g2, g3, _⟩ := updateVer_ok hu
    rw [h1] at g1; cases g1
    rw [h2] at g2; cases g2
    omega
  | bucketCreate d =>
    obtain ⟨o, ho⟩ := h
    refine update_error (fn := bucketCreate d) fun a s' hu => ?_
    unfold bucketCreate at hu; grind
  | bucketUpdate d =>
    obtain ⟨o, ho, hle⟩ := h
    refine update_error (fn := bucketUpdate d) fun a s' hu => ?_
    unfold bucketUpdate at hu; grind
  | _ => exact absurd h (by simp [Done])

/-- Operations that remove nothing do not undo each other. -/
theorem done_eff {t t' : Store} {op op' : Op} (he : Eff t op' t') (hk : op'.keeps = true)
    (h : Done t op) : Done t' op := by
  have uid : ∀ {idx idx' : KMap (KMap Unit)} {k key u : Str}, addIndex idx k key = .ok idx' →
      (∃ x, InIdx idx u x) → ∃ x, InIdx idx' u x := by
    intro idx idx' k key u ha ⟨x, hx⟩
    exact ⟨x, (addIndex_ok ha u x).2 (Or.inr hx)⟩
  cases op with
  | addMeta id d =>
    obtain ⟨o, ho⟩ := h
    cases he with
    | addMeta id' d' => simp only [Done, KMap.get_put]; split <;> simp [ho]
    | updateMeta id' d' => simp only [Done, KMap.get_put]; split <;> simp [ho]
    | _ => first | exact ⟨o, ho⟩ | cases hk
  | updateMeta id d =>
    obtain ⟨o, ho, hle⟩ := h
    cases he with
    | addMeta id' d' h1 h2 =>
      simp only [Done, KMap.get_put]
      by_cases hid : id = id'
      · subst hid; rw [ho] at h2; cases h2
      · rw [if_neg hid]; exact ⟨o, ho, hle⟩
    | updateMeta id' d' o' h1 h2 =>
      simp only [Done, KMap.get_put]
      by_cases hid : id = id'
      · subst hid
        rw [ho] at h1; cases h1
        rw [if_pos rfl]
        exact ⟨_, rfl, by show d.updateTime ≤ d'.updateTime; omega⟩
      · rw [if_neg hid]; exact ⟨o, ho, hle⟩
    | _ => first | exact ⟨o, ho, hle⟩ | cases hk
  | addVer n d =>
    have h' := (existsByUniqueId_iff t d.uniqueId).1 h
    refine (existsByUniqueId_iff _ _).2 ?_
    cases he with
    | addVer n' d' q b hi ui g1 g2 h1 h2 h3 h4 h5 h6 => exact uid h6 h'
    | migrateVer n' d' b hi ui g1 g2 h1 h3 h4 h5 h6 => exact uid h6 h'
    | _ => first | exact h' | cases hk
  | migrateVer n d =>
    obtain ⟨b, v, h1, h2⟩ := h
    have put : ∀ {n' : Str} {b0 : VBucket} {q : Nat} {k : Str} {x : Version},
        t.vers.get n' = some b0 → ∃ b' v', (t.vers.put n' ⟨q, b0.items.put k x⟩).get n = some b' ∧
          b'.items.get (verKey n d.sequence) = some v' := by
      intro n' b0 q k x hb0
      rw [KMap.get_put]
      by_cases hn : n = n'
      · subst hn
        rw [h1] at hb0; cases hb0
        rw [if_pos rfl]
        refine ⟨_, ?_, rfl, ?_⟩
        · exact if verKey n d.sequence = k then x else v
        · show (b.items.put k x).get _ = _
          rw [KMap.get_put]; split
          · rfl
          · exact h2
      · rw [if_neg hn]; exact ⟨b, v, h1, h2⟩
    cases he with
    | addMeta id' d' g1 g2 g3 =>
      simp only [Done, KMap.get_put]
      by_cases hn : n = id'
      · subst hn; rw [h1] at g3; cases g3
      · rw [if_neg hn]; exact ⟨b, v, h1, h2⟩
    | addVer n' d' q b' hi ui g1 g2 h1' => exact put h1'
    | migrateVer n' d' b' hi ui g1 g2 h1' => exact put h1'
    | updateVer n' d' b' o' h1' => exact put h1'
    | _ => first | exact ⟨b, v, h1, h2⟩ | cases hk
  | updateVer n d =>
    obtain ⟨b, v, h1, h2, hle⟩ := h
    have put : ∀ {n' : Str} {b0 : VBucket} {q : Nat} {k : Str} {x : Version},
        t.vers.get n' = some b0 → (∀ y, b0.items.get k = some y → y.ts ≤ x.ts) →
        ∃ b' v', (t.vers.put n' ⟨q, b0.items.put k x⟩).get n = some b' ∧
          b'.items.get (verKey n d.sequence) = some v' ∧ d.ts ≤ v'.ts := by
      intro n' b0 q k x hb0 hx
      rw [KMap.get_put]
      by_cases hn : n = n'
      · subst hn
        rw [h1] at hb0; cases hb0
        rw [if_pos rfl]
        by_cases hk' : verKey n d.sequence = k
        · refine ⟨_, x, rfl, ?_, ?_⟩
          · show (b.items.put k x).get _ = _
            rw [KMap.get_put, if_pos hk']
          · have := hx v (hk' ▸ h2); omega
        · refine ⟨_, v, rfl, ?_, hle⟩
          show (b.items.put k x).get _ = _
          rw [KMap.get_put, if_neg hk']; exact h2
      · rw [if_neg hn]; exact ⟨b, v, h1, h2, hle⟩
    cases he with
    | addMeta id' d' g1 g2 g3 =>
      simp only [Done, KMap.get_put]
      by_cases hn : n = id'
      · subst hn; rw [h1] at g3; cases g3
      · rw [if_neg hn]; exact ⟨b, v, h1, h2, hle⟩
    | addVer n' d' q b' hi ui g1 g2 h1' _ _ h4 => exact put h1' fun y hy => by rw [h4] at hy; cases hy
    | migrateVer n' d' b' hi ui g1 g2 h1' _ h4 =>
      exact put h1' fun y hy => by rw [h4] at hy; cases hy
    | updateVer n' d' b' o' h1' h2' h3' =>
      refine put h1' fun y hy => ?_
      rw [h2'] at hy; cases hy
      show o'.ts ≤ d'.ts
      omega
    | _ => first | exact ⟨b, v, h1, h2, hle⟩ | cases hk
  | bucketCreate d =>
    obtain ⟨o, ho⟩ := h
    cases he with
    | bucketCreate d' => simp only [Done, KMap.get_put]; split <;> simp [ho]
    | bucketUpdate d' => simp only [Done, KMap.get_put]; split <;> simp [ho]
    | _ => first | exact ⟨o, ho⟩ | cases hk
  | bucketUpdate d =>
    obtain ⟨o, ho, hle⟩ := h
    cases he with
    | bucketCreate d' h1 h2 =>
      simp only [Done, KMap.get_put]
      by_cases hid : d.name = d'.name
      · rw [hid] at ho; rw [ho] at h2; cases h2
      · rw [if_neg hid]; exact ⟨o, ho, hle⟩
    | bucketUpdate d' o' h1 h2 =>
      simp only [Done, KMap.get_put]
      by_cases hid : d.name = d'.name
      · rw [hid] at ho
        rw [ho] at h1; cases h1
        rw [if_pos hid]
        exact ⟨_, rfl, by show d.updateTime ≤ d'.updateTime; omega⟩
      · rw [if_neg hid]; exact ⟨o, ho, hle⟩
    | _ => first | exact ⟨o, ho, hle⟩ | cases hk
  | _ => exact absurd h (by simp [Done])

theorem done_keeps_step {s : Store} {op op' : Op} (hk : op'.keeps = true) (h : Done s op) :
    Done (step s op').2 op := by
  refine step_induct (fun t => Done t op) s op' h fun op'' t t' hop he ht => ?_
  rcases hop with rfl | ⟨hl, _⟩
  · exact done_eff he hk ht
  · cases op' <;> first | exact hl.elim | exact absurd hk (by simp [Op.keeps])

/-- A successful operation that removes nothing is done. -/
theorem success_done {s : Store} {op : Op} (hk : op.keeps = true)
    (h : (step s op).1.success = true) : Done (step s op).2 op := by
  cases op with
  | addMeta id d =>
    simp only [step] at h ⊢
    rcases update_cases (addMeta id d) s with ⟨e, h1, _⟩ | ⟨a, s', h1, h2⟩
    · rw [h1] at h; cases h
    · rw [h2]
      obtain ⟨_, _, _, rfl⟩ := addMeta_ok h1
      simp [Done]
  | updateMeta id d =>
    simp only [step] at h ⊢
    rcases update_cases (updateMeta id d) s with ⟨e, h1, _⟩ | ⟨a, s', h1, h2⟩
    · rw [h1] at h; cases h
    · rw [h2]
      obtain ⟨o, _, _, rfl⟩ := updateMeta_ok h1
      simp [Done]
  | addVer n d =>
    simp only [step] at h ⊢
    split at h
    · rename_i q s' hr
      simp only [repoAddVersion] at hr
      split at hr
      · cases hr
      · split at hr
        · cases hr
        · obtain ⟨b, hi, ui, _, _, _, _, _, _, h6, rfl⟩ := addVer_ok (update_ok hr)
          exact (existsByUniqueId_iff _ _).2 ⟨_, (addIndex_ok h6 _ _).2 (Or.inl ⟨rfl, rfl⟩)⟩
    · cases h
  | migrateVer n d =>
    simp only [step, repoMigrateVersion] at h ⊢
    split at h
    · cases h
    · rename_i g1
      rw [if_neg g1]
      split at h
      · cases h
      · rename_i g2
        rw [if_neg g2]
        rcases update_cases (addVerWithSequence n d) s with ⟨e, h1, _⟩ | ⟨a, s', h1, h2⟩
        · rw [h1] at h; cases h
        · rw [h2]
          obtain ⟨b, hi, ui, _, _, _, _, _, _, rfl⟩ := addVerWithSequence_ok h1
          exact ⟨_, d, by rw [KMap.get_put, if_pos rfl], by
            show (b.items.put _ d).get _ = _
            rw [KMap.get_put, if_pos rfl]⟩
  | updateVer n d =>
    simp only [step] at h ⊢
    rcases update_cases (updateVer n d) s with ⟨e, h1, _⟩ | ⟨a, s', h1, h2⟩
    · rw [h1] at h; cases h
    · rw [h2]
      obtain ⟨b, o, _, _, _, rfl⟩ := updateVer_ok h1
      refine ⟨_, { d with uniqueId := o.uniqueId, sequence := o.sequence, hash := o.hash },
        by rw [KMap.get_put, if_pos rfl], ?_, Int.le_refl _⟩
      show (b.items.put _ _).get _ = _
      rw [KMap.get_put, if_pos rfl]
  | bucketCreate d =>
    simp only [step] at h ⊢
    rcases update_cases (bucketCreate d) s with ⟨e, h1, _⟩ | ⟨a, s', h1, h2⟩
    · rw [h1] at h; cases h
    · rw [h2]
      have : s' = { s with buckets := s.buckets.put d.name d } := by unfold bucketCreate at h1; grind
      subst this
      simp [Done]
  | bucketUpdate d =>
    simp only [step] at h ⊢
    rcases update_cases (bucketUpdate d) s with ⟨e, h1, _⟩ | ⟨a, s', h1, h2⟩
    · rw [h1] at h; cases h
    · rw [h2]
      have : ∃ o, s' = { s with buckets := s.buckets.put d.name { d with createTime := o } } := by
        unfold bucketUpdate at h1; grind
      obtain ⟨o, rfl⟩ := this
      simp [Done]
  | _ => cases hk

theorem run_done {s : Store} {ops : List Op} (hk : ∀ op ∈ ops, op.keeps = true) {op : Op}
    (h : Done s op) : Done (run s ops).2 op := by
  induction ops generalizing s with
  | nil => exact h
  | cons o ops ih =>
    exact ih (fun p hp => hk p (List.mem_cons_of_mem _ hp))
      (done_keeps_step (hk o (List.mem_cons_self ..)) h)

theorem run_success_done {s : Store} {ops : List Op} (hk : ∀ op ∈ ops, op.keeps = true)
    (hs : ∀ r ∈ (run s ops).1, r.success = true) : ∀ op ∈ ops, Done (run s ops).2 op := by
  induction ops generalizing s with
  | nil => simp
  | cons o ops ih =>
    intro op hop
    have hk' : ∀ p ∈ ops, p.keeps = true := fun p hp => hk p (List.mem_cons_of_mem _ hp)
    rcases List.mem_cons.1 hop with rfl | hop
    · exact run_done hk' (success_done (hk _ (List.mem_cons_self ..)) (hs _ (List.mem_cons_self ..)))
    · exact ih hk' (fun r hr => hs r (List.mem_cons_of_mem _ hr)) op hop

theorem run_all_done {s : Store} {ops : List Op} (h : ∀ op ∈ ops, Done s op) : (run s ops).2 = s := by
  induction ops with
  | nil => rfl
  | cons o ops ih =>
    show (run (step s o).2 ops).2 = s
    rw [done_step (h o (List.mem_cons_self ..))]
    exact ih fun p hp => h p (List.mem_cons_of_mem _ hp)

/-- **C62, partial**: what is missing are logs with removals and logs with commands that failed.  For
every starting store and every log of additions and updates that all succeeded, applying the log again
changes nothing. -/
theorem C62_replay_idempotent_partial (s : Store) (ops : List Op) (hk : ∀ op ∈ ops, op.keeps = true)
    (hs : ∀ r ∈ (run s ops).1, r.success = true) : (run (run s ops).2 ops).2 = (run s ops).2 :=
  run_all_done (run_success_done hk hs)

/-- **C62, partial** In particular a restart is harmless for such logs. -/
theorem C62_restart_partial (ops : List Op) (hk : ∀ op ∈ ops, op.keeps = true)
    (hs : ∀ r ∈ (run .empty ops).1, r.success = true) : afterRestart ops = (run .empty ops).2 :=
  C62_replay_idempotent_partial .empty ops hk hs

/-- **C62** A command delivered twice in a row is applied once: for every store, every addition or
update that succeeded changes nothing when it is applied again. -/
theorem C62_redelivery (s : Store) (op : Op) (hk : op.keeps = true)
    (hs : (step s op).1.success = true) : (step (step s op).2 op).2 = (step s op).2 :=
  done_step (success_done hk hs)

/-- **C62 fails** as stated, and loses data: the versions of an object were all removed, then one was
uploaded and acknowledged.  After the restart the object has no version. -/
theorem C62_statement_fails : ¬ RestartHarmless := by
  intro h
  have := h [.addMeta "b/a".toList (sampleMeta 1), .removeAllVersion "b/a".toList,
    .addVer "b/a".toList (sampleVer "h".toList "u".toList 1)] (by decide)
  revert this
  decide

theorem C62_acknowledged_version_lost :
    let ops : List Op := [.addMeta "b/a".toList (sampleMeta 1), .removeAllVersion "b/a".toList,
      .addVer "b/a".toList (sampleVer "h".toList "u".toList 1)]
    (run .empty ops).1 = [.ok, .ok, .seq 1] ∧
    (getVer (run .empty ops).2 "b/a".toList 1).toOption.isSome = true ∧
    (getVer (afterRestart ops) "b/a".toList 1).toOption.isSome = false := by decide

/-- A command that was answered with an error takes effect after a restart. -/
theorem C62_failed_command_applied :
    let ops : List Op := [.addVer "b/a".toList (sampleVer "h".toList "u".toList 1),
      .addMeta "b/a".toList (sampleMeta 1)]
    (run .empty ops).1 = [.err .notFound, .ok] ∧
    (getVer (run .empty ops).2 "b/a".toList 1).toOption.isSome = false ∧
    (getVer (afterRestart ops) "b/a".toList 1).toOption.isSome = true := by decide

/-- A log as in the partial theorem. -/
example :
    let ops : List Op := [.addMeta "b/a".toList (sampleMeta 1),
      .addVer "b/a".toList (sampleVer "h".toList "u".toList 1),
      .addVer "b/a".toList (sampleVer "g".toList "w".toList 2),
      .updateMeta "b/a".toList (sampleMeta 5), .bucketCreate (sampleBucket "k".toList 3)]
    (∀ op ∈ ops, op.keeps = true) ∧ (∀ r ∈ (run .empty ops).1, r.success = true) := by decide

end Verif.Meta
