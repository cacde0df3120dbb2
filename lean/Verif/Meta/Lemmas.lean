import Verif.Meta.Model

/-!
# Effects of the metadata transactions

Helper lemmas: what a successful operation did, and the invariant of all reachable stores.
-/

namespace Verif.Meta

open Verif

/-! ## Keys -/

theorem cutLast_verKey (n : Str) (q : Nat) : cutLast '.' (verKey n q) = some (n, fmtNat q) :=
  cutLast_append (fmtNat_not_mem (by decide))

@[simp] theorem toUint64_fmtNat (q : Nat) : toUint64 (fmtNat q) = q := by simp [toUint64]

theorem verKey_inj {n n' : Str} {q q' : Nat} (h : verKey n q = verKey n' q') : n = n' ∧ q = q' := by
  have h1 := cutLast_verKey n q
  rw [h, cutLast_verKey] at h1
  simp only [Option.some.injEq, Prod.mk.injEq] at h1
  exact ⟨h1.1.symm, (fmtNat_inj h1.2).symm⟩

@[simp] theorem verKey_eq_iff {n n' : Str} {q q' : Nat} :
    verKey n q = verKey n' q' ↔ n = n' ∧ q = q' :=
  ⟨verKey_inj, fun ⟨a, b⟩ => by rw [a, b]⟩

@[simp] theorem keySeq_verKey (n : Str) (q : Nat) : keySeq (verKey n q) = some q := by
  simp [keySeq, cutLast_verKey]

theorem verKey_ne_nil (n : Str) (q : Nat) : verKey n q ≠ [] := by simp [verKey]

/-! ## Index -/

/-- `key` is listed under `k`. -/
def InIdx (idx : KMap (KMap Unit)) (k key : Str) : Prop := key ∈ getIndex idx k

theorem inIdx_iff (idx : KMap (KMap Unit)) (k key : Str) :
    InIdx idx k key ↔ ∃ b, idx.get k = some b ∧ (b.get key).isSome := by
  unfold InIdx getIndex
  split
  · rename_i b hb
    rw [KMap.mem_keys_iff]
    exact ⟨fun h => ⟨b, hb, h⟩, fun ⟨b', h1, h2⟩ => by rw [hb] at h1; cases h1; exact h2⟩
  · rename_i hb; simp [hb]

theorem addIndex_ok {idx idx' : KMap (KMap Unit)} {k key : Str} (h : addIndex idx k key = .ok idx')
    (k' key' : Str) : InIdx idx' k' key' ↔ (k' = k ∧ key' = key) ∨ InIdx idx k' key' := by
  unfold addIndex at h
  split at h
  · cases h
  · split at h
    · cases h
    · cases h
      rw [inIdx_iff, inIdx_iff, KMap.get_put]
      by_cases hk : k' = k
      · subst hk
        simp only [↓reduceIte, Option.some.injEq, exists_eq_left', KMap.get_put, true_and]
        by_cases hkey : key' = key
        · simp [hkey]
        · cases hg : idx.get k' <;> simp [hkey, KMap.get_empty]
      · simp [hk]

theorem addIndex_total {idx : KMap (KMap Unit)} {k key : Str} (hk : k ≠ []) (he : keyErr key = none) :
    ∃ idx', addIndex idx k key = .ok idx' := by
  simp [addIndex, hk, he]

theorem removeIndex_iff (idx : KMap (KMap Unit)) (k key k' key' : Str) :
    InIdx (removeIndex idx k key) k' key' ↔ InIdx idx k' key' ∧ ¬ (k' = k ∧ key' = key) := by
  unfold removeIndex
  split
  · rename_i b hb
    rw [inIdx_iff, inIdx_iff, KMap.get_put]
    by_cases hk : k' = k
    · subst hk
      simp only [↓reduceIte, Option.some.injEq, exists_eq_left', KMap.get_del, true_and, hb]
      by_cases hkey : key' = key
      · simp [hkey]
      · simp [hkey]
    · simp [hk]
  · rename_i hb
    constructor
    · intro h
      refine ⟨h, ?_⟩
      rintro ⟨rfl, rfl⟩
      rw [inIdx_iff] at h
      simp [hb] at h
    · exact fun h => h.1

theorem removeAll_iff (dead : List Str) (idx : KMap (KMap Unit)) (k k' key' : Str) :
    InIdx (dead.foldl (fun idx key => removeIndex idx k key) idx) k' key' ↔
      InIdx idx k' key' ∧ ¬ (k' = k ∧ key' ∈ dead) := by
  induction dead generalizing idx with
  | nil => simp
  | cons d ds ih =>
    rw [List.foldl_cons, ih, removeIndex_iff, List.mem_cons]
    grind

theorem existsByUniqueId_iff (s : Store) (u : Str) :
    existsByUniqueId s u = true ↔ ∃ key, InIdx s.uidIdx u key := by
  unfold existsByUniqueId InIdx
  cases getIndex s.uidIdx u with
  | nil => simp
  | cons a l => simp

/-! ## What a successful transaction did -/

theorem createVersionBucket_ok {n : Str} {s s' : Store} (h : createVersionBucket n s = (.ok (), s')) :
    n ≠ [] ∧ s.vers.get n = none ∧ s' = { s with vers := s.vers.put n ⟨0, .empty⟩ } := by
  unfold createVersionBucket at h
  grind

theorem addMeta_ok {id : Str} {d : Metadata} {s s' : Store} (h : addMeta id d s = (.ok (), s')) :
    keyErr id = none ∧ s.metas.get id = none ∧ s.vers.get id = none ∧
    s' = { s with vers := s.vers.put id ⟨0, .empty⟩, metas := s.metas.put id d } := by
  unfold addMeta createVersionBucket at h
  grind

theorem removeMeta_ok {n : Str} {s s' : Store} (h : removeMeta n s = (.ok (), s')) :
    (s.metas.get n = none ∧ s' = s) ∨
    (s.metas.get n ≠ none ∧ s' = { s with metas := s.metas.del n, vers := s.vers.del n }) := by
  unfold removeMeta removeVersionBucket at h
  have := @KMap.del_of_get_none VBucket s.vers n
  grind

theorem removeMeta_never_fails (n : Str) (s : Store) : ∃ s', removeMeta n s = (.ok (), s') := by
  unfold removeMeta removeVersionBucket
  cases s.metas.get n with
  | none => exact ⟨_, rfl⟩
  | some m => cases h : s.vers.get n <;> (simp only [h]; exact ⟨_, rfl⟩)

theorem updateMeta_ok {id : Str} {d : Metadata} {s s' : Store} (h : updateMeta id d s = (.ok (), s')) :
    ∃ o, s.metas.get id = some o ∧ o.updateTime < d.updateTime ∧
    s' = { s with metas := s.metas.put id { d with bucket := o.bucket, createTime := o.createTime } } := by
  unfold updateMeta at h
  grind

theorem addBoth_ok {h u key : Str} {s s' : Store} (hh : addBoth h u key s = (.ok (), s')) :
    ∃ hi ui, addIndex s.hashIdx h key = .ok hi ∧ addIndex s.uidIdx u key = .ok ui ∧
    s' = { s with hashIdx := hi, uidIdx := ui } := by
  unfold addBoth at hh
  grind

theorem addBothMigrated_ok {h key : Str} {s s' : Store} (hh : addBothMigrated h key s = (.ok (), s')) :
    ∃ hi ui, addIndex s.hashIdx h key = .ok hi ∧ addIndex s.uidIdx h key = .ok ui ∧
    s' = { s with hashIdx := hi, uidIdx := ui } := by
  unfold addBothMigrated at hh
  grind

theorem put_put {α : Type} (m : KMap α) (k : Str) (a b : α) : (m.put k a).put k b = m.put k b := by
  apply KMap.ext_get
  intro k'
  simp only [KMap.get_put]
  split <;> rfl

theorem addVer_ok {n : Str} {d : Version} {s s' : Store} {q : Nat} (h : addVer n d s = (.ok q, s')) :
    ∃ b hi ui, s.vers.get n = some b ∧ q = b.seq + 1 ∧ existsByUniqueId s d.uniqueId = false ∧
      b.items.get (verKey n q) = none ∧ keyErr (verKey n q) = none ∧
      addIndex s.hashIdx d.hash (verKey n q) = .ok hi ∧
      addIndex s.uidIdx d.uniqueId (verKey n q) = .ok ui ∧
      s' = { s with
        vers := s.vers.put n ⟨q, b.items.put (verKey n q) { d with sequence := q }⟩
        hashIdx := hi, uidIdx := ui } := by
  unfold addVer at h
  split at h
  · cases h
  · rename_i b hb
    split at h
    · cases h
    · rename_i he
      simp only at h
      split at h
      · cases h
      · rename_i hg
        split at h
        · cases h
        · rename_i hk
          split at h
          · cases h
          · rename_i s3 hab
            cases h
            obtain ⟨hi, ui, h1, h2, h3⟩ := addBoth_ok hab
            simp only [put_put] at h3
            exact ⟨b, hi, ui, hb, rfl, by simpa using he, hg, hk, h1, h2, h3⟩

theorem addVerWithSequence_ok {n : Str} {d : Version} {s s' : Store}
    (h : addVerWithSequence n d s = (.ok (), s')) :
    ∃ b hi ui, s.vers.get n = some b ∧ existsByUniqueId s d.uniqueId = false ∧
      b.items.get (verKey n d.sequence) = none ∧ keyErr (verKey n d.sequence) = none ∧
      addIndex s.hashIdx d.hash (verKey n d.sequence) = .ok hi ∧
      addIndex s.uidIdx d.hash (verKey n d.sequence) = .ok ui ∧
      s' = { s with
        vers := s.vers.put n ⟨max b.seq d.sequence, b.items.put (verKey n d.sequence) d⟩
        hashIdx := hi, uidIdx := ui } := by
  unfold addVerWithSequence at h
  split at h
  · cases h
  · rename_i b hb
    split at h
    · cases h
    · rename_i he
      simp only at h
      split at h
      · cases h
      · rename_i hg
        split at h
        · cases h
        · rename_i hk
          obtain ⟨hi, ui, h1, h2, h3⟩ := addBothMigrated_ok h
          have e1 : (if d.sequence > b.seq then { b with seq := d.sequence } else b : VBucket).items
              = b.items := by split <;> rfl
          have e2 : (if d.sequence > b.seq then { b with seq := d.sequence } else b : VBucket).seq
              = max b.seq d.sequence := by split <;> (first | omega | (simp only []; omega))
          simp only [put_put, e1, e2] at h3
          rw [e1] at hg
          exact ⟨b, hi, ui, hb, by simpa using he, hg, hk, h1, h2, h3⟩

theorem removeVer_ok {n : Str} {q : Nat} {s s' : Store} (h : removeVer n q s = (.ok (), s')) :
    (s.vers.get n = none ∧ s' = s) ∨
    ∃ b v, s.vers.get n = some b ∧ b.items.get (verKey n q) = some v ∧
      s' = { s with
        hashIdx := removeIndex s.hashIdx v.hash (verKey n q)
        uidIdx := removeIndex s.uidIdx v.hash (verKey n q)
        vers := s.vers.put n { b with items := b.items.del (verKey n q) } } := by
  unfold removeVer at h
  grind

theorem removeAllVersion_ok {n : Str} {s s' : Store} (h : removeAllVersion n s = (.ok (), s')) :
    n ≠ [] ∧ (∃ b, s.vers.get n = some b) ∧ s' = { s with vers := s.vers.put n ⟨0, .empty⟩ } := by
  unfold removeAllVersion removeVersionBucket createVersionBucket at h
  have : (s.vers.del n).put n ⟨0, .empty⟩ = s.vers.put n ⟨0, .empty⟩ := by
    apply KMap.ext_get
    intro k'
    simp only [KMap.get_put, KMap.get_del]
    split <;> rfl
  grind

theorem updateVer_ok {n : Str} {d : Version} {s s' : Store} (h : updateVer n d s = (.ok (), s')) :
    ∃ b o, s.vers.get n = some b ∧ b.items.get (verKey n d.sequence) = some o ∧ o.ts < d.ts ∧
      s' = { s with
        vers := s.vers.put n ⟨b.seq, b.items.put (verKey n d.sequence)
                  { d with uniqueId := o.uniqueId, sequence := o.sequence, hash := o.hash }⟩ } := by
  unfold updateVer at h
  grind

theorem update_cases {α : Type} (fn : Tx α) (s : Store) :
    (∃ e, (update fn s) = (.error e, s) ∧ (fn s).1 = .error e) ∨
    ∃ a s', fn s = (.ok a, s') ∧ update fn s = (.ok a, s') := by
  unfold update
  rcases h : fn s with ⟨r, s'⟩
  cases r with
  | error e => left; exact ⟨e, rfl, rfl⟩
  | ok a => right; exact ⟨a, s', rfl, rfl⟩

/-! ## Effects of operations -/

/-- The elementary change a successful operation makes. -/
inductive Eff (s : Store) : Op → Store → Prop
  | addMeta (id d) (h1 : keyErr id = none) (h2 : s.metas.get id = none) (h3 : s.vers.get id = none) :
      Eff s (.addMeta id d)
        { s with vers := s.vers.put id ⟨0, .empty⟩, metas := s.metas.put id d }
  | removeMeta (n) (h : s.metas.get n ≠ none) :
      Eff s (.removeMeta n) { s with metas := s.metas.del n, vers := s.vers.del n }
  | updateMeta (id d o) (h1 : s.metas.get id = some o) (h2 : o.updateTime < d.updateTime) :
      Eff s (.updateMeta id d)
        { s with metas := s.metas.put id { d with bucket := o.bucket, createTime := o.createTime } }
  | addVer (n d q b hi ui) (g1 : d.hash ≠ []) (g2 : d.uniqueId ≠ [])
      (h1 : s.vers.get n = some b) (h2 : q = b.seq + 1)
      (h3 : existsByUniqueId s d.uniqueId = false) (h4 : b.items.get (verKey n q) = none)
      (h5 : addIndex s.hashIdx d.hash (verKey n q) = .ok hi)
      (h6 : addIndex s.uidIdx d.uniqueId (verKey n q) = .ok ui) :
      Eff s (.addVer n d) { s with
        vers := s.vers.put n ⟨q, b.items.put (verKey n q) { d with sequence := q }⟩
        hashIdx := hi, uidIdx := ui }
  | migrateVer (n d b hi ui) (g1 : d.hash ≠ []) (g2 : d.uniqueId ≠ [])
      (h1 : s.vers.get n = some b)
      (h3 : existsByUniqueId s d.uniqueId = false) (h4 : b.items.get (verKey n d.sequence) = none)
      (h5 : addIndex s.hashIdx d.hash (verKey n d.sequence) = .ok hi)
      (h6 : addIndex s.uidIdx d.hash (verKey n d.sequence) = .ok ui) :
      Eff s (.migrateVer n d) { s with
        vers := s.vers.put n ⟨max b.seq d.sequence, b.items.put (verKey n d.sequence) d⟩
        hashIdx := hi, uidIdx := ui }
  | updateVer (n d b o) (h1 : s.vers.get n = some b)
      (h2 : b.items.get (verKey n d.sequence) = some o) (h3 : o.ts < d.ts) :
      Eff s (.updateVer n d) { s with
        vers := s.vers.put n ⟨b.seq, b.items.put (verKey n d.sequence)
                  { d with uniqueId := o.uniqueId, sequence := o.sequence, hash := o.hash }⟩ }
  | removeVer (n q b v) (h1 : s.vers.get n = some b) (h2 : b.items.get (verKey n q) = some v) :
      Eff s (.removeVer n q) { s with
        hashIdx := removeIndex s.hashIdx v.hash (verKey n q)
        uidIdx := removeIndex s.uidIdx v.hash (verKey n q)
        vers := s.vers.put n { b with items := b.items.del (verKey n q) } }
  | removeAllVersion (n b) (h1 : n ≠ []) (h2 : s.vers.get n = some b) :
      Eff s (.removeAllVersion n) { s with vers := s.vers.put n ⟨0, .empty⟩ }
  | findByHash (h) : Eff s (.findByHash h) (findByHash s h).2
  | bucketCreate (d) (h1 : keyErr d.name = none) (h2 : s.buckets.get d.name = none) :
      Eff s (.bucketCreate d) { s with buckets := s.buckets.put d.name d }
  | bucketUpdate (d o) (h1 : s.buckets.get d.name = some o) (h2 : o.updateTime < d.updateTime) :
      Eff s (.bucketUpdate d)
        { s with buckets := s.buckets.put d.name { d with createTime := o.createTime } }
  | bucketDelete (n) : Eff s (.bucketDelete n) { s with buckets := s.buckets.del n }
  | applyIndex (i) (h : s.applied < i) : Eff s (.applyIndex i) { s with applied := i }

/-- The operation is a relocation. -/
def Op.isLocate : Op → Prop
  | .updateLocate .. => True
  | _ => False

theorem keyErr_nil : keyErr [] ≠ none := by simp [keyErr]

theorem locate_induct (P : Store → Prop) (now : Int) (i : Nat) (val : Str) (keys : List Str)
    (s : Store) (r : Except Err Unit) (s' : Store)
    (h : updateLocateLoop now i val keys s = some (r, s')) (hP : P s)
    (hEff : ∀ n d t t', Eff t (.updateVer n d) t' → P t → P t') : P s' := by
  induction keys generalizing s with
  | nil => simp only [updateLocateLoop] at h; cases h; exact hP
  | cons k ks ih =>
    simp only [updateLocateLoop] at h
    split at h
    · cases h
    · split at h
      · cases h; exact hP
      · split at h
        · cases h
        · split at h
          · rename_i e s1 hu
            cases h
            unfold updateVer at hu
            have : s' = s := by grind
            rw [this]; exact hP
          · rename_i s1 hu
            refine ih s1 h ?_
            obtain ⟨b, o, h1, h2, h3, rfl⟩ := updateVer_ok hu
            exact hEff _ _ _ _ (.updateVer _ _ b o h1 h2 h3) hP

theorem step_induct (P : Store → Prop) (s : Store) (op : Op) (hP : P s)
    (hEff : ∀ op' t t', (op' = op ∨ op.isLocate ∧ ∃ n d, op' = .updateVer n d) →
      Eff t op' t' → P t → P t') : P (step s op).2 := by
  cases op with
  | addMeta id d =>
    rcases update_cases (addMeta id d) s with ⟨e, h, _⟩ | ⟨a, s', h, hu⟩
    · simp only [step, h]; exact hP
    · simp only [step, hu]
      obtain ⟨h1, h2, h3, rfl⟩ := addMeta_ok h
      exact hEff _ _ _ (Or.inl rfl) (.addMeta id d h1 h2 h3) hP
  | updateMeta id d =>
    rcases update_cases (updateMeta id d) s with ⟨e, h, _⟩ | ⟨a, s', h, hu⟩
    · simp only [step, h]; exact hP
    · simp only [step, hu]
      obtain ⟨o, h1, h2, rfl⟩ := updateMeta_ok h
      exact hEff _ _ _ (Or.inl rfl) (.updateMeta id d o h1 h2) hP
  | removeMeta n =>
    rcases update_cases (removeMeta n) s with ⟨e, h, _⟩ | ⟨a, s', h, hu⟩
    · simp only [step, h]; exact hP
    · simp only [step, hu]
      rcases removeMeta_ok h with ⟨_, rfl⟩ | ⟨h1, rfl⟩
      · exact hP
      · exact hEff _ _ _ (Or.inl rfl) (.removeMeta n h1) hP
  | addVer n d =>
    simp only [step, repoAddVersion]
    split
    · rename_i q s' hr
      split at hr
      · cases hr
      · split at hr
        · cases hr
        · rename_i g1 g2
          rcases update_cases (addVer n d) s with ⟨e, h, _⟩ | ⟨a, s'', h, hu⟩
          · rw [h] at hr; cases hr
          · rw [hu] at hr; cases hr
            obtain ⟨b, hi, ui, h1, h2, h3, h4, _, h5, h6, rfl⟩ := addVer_ok h
            exact hEff _ _ _ (Or.inl rfl) (.addVer n d q b hi ui g1 g2 h1 h2 h3 h4 h5 h6) hP
    · rename_i e s' hr
      have : s' = s := by
        split at hr
        · cases hr; rfl
        · split at hr
          · cases hr; rfl
          · rcases update_cases (addVer n d) s with ⟨e, h, _⟩ | ⟨a, s'', h, hu⟩
            · rw [h] at hr; cases hr; rfl
            · rw [hu] at hr; cases hr
      rw [this]; exact hP
  | migrateVer n d =>
    simp only [step, repoMigrateVersion]
    split
    · exact hP
    · split
      · exact hP
      · rename_i g1 g2
        rcases update_cases (addVerWithSequence n d) s with ⟨e, h, _⟩ | ⟨a, s', h, hu⟩
        · simp only [h]; exact hP
        · simp only [hu]
          obtain ⟨b, hi, ui, h1, h3, h4, _, h5, h6, rfl⟩ := addVerWithSequence_ok h
          exact hEff _ _ _ (Or.inl rfl) (.migrateVer n d b hi ui g1 g2 h1 h3 h4 h5 h6) hP
  | updateVer n d =>
    rcases update_cases (updateVer n d) s with ⟨e, h, _⟩ | ⟨a, s', h, hu⟩
    · simp only [step, h]; exact hP
    · simp only [step, hu]
      obtain ⟨b, o, h1, h2, h3, rfl⟩ := updateVer_ok h
      exact hEff _ _ _ (Or.inl rfl) (.updateVer n d b o h1 h2 h3) hP
  | removeVer n q =>
    rcases update_cases (removeVer n q) s with ⟨e, h, _⟩ | ⟨a, s', h, hu⟩
    · simp only [step, h]; exact hP
    · simp only [step, hu]
      rcases removeVer_ok h with ⟨_, rfl⟩ | ⟨b, v, h1, h2, rfl⟩
      · exact hP
      · exact hEff _ _ _ (Or.inl rfl) (.removeVer n q b v h1 h2) hP
  | removeAllVersion n =>
    rcases update_cases (removeAllVersion n) s with ⟨e, h, _⟩ | ⟨a, s', h, hu⟩
    · simp only [step, h]; exact hP
    · simp only [step, hu]
      obtain ⟨h1, ⟨b, h2⟩, rfl⟩ := removeAllVersion_ok h
      exact hEff _ _ _ (Or.inl rfl) (.removeAllVersion n b h1 h2) hP
  | updateLocate now h i v =>
    simp only [step]
    split
    · exact hP
    · rename_i s' hu
      exact locate_induct P now i v _ s _ s' hu hP
        (fun n d t t' he hp => hEff _ _ _ (Or.inr ⟨trivial, n, d, rfl⟩) he hp)
    · exact hP
  | findByHash h =>
    simp only [step]
    exact hEff _ _ _ (Or.inl rfl) (.findByHash h) hP
  | bucketCreate d =>
    rcases update_cases (bucketCreate d) s with ⟨e, h, _⟩ | ⟨a, s', h, hu⟩
    · simp only [step, h]; exact hP
    · simp only [step, hu]
      have : keyErr d.name = none ∧ s.buckets.get d.name = none ∧
          s' = { s with buckets := s.buckets.put d.name d } := by
        unfold bucketCreate at h; grind
      obtain ⟨h1, h2, rfl⟩ := this
      exact hEff _ _ _ (Or.inl rfl) (.bucketCreate d h1 h2) hP
  | bucketUpdate d =>
    rcases update_cases (bucketUpdate d) s with ⟨e, h, _⟩ | ⟨a, s', h, hu⟩
    · simp only [step, h]; exact hP
    · simp only [step, hu]
      have : ∃ o, s.buckets.get d.name = some o ∧ o.updateTime < d.updateTime ∧
          s' = { s with buckets := s.buckets.put d.name { d with createTime := o.createTime } } := by
        unfold bucketUpdate at h; grind
      obtain ⟨o, h1, h2, rfl⟩ := this
      exact hEff _ _ _ (Or.inl rfl) (.bucketUpdate d o h1 h2) hP
  | bucketDelete n =>
    simp only [step, update, bucketDelete]
    exact hEff _ _ _ (Or.inl rfl) (.bucketDelete n) hP
  | applyIndex i =>
    simp only [step, update, applyIndex]
    by_cases h : i > s.applied
    · simp only [h, ↓reduceIte]
      exact hEff _ _ _ (Or.inl rfl) (.applyIndex i h) hP
    · simp only [h, ↓reduceIte]; exact hP

/-! ## The invariant of reachable stores -/

/-- Version `q` of object `n` is stored with content `v`. -/
def Stored (s : Store) (n : Str) (q : Nat) (v : Version) : Prop :=
  ∃ b, s.vers.get n = some b ∧ b.items.get (verKey n q) = some v

theorem getVer_ok_iff (s : Store) (n : Str) (q : Nat) (v : Version) :
    getVer s n q = .ok v ↔ Stored s n q v := by
  unfold getVer Stored
  grind

theorem getVer_error_iff (s : Store) (n : Str) (q : Nat) (e : Err) :
    getVer s n q = .error e ↔ e = .notFound ∧ ∀ v, ¬ Stored s n q v := by
  unfold getVer Stored
  grind

structure Inv (s : Store) : Prop where
  dom : ∀ n, (s.metas.get n).isSome = (s.vers.get n).isSome
  name : ∀ n b, s.vers.get n = some b → n ≠ []
  key : ∀ n b k v, s.vers.get n = some b → b.items.get k = some v →
    ∃ q, k = verKey n q ∧ q ≤ b.seq ∧ v.sequence = q
  hashIn : ∀ n q v, Stored s n q v → InIdx s.hashIdx v.hash (verKey n q)
  shape : ∀ h k, InIdx s.hashIdx h k → ∃ n q, k = verKey n q

theorem inIdx_empty (k key : Str) : ¬ InIdx (.empty : KMap (KMap Unit)) k key := by
  rw [inIdx_iff]; simp [KMap.get_empty]

theorem inv_empty : Inv .empty := by
  refine ⟨?_, ?_, ?_, ?_, ?_⟩
  · intro n; simp [Store.empty, KMap.get_empty]
  · intro n b; simp [Store.empty, KMap.get_empty]
  · intro n b; simp [Store.empty, KMap.get_empty]
  · intro n q v; simp [Stored, Store.empty, KMap.get_empty]
  · intro h k hk; exact absurd hk (inIdx_empty h k)

/-- The number of the last key of an object with a stored version names a stored version. -/
theorem last_stored {s : Store} (hi : Inv s) {n : Str} {q : Nat} {v : Version} (h : Stored s n q v) :
    ∃ w, getVer s n (lastVersionNumber s n) = .ok w := by
  obtain ⟨b, hb, hg⟩ := h
  unfold lastVersionNumber
  simp only [hb]
  have hne : b.items.keys ≠ [] := by
    intro he
    have : verKey n q ∈ b.items.keys := by rw [KMap.mem_keys_iff, hg]; rfl
    rw [he] at this; simp at this
  rw [List.getLast?_eq_some_getLast hne]
  have hm := List.getLast_mem hne
  rw [KMap.mem_keys_iff, Option.isSome_iff_exists] at hm
  obtain ⟨w, hw⟩ := hm
  obtain ⟨q', hk, _, _⟩ := hi.key n b _ w hb hw
  rw [hk] at hw ⊢
  refine ⟨w, ?_⟩
  simp only [keySeq_verKey, Option.getD_some]
  rw [getVer_ok_iff]
  exact ⟨b, hb, hw⟩

/-- Looking up one index entry. -/
def lookKey (s : Store) (k : Str) : Except Err Version :=
  match cutLast '.' k with
  | none => .error .notFound
  | some (name, seq) => getVersion s name (toUint64 seq)

theorem lookKey_verKey (s : Store) (n : Str) (q : Nat) :
    lookKey s (verKey n q) = getVersion s n q := by
  simp [lookKey, cutLast_verKey]

theorem findByHash_eq (s : Store) (h : Str) : findByHash s h =
    ((getIndex s.hashIdx h).filterMap fun k => (lookKey s k).toOption,
     { s with hashIdx := List.foldl (fun idx k => removeIndex idx h k) s.hashIdx
                ((getIndex s.hashIdx h).filter fun k => (lookKey s k).toOption.isNone) }) := rfl

theorem getVersion_of_stored {s : Store} (hi : Inv s) {n : Str} {q : Nat} {v : Version}
    (h : Stored s n q v) : ∃ w, getVersion s n q = .ok w ∧ (1 ≤ q → w = v) := by
  unfold getVersion
  by_cases hq : (q : Int) ≤ 0
  · obtain ⟨w, hw⟩ := last_stored hi h
    exact ⟨w, by simp only [hq, ↓reduceIte]; exact hw, by omega⟩
  · refine ⟨v, ?_, fun _ => rfl⟩
    simp only [hq, ↓reduceIte, Int.toNat_natCast]
    rwa [getVer_ok_iff]

theorem stored_findByHash (s : Store) (h n : Str) (q : Nat) (v : Version) :
    Stored (findByHash s h).2 n q v ↔ Stored s n q v := Iff.rfl

theorem inIdx_findByHash (s : Store) (h h' k : Str) :
    InIdx (findByHash s h).2.hashIdx h' k ↔
      InIdx s.hashIdx h' k ∧ ¬ (h' = h ∧ (lookKey s k).toOption = none) := by
  rw [findByHash_eq]
  simp only [removeAll_iff, List.mem_filter]
  constructor
  · rintro ⟨h1, h2⟩
    refine ⟨h1, ?_⟩
    rintro ⟨rfl, h3⟩
    exact h2 ⟨rfl, h1, by simp [h3]⟩
  · rintro ⟨h1, h2⟩
    refine ⟨h1, ?_⟩
    rintro ⟨rfl, _, h3⟩
    exact h2 ⟨rfl, by simpa using h3⟩

/-- Presence of versions after an object's bucket is replaced. -/
theorem stored_put {s s' : Store} {n : Str} {b : VBucket} (h : s'.vers = s.vers.put n b)
    (n' : Str) (q : Nat) (v : Version) :
    Stored s' n' q v ↔ if n' = n then b.items.get (verKey n q) = some v else Stored s n' q v := by
  unfold Stored
  rw [h, KMap.get_put]
  by_cases hn : n' = n
  · subst hn; simp
  · simp [hn]

theorem stored_del {s s' : Store} {n : Str} (h : s'.vers = s.vers.del n)
    (n' : Str) (q : Nat) (v : Version) :
    Stored s' n' q v ↔ n' ≠ n ∧ Stored s n' q v := by
  unfold Stored
  rw [h, KMap.get_del]
  by_cases hn : n' = n
  · subst hn; simp
  · simp [hn]

theorem inv_eff {s s' : Store} {op : Op} (he : Eff s op s') (hi : Inv s) : Inv s' := by
  cases he with
  | addMeta id d h1 h2 h3 =>
    have hid : id ≠ [] := by rintro rfl; exact keyErr_nil h1
    refine ⟨?_, ?_, ?_, ?_, hi.shape⟩
    · intro n; simp only [KMap.get_put]
      have := hi.dom n
      split <;> simp_all
    · intro n b; simp only [KMap.get_put]
      have := hi.name n b
      split <;> simp_all
    · intro n b k v; simp only [KMap.get_put]
      split
      · rintro hb; cases hb; simp [KMap.get_empty]
      · exact hi.key n b k v
    · intro n q v hs
      rw [stored_put (s := s) (n := id) rfl] at hs
      split at hs
      · simp [KMap.get_empty] at hs
      · exact hi.hashIn n q v hs
  | removeMeta n h =>
    refine ⟨?_, ?_, ?_, ?_, hi.shape⟩
    · intro n'; simp only [KMap.get_del]
      have := hi.dom n'
      split <;> simp_all
    · intro n' b; simp only [KMap.get_del]
      have := hi.name n' b
      split <;> simp_all
    · intro n' b k v; simp only [KMap.get_del]
      split
      · simp
      · exact hi.key n' b k v
    · intro n' q v hs
      rw [stored_del (s := s) (n := n) rfl] at hs
      exact hi.hashIn n' q v hs.2
  | updateMeta id d o h1 h2 =>
    refine ⟨?_, hi.name, hi.key, hi.hashIn, hi.shape⟩
    intro n; simp only [KMap.get_put]
    have := hi.dom n
    split <;> simp_all
  | addVer n d q b hi' ui g1 g2 h1 h2 h3 h4 h5 h6 =>
    refine ⟨?_, ?_, ?_, ?_, ?_⟩
    · intro n'; simp only [KMap.get_put]
      have := hi.dom n'
      split <;> simp_all
    · intro n' b'; simp only [KMap.get_put]
      have := hi.name n' b'
      have := hi.name n b h1
      split <;> simp_all
    · intro n' b' k v; simp only [KMap.get_put]
      split
      · rintro hb; cases hb
        simp only [KMap.get_put]
        split
        · rintro hv; cases hv
          exact ⟨q, by simp_all, Nat.le_refl _, rfl⟩
        · intro hv
          obtain ⟨q', e1, e2, e3⟩ := hi.key n b k v h1 hv
          exact ⟨q', by simp_all, by first | omega | (simp only []; omega), e3⟩
      · exact hi.key n' b' k v
    · intro n' q' v hs
      rw [stored_put (s := s) (n := n) rfl] at hs
      rw [addIndex_ok h5]
      split at hs
      · rename_i hn; subst hn
        simp only [KMap.get_put, verKey_eq_iff, true_and] at hs
        split at hs
        · cases hs; left; simp_all
        · right; exact hi.hashIn n' q' v ⟨b, h1, hs⟩
      · right; exact hi.hashIn n' q' v hs
    · intro h k hk
      rw [addIndex_ok h5] at hk
      rcases hk with ⟨_, rfl⟩ | hk
      · exact ⟨n, q, rfl⟩
      · exact hi.shape h k hk
  | migrateVer n d b hi' ui g1 g2 h1 h3 h4 h5 h6 =>
    refine ⟨?_, ?_, ?_, ?_, ?_⟩
    · intro n'; simp only [KMap.get_put]
      have := hi.dom n'
      split <;> simp_all
    · intro n' b'; simp only [KMap.get_put]
      have := hi.name n' b'
      have := hi.name n b h1
      split <;> simp_all
    · intro n' b' k v; simp only [KMap.get_put]
      split
      · rintro hb; cases hb
        simp only [KMap.get_put]
        split
        · rintro hv; cases hv
          exact ⟨d.sequence, by simp_all, by first | omega | (simp only []; omega), rfl⟩
        · intro hv
          obtain ⟨q', e1, e2, e3⟩ := hi.key n b k v h1 hv
          exact ⟨q', by simp_all, by first | omega | (simp only []; omega), e3⟩
      · exact hi.key n' b' k v
    · intro n' q' v hs
      rw [stored_put (s := s) (n := n) rfl] at hs
      rw [addIndex_ok h5]
      split at hs
      · rename_i hn; subst hn
        simp only [KMap.get_put, verKey_eq_iff, true_and] at hs
        split at hs
        · cases hs; left; simp_all
        · right; exact hi.hashIn n' q' v ⟨b, h1, hs⟩
      · right; exact hi.hashIn n' q' v hs
    · intro h k hk
      rw [addIndex_ok h5] at hk
      rcases hk with ⟨_, rfl⟩ | hk
      · exact ⟨n, d.sequence, rfl⟩
      · exact hi.shape h k hk
  | updateVer n d b o h1 h2 h3 =>
    refine ⟨?_, ?_, ?_, ?_, hi.shape⟩
    · intro n'; simp only [KMap.get_put]
      have := hi.dom n'
      split <;> simp_all
    · intro n' b'; simp only [KMap.get_put]
      have := hi.name n' b'
      have := hi.name n b h1
      split <;> simp_all
    · intro n' b' k v; simp only [KMap.get_put]
      split
      · rintro hb; cases hb
        simp only [KMap.get_put]
        split
        · rintro hv; cases hv
          obtain ⟨q', e1, e2, e3⟩ := hi.key n b _ o h1 h2
          exact ⟨q', by simp_all, e2, e3⟩
        · intro hv
          obtain ⟨q', e1, e2, e3⟩ := hi.key n b k v h1 hv
          exact ⟨q', by simp_all, e2, e3⟩
      · exact hi.key n' b' k v
    · intro n' q' v hs
      rw [stored_put (s := s) (n := n) rfl] at hs
      split at hs
      · rename_i hn; subst hn
        simp only [KMap.get_put, verKey_eq_iff, true_and] at hs
        split at hs
        · rename_i hq; subst hq; cases hs
          exact hi.hashIn n' d.sequence o ⟨b, h1, h2⟩
        · exact hi.hashIn n' q' v ⟨b, h1, hs⟩
      · exact hi.hashIn n' q' v hs
  | removeVer n q b v h1 h2 =>
    refine ⟨?_, ?_, ?_, ?_, ?_⟩
    · intro n'; simp only [KMap.get_put]
      have := hi.dom n'
      split <;> simp_all
    · intro n' b'; simp only [KMap.get_put]
      have := hi.name n' b'
      have := hi.name n b h1
      split <;> simp_all
    · intro n' b' k v; simp only [KMap.get_put]
      split
      · rintro hb; cases hb
        simp only [KMap.get_del]
        split
        · simp
        · intro hv
          obtain ⟨q', e1, e2, e3⟩ := hi.key n b k v h1 hv
          exact ⟨q', by simp_all, e2, e3⟩
      · exact hi.key n' b' k v
    · intro n' q' v' hs
      rw [stored_put (s := s) (n := n) rfl] at hs
      rw [removeIndex_iff]
      split at hs
      · rename_i hn; subst hn
        simp only [KMap.get_del, verKey_eq_iff, true_and] at hs
        split at hs
        · simp at hs
        · rename_i hq
          exact ⟨hi.hashIn n' q' v' ⟨b, h1, hs⟩, by simp [hq]⟩
      · rename_i hn
        exact ⟨hi.hashIn n' q' v' hs, by simp [hn]⟩
    · intro h k hk
      rw [removeIndex_iff] at hk
      exact hi.shape h k hk.1
  | removeAllVersion n b h1 h2 =>
    refine ⟨?_, ?_, ?_, ?_, hi.shape⟩
    · intro n'; simp only [KMap.get_put]
      have := hi.dom n'
      split <;> simp_all
    · intro n' b'; simp only [KMap.get_put]
      have := hi.name n' b'
      split <;> simp_all
    · intro n' b' k v; simp only [KMap.get_put]
      split
      · rintro hb; cases hb; simp [KMap.get_empty]
      · exact hi.key n' b' k v
    · intro n' q v hs
      rw [stored_put (s := s) (n := n) rfl] at hs
      split at hs
      · simp [KMap.get_empty] at hs
      · exact hi.hashIn n' q v hs
  | findByHash h =>
    refine ⟨hi.dom, hi.name, hi.key, ?_, ?_⟩
    · intro n q v hs
      rw [inIdx_findByHash]
      refine ⟨hi.hashIn n q v hs, ?_⟩
      rintro ⟨_, h2⟩
      rw [lookKey_verKey] at h2
      obtain ⟨w, hw, _⟩ := getVersion_of_stored hi (q := q) (v := v) hs
      rw [hw] at h2
      cases h2
    · intro h' k hk
      rw [inIdx_findByHash] at hk
      exact hi.shape h' k hk.1
  | bucketCreate d h1 h2 => exact ⟨hi.dom, hi.name, hi.key, hi.hashIn, hi.shape⟩
  | bucketUpdate d o h1 h2 => exact ⟨hi.dom, hi.name, hi.key, hi.hashIn, hi.shape⟩
  | bucketDelete n => exact ⟨hi.dom, hi.name, hi.key, hi.hashIn, hi.shape⟩
  | applyIndex i h => exact ⟨hi.dom, hi.name, hi.key, hi.hashIn, hi.shape⟩

theorem inv_step {s : Store} (hi : Inv s) (op : Op) : Inv (step s op).2 :=
  step_induct Inv s op hi fun _ _ _ _ he h => inv_eff he h

theorem inv_run {s : Store} (hi : Inv s) (ops : List Op) : Inv (run s ops).2 := by
  induction ops generalizing s with
  | nil => exact hi
  | cons op ops ih => exact ih (inv_step hi op)

theorem inv_reachable {s : Store} (h : Reachable s) : Inv s := by
  obtain ⟨ops, rfl⟩ := h
  exact inv_run inv_empty ops

end Verif.Meta
