import Verif.Meta.Props

/-!
# Secondary indexes: C21, C22
-/

namespace Verif.Meta

open Verif

/-! ## C21 -/

/-- What the search by hash should return: the versions are those stored with this hash, each
once.  `ks` enumerates them. -/
def SearchExact (s : Store) (hash : Str) (res : List Version) : Prop :=
  ∃ ks : List (Str × Nat), ks.Nodup ∧
    (∀ n q, (n, q) ∈ ks ↔ ∃ v, getVer s n q = .ok v ∧ v.hash = hash) ∧
    res.map Except.ok = ks.map fun (k : Str × Nat) => getVer s k.1 k.2

/-- Nothing stored has number 0 (numbers are handed out from 1; only a migrated record could carry
0). -/
def PosNumbers (s : Store) : Prop := ∀ n q v, getVer s n q = .ok v → 1 ≤ q

/-- **C21** (nothing is missed) In every reachable store every stored version is found under its
content hash. -/
theorem C21_complete {s : Store} (hr : Reachable s) {n : Str} {q : Nat} {v : Version} (hq : 1 ≤ q)
    (h : getVer s n q = .ok v) : v ∈ (findByHash s v.hash).1 := by
  have hi := inv_reachable hr
  rw [getVer_ok_iff] at h
  rw [findByHash_eq]
  refine List.mem_filterMap.2 ⟨verKey n q, hi.hashIn n q v h, ?_⟩
  obtain ⟨w, hw, he⟩ := getVersion_of_stored hi h
  rw [lookKey_verKey, hw, he hq]; rfl

/-- **C21** Everything the search returns is a stored version. -/
theorem C21_returns_stored {s : Store} (hr : Reachable s) {hash : Str} {v : Version}
    (h : v ∈ (findByHash s hash).1) : ∃ n q, getVer s n q = .ok v := by
  rw [findByHash_eq] at h
  obtain ⟨k, hk, hkv⟩ := List.mem_filterMap.1 h
  obtain ⟨n, q, rfl⟩ := (inv_reachable hr).shape hash k hk
  rw [lookKey_verKey] at hkv
  unfold getVersion at hkv
  split at hkv
  · exact ⟨n, lastVersionNumber s n, by
      cases hg : getVer s n (lastVersionNumber s n) <;> rw [hg] at hkv <;> cases hkv; rfl⟩
  · exact ⟨n, (q : Int).toNat, by
      cases hg : getVer s n (q : Int).toNat <;> rw [hg] at hkv <;> cases hkv; rfl⟩

/-- An object is deleted and created again with other content. -/
def recreated : Store := (run .empty
  [.addMeta "b/a".toList (sampleMeta 1), .addVer "b/a".toList (sampleVer "h1".toList "u1".toList 1),
   .removeMeta "b/a".toList, .addMeta "b/a".toList (sampleMeta 2),
   .addVer "b/a".toList (sampleVer "h2".toList "u2".toList 1)]).2

/-- **C21** as stated *fails*: deleting an object leaves its index entries, and when the name is used
again they point to the new versions, so searching for the old hash returns a version with another
hash. -/
theorem C21_statement_fails :
    ¬ ∀ s, Reachable s → ∀ hash v, v ∈ (findByHash s hash).1 → v.hash = hash := by
  intro h
  have := h recreated ⟨_, rfl⟩ "h1".toList { sampleVer "h2".toList "u2".toList 1 with sequence := 1 }
    (by decide)
  revert this
  decide

/-- The same entries make `UpdateLocates` of the old hash change the location of the new content. -/
theorem C21_relocate_wrong_version :
    getVer (step recreated (.updateLocate 5 "h1".toList 0 "X".toList)).2 "b/a".toList 1 =
      .ok { sampleVer "h2".toList "u2".toList 5 with sequence := 1, locate := ["X".toList, "s2".toList] } :=
  rfl

/-- The index points only to versions with the right hash. -/
def HashSound (s : Store) : Prop :=
  ∀ h n q, InIdx s.hashIdx h (verKey n q) → ∃ v, Stored s n q v ∧ v.hash = h

/-- The request deletes some object, or all versions of some object. -/
def DestroysAny (op : Op) : Prop := ∃ n, Destroys n op

theorem hashSound_eff {s s' : Store} {op : Op} (he : Eff s op s') (hi : Inv s) (hd : ¬ DestroysAny op)
    (hs : HashSound s) : HashSound s' := by
  have mono : ∀ {t : Store} {n0 : Str} {b0 b1 : VBucket}, s.vers.get n0 = some b0 →
      t.vers = s.vers.put n0 b1 → (∀ q v, b0.items.get (verKey n0 q) = some v →
        ∃ v', b1.items.get (verKey n0 q) = some v' ∧ v'.hash = v.hash) →
      ∀ h n q, (∃ v, Stored s n q v ∧ v.hash = h) → ∃ v, Stored t n q v ∧ v.hash = h := by
    intro t n0 b0 b1 hb ht hstep h n q ⟨v, hv, hh⟩
    by_cases hn : n = n0
    · subst hn
      obtain ⟨b, hb', hg⟩ := hv
      rw [hb] at hb'; cases hb'
      obtain ⟨v', hv', hh'⟩ := hstep q v hg
      exact ⟨v', by rw [stored_put ht, if_pos rfl]; exact hv', by rw [hh', hh]⟩
    · exact ⟨v, by rw [stored_put ht, if_neg hn]; exact hv, hh⟩
  cases he with
  | addMeta id d h1 h2 h3 =>
    intro h n q hx
    obtain ⟨v, hv, hh⟩ := hs h n q hx
    refine ⟨v, ?_, hh⟩
    rw [stored_put (s := s) (n := id) rfl]
    split
    · rename_i hn; subst hn
      obtain ⟨b, hb, _⟩ := hv
      rw [h3] at hb; cases hb
    · exact hv
  | removeMeta n h => exact absurd ⟨n, Or.inl rfl⟩ hd
  | updateMeta id d o h1 h2 => exact hs
  | addVer n d q b hi' ui g1 g2 h1 h2 h3 h4 h5 h6 =>
    intro h n' q' hx
    rw [addIndex_ok h5] at hx
    rcases hx with ⟨rfl, he⟩ | hx
    · obtain ⟨rfl, rfl⟩ := verKey_inj he
      refine ⟨{ d with sequence := q' }, ?_, rfl⟩
      rw [stored_put (s := s) (n := n') rfl, if_pos rfl]
      exact KMap.get_put_self ..
    · refine mono (b1 := ⟨q, b.items.put (verKey n q) { d with sequence := q }⟩) h1 rfl ?_ h n' q'
        (hs h n' q' hx)
      intro q0 v hg
      refine ⟨v, ?_, rfl⟩
      rw [KMap.get_put_ne]
      · exact hg
      · intro e; rw [(verKey_inj e).2, h4] at hg; cases hg
  | migrateVer n d b hi' ui g1 g2 h1 h3 h4 h5 h6 =>
    intro h n' q' hx
    rw [addIndex_ok h5] at hx
    rcases hx with ⟨rfl, he⟩ | hx
    · obtain ⟨rfl, rfl⟩ := verKey_inj he
      refine ⟨d, ?_, rfl⟩
      rw [stored_put (s := s) (n := n') rfl, if_pos rfl]
      exact KMap.get_put_self ..
    · refine mono (b1 := ⟨max b.seq d.sequence, b.items.put (verKey n d.sequence) d⟩) h1 rfl ?_ h n' q'
        (hs h n' q' hx)
      intro q0 v hg
      refine ⟨v, ?_, rfl⟩
      rw [KMap.get_put_ne]
      · exact hg
      · intro e; rw [(verKey_inj e).2, h4] at hg; cases hg
  | updateVer n d b o h1 h2 h3 =>
    intro h n' q' hx
    refine mono (b1 := ⟨b.seq, b.items.put (verKey n d.sequence)
        { d with uniqueId := o.uniqueId, sequence := o.sequence, hash := o.hash }⟩) h1 rfl ?_ h n' q'
        (hs h n' q' hx)
    intro q0 v hg
    by_cases hq : q0 = d.sequence
    · subst hq
      rw [h2] at hg; cases hg
      exact ⟨_, KMap.get_put_self .., rfl⟩
    · refine ⟨v, ?_, rfl⟩
      rw [KMap.get_put_ne]
      · exact hg
      · intro e; exact hq (verKey_inj e).2
  | removeVer n q b v h1 h2 =>
    intro h n' q' hx
    rw [removeIndex_iff] at hx
    obtain ⟨hx, hne⟩ := hx
    obtain ⟨w, hw, hh⟩ := hs h n' q' hx
    refine ⟨w, ?_, hh⟩
    rw [stored_put (s := s) (n := n) rfl]
    split
    · rename_i hn; subst hn
      obtain ⟨b', hb', hg⟩ := hw
      rw [h1] at hb'; cases hb'
      rw [KMap.get_del_ne]
      · exact hg
      · intro e
        obtain ⟨_, rfl⟩ := verKey_inj e
        rw [h2] at hg; cases hg
        exact hne ⟨hh.symm, rfl⟩
    · exact hw
  | removeAllVersion n b h1 h2 => exact absurd ⟨n, Or.inr rfl⟩ hd
  | findByHash h =>
    intro h' n q hx
    rw [inIdx_findByHash] at hx
    exact hs h' n q hx.1
  | bucketCreate d h1 h2 => exact hs
  | bucketUpdate d o h1 h2 => exact hs
  | bucketDelete n => exact hs
  | applyIndex i h => exact hs

theorem hashSound_run {s : Store} (hi : Inv s) (hs : HashSound s) (ops : List Op)
    (hd : ∀ op ∈ ops, ¬ DestroysAny op) : HashSound (run s ops).2 := by
  induction ops generalizing s with
  | nil => exact hs
  | cons op ops ih =>
    refine ih (inv_step hi op) ?_ (fun o ho => hd o (List.mem_cons_of_mem _ ho))
    refine (step_induct (fun t => Inv t ∧ HashSound t) s op ⟨hi, hs⟩ ?_).2
    intro op' t t' ho he hp
    refine ⟨inv_eff he hp.1, hashSound_eff he hp.1 ?_ hp.2⟩
    rcases ho with rfl | ⟨_, m, d, rfl⟩
    · exact hd op' (List.mem_cons_self ..)
    · rintro ⟨n, h | h⟩ <;> cases h

theorem hashSound_empty : HashSound .empty := fun h n q hx => absurd hx (inIdx_empty h _)

theorem map_filterMap_some {α β γ : Type} (f : α → Option β) (g : β → γ) (k : α → γ) (l : List α)
    (h : ∀ a ∈ l, ∃ b, f a = some b ∧ g b = k a) : (l.filterMap f).map g = l.map k := by
  induction l with
  | nil => rfl
  | cons a as ih =>
    obtain ⟨b, hb, hg⟩ := h a (List.mem_cons_self ..)
    rw [List.filterMap_cons, hb, List.map_cons, List.map_cons, hg,
      ih fun x hx => h x (List.mem_cons_of_mem _ hx)]

/-- **C21** (partial) As long as no object and no complete version set was deleted since the store was
created, searching by hash returns exactly the stored versions with that hash, each once.  Missing:
histories with deletions of whole objects (see the counterexample); for those only completeness and
that stored versions are returned is proved. -/
theorem C21_exact_partial (ops : List Op) (hd : ∀ op ∈ ops, ¬ DestroysAny op) (hash : Str)
    (hp : PosNumbers (run .empty ops).2) :
    SearchExact (run .empty ops).2 hash (findByHash (run .empty ops).2 hash).1 := by
  have hi := inv_run inv_empty ops
  have hs := hashSound_run inv_empty hashSound_empty ops hd
  generalize (run .empty ops).2 = s at hi hs hp
  let dec : Str → Str × Nat := fun k => ((cutLast '.' k).map fun p => (p.1, toUint64 p.2)).getD ([], 0)
  have hdec : ∀ n q, dec (verKey n q) = (n, q) := by intro n q; simp [dec, cutLast_verKey]
  have hmem : ∀ k ∈ getIndex s.hashIdx hash, ∃ n q v, k = verKey n q ∧ getVer s n q = .ok v ∧
      v.hash = hash := by
    intro k hk
    obtain ⟨n, q, rfl⟩ := hi.shape hash k hk
    obtain ⟨v, hv, hh⟩ := hs hash n q hk
    exact ⟨n, q, v, rfl, (getVer_ok_iff s n q v).2 hv, hh⟩
  refine ⟨(getIndex s.hashIdx hash).map dec, ?_, ?_, ?_⟩
  · have hnd : (getIndex s.hashIdx hash).Nodup := by
      unfold getIndex
      split
      · exact KMap.keys_nodup _
      · exact List.nodup_nil
    rw [List.Nodup, List.pairwise_map]
    refine List.Pairwise.imp_of_mem ?_ hnd
    intro a b ha hb hne heq
    obtain ⟨n, q, _, rfl, _⟩ := hmem a ha
    obtain ⟨n', q', _, rfl, _⟩ := hmem b hb
    rw [hdec, hdec] at heq
    cases heq
    exact hne rfl
  · intro n q
    rw [List.mem_map]
    constructor
    · rintro ⟨k, hk, he⟩
      obtain ⟨n', q', v, rfl, hv, hh⟩ := hmem k hk
      rw [hdec] at he; cases he
      exact ⟨v, hv, hh⟩
    · rintro ⟨v, hv, rfl⟩
      exact ⟨verKey n q, hi.hashIn n q v ((getVer_ok_iff s n q v).1 hv), hdec n q⟩
  · rw [findByHash_eq, List.map_map]
    apply map_filterMap_some
    intro k hk
    obtain ⟨n, q, v, rfl, hv, hh⟩ := hmem k hk
    have hq := hp n q v hv
    refine ⟨v, ?_, ?_⟩
    · rw [lookKey_verKey]
      obtain ⟨w, hw, he⟩ := getVersion_of_stored hi ((getVer_ok_iff s n q v).1 hv)
      rw [hw, he hq]; rfl
    · simp [hdec, hv]

/-- The hypotheses hold for a history with two objects sharing a hash and a removed version. -/
example :
    let s := (run .empty (sampleOps ++ [.removeVer "b/a".toList 2,
      .addMeta "b/z".toList (sampleMeta 1),
      .addVer "b/z".toList (sampleVer "h1".toList "u5".toList 1)])).2
    (findByHash s "h1".toList).1 = [{ sampleVer "h1".toList "u1".toList 1 with sequence := 1 },
      { sampleVer "h1".toList "u5".toList 1 with sequence := 1 }] ∧
    (findByHash s "h2".toList).1 = [] := by decide

/-! ## C22 -/

/-- Submitting a unique id that is stored creates no second version: no two stored versions share a
unique id. -/
def UidUnique (s : Store) : Prop :=
  ∀ n q v n' q' v', getVer s n q = .ok v → getVer s n' q' = .ok v' → v.uniqueId = v'.uniqueId →
    (n, q) = (n', q')

/-- **C22** as stated *fails* (a): a version that was removed blocks its unique id for ever, because
the removal deletes the wrong index entry (the one under the content hash). -/
theorem C22_reuse_statement_fails :
    (run sampleStore [.removeVer "b/a".toList 2,
      .addVer "b/a".toList (sampleVer "h2".toList "u2".toList 2)]).1 = [.ok, .err .exists] := rfl

/-- A version received by migration, and the same unique id submitted again. -/
def migrated : Store := (run .empty
  [.addMeta "b/a".toList (sampleMeta 1),
   .migrateVer "b/a".toList { sampleVer "h1".toList "u1".toList 1 with sequence := 3 },
   .addVer "b/a".toList (sampleVer "h1".toList "u1".toList 2)]).2

/-- **C22** as stated *fails* (b): a migrated version is indexed under its hash instead of its unique
id, so submitting its unique id again stores a second version. -/
theorem C22_retry_statement_fails : ¬ ∀ s, Reachable s → UidUnique s := by
  intro h
  have := h migrated ⟨_, rfl⟩ "b/a".toList 3 { sampleVer "h1".toList "u1".toList 1 with sequence := 3 }
    "b/a".toList 4 { sampleVer "h1".toList "u1".toList 2 with sequence := 4 } rfl rfl rfl
  revert this
  decide

/-- Every stored version is registered under its unique id. -/
def UidIn (s : Store) : Prop := ∀ n q v, Stored s n q v → InIdx s.uidIdx v.uniqueId (verKey n q)

def StoredUnique (s : Store) : Prop :=
  ∀ n q v n' q' v', Stored s n q v → Stored s n' q' v' → v.uniqueId = v'.uniqueId → n = n' ∧ q = q'

def IsMigrate : Op → Prop
  | .migrateVer .. => True
  | _ => False

theorem uid_eff {s s' : Store} {op : Op} (he : Eff s op s') (hd : ¬ IsMigrate op)
    (hs : UidIn s ∧ StoredUnique s) : UidIn s' ∧ StoredUnique s' := by
  -- it is enough that every version stored afterwards was stored before with the same id and is
  -- still registered
  have shrink : (∀ n q v, Stored s' n q v → (∃ v0, Stored s n q v0 ∧ v0.uniqueId = v.uniqueId) ∧
      InIdx s'.uidIdx v.uniqueId (verKey n q)) → UidIn s' ∧ StoredUnique s' := by
    intro h
    refine ⟨fun n q v hv => (h n q v hv).2, ?_⟩
    intro n q v n' q' v' hv hv' heq
    obtain ⟨⟨v0, h0, e0⟩, _⟩ := h n q v hv
    obtain ⟨⟨v1, h1, e1⟩, _⟩ := h n' q' v' hv'
    exact hs.2 n q v0 n' q' v1 h0 h1 (by rw [e0, e1, heq])
  cases he with
  | addMeta id d h1 h2 h3 =>
    apply shrink
    intro n q v hv
    rw [stored_put (s := s) (n := id) rfl] at hv
    split at hv
    · simp [KMap.get_empty] at hv
    · exact ⟨⟨v, hv, rfl⟩, hs.1 n q v hv⟩
  | removeMeta n h =>
    apply shrink
    intro n' q v hv
    rw [stored_del (s := s) (n := n) rfl] at hv
    exact ⟨⟨v, hv.2, rfl⟩, hs.1 n' q v hv.2⟩
  | updateMeta id d o h1 h2 => exact hs
  | addVer n d q b hi' ui g1 g2 h1 h2 h3 h4 h5 h6 =>
    have hfree : ∀ n' q' v', Stored s n' q' v' → v'.uniqueId ≠ d.uniqueId := by
      intro n' q' v' hv' heq
      have := hs.1 n' q' v' hv'
      rw [heq] at this
      have := (existsByUniqueId_iff s d.uniqueId).2 ⟨_, this⟩
      rw [h3] at this; cases this
    have hst : ∀ n' q' v', Stored { s with
        vers := s.vers.put n ⟨q, b.items.put (verKey n q) { d with sequence := q }⟩
        hashIdx := hi', uidIdx := ui } n' q' v' →
        (n' = n ∧ q' = q ∧ v'.uniqueId = d.uniqueId) ∨ Stored s n' q' v' := by
      intro n' q' v' hv
      rw [stored_put (s := s) (n := n) rfl] at hv
      split at hv
      · rename_i hn; subst hn
        simp only [KMap.get_put, verKey_eq_iff, true_and] at hv
        split at hv
        · cases hv; left; exact ⟨rfl, by assumption, rfl⟩
        · right; exact ⟨b, h1, hv⟩
      · right; exact hv
    constructor
    · intro n' q' v' hv
      rw [addIndex_ok h6]
      rcases hst n' q' v' hv with ⟨rfl, rfl, e⟩ | hv
      · exact Or.inl ⟨e, rfl⟩
      · exact Or.inr (hs.1 n' q' v' hv)
    · intro n1 q1 v1 n2 q2 v2 hv1 hv2 heq
      rcases hst _ _ _ hv1 with ⟨rfl, rfl, e⟩ | hw1
      · rcases hst _ _ _ hv2 with ⟨rfl, rfl, e'⟩ | hv2
        · exact ⟨rfl, rfl⟩
        · exact absurd (by rw [← heq, e]) (hfree _ _ _ hv2)
      · rcases hst _ _ _ hv2 with ⟨rfl, rfl, e'⟩ | hv2
        · exact absurd (by rw [heq, e']) (hfree _ _ _ hw1)
        · exact hs.2 _ _ _ _ _ _ hw1 hv2 heq
  | migrateVer n d b hi' ui g1 g2 h1 h3 h4 h5 h6 => exact absurd trivial hd
  | updateVer n d b o h1 h2 h3 =>
    apply shrink
    intro n' q' v hv
    rw [stored_put (s := s) (n := n) rfl] at hv
    split at hv
    · rename_i hn; subst hn
      simp only [KMap.get_put, verKey_eq_iff, true_and] at hv
      split at hv
      · rename_i hq; subst hq; cases hv
        exact ⟨⟨o, ⟨b, h1, h2⟩, rfl⟩, hs.1 n' _ o ⟨b, h1, h2⟩⟩
      · exact ⟨⟨v, ⟨b, h1, hv⟩, rfl⟩, hs.1 n' q' v ⟨b, h1, hv⟩⟩
    · exact ⟨⟨v, hv, rfl⟩, hs.1 n' q' v hv⟩
  | removeVer n q b w h1 h2 =>
    apply shrink
    intro n' q' v hv
    have hold : Stored s n' q' v ∧ ¬ (n' = n ∧ q' = q) := by
      rw [stored_put (s := s) (n := n) rfl] at hv
      split at hv
      · rename_i hn; subst hn
        simp only [KMap.get_del, verKey_eq_iff, true_and] at hv
        split at hv
        · cases hv
        · exact ⟨⟨b, h1, hv⟩, by simp_all⟩
      · rename_i hn; exact ⟨hv, fun h => hn h.1⟩
    refine ⟨⟨v, hold.1, rfl⟩, ?_⟩
    rw [removeIndex_iff]
    exact ⟨hs.1 n' q' v hold.1, fun h => hold.2 (verKey_inj h.2)⟩
  | removeAllVersion n b h1 h2 =>
    apply shrink
    intro n' q v hv
    rw [stored_put (s := s) (n := n) rfl] at hv
    split at hv
    · simp [KMap.get_empty] at hv
    · exact ⟨⟨v, hv, rfl⟩, hs.1 n' q v hv⟩
  | findByHash h => exact hs
  | bucketCreate d h1 h2 => exact hs
  | bucketUpdate d o h1 h2 => exact hs
  | bucketDelete n => exact hs
  | applyIndex i h => exact hs

theorem uid_run {s : Store} (hs : UidIn s ∧ StoredUnique s) (ops : List Op)
    (hd : ∀ op ∈ ops, ¬ IsMigrate op) : UidIn (run s ops).2 ∧ StoredUnique (run s ops).2 := by
  induction ops generalizing s with
  | nil => exact hs
  | cons op ops ih =>
    refine ih ?_ (fun o ho => hd o (List.mem_cons_of_mem _ ho))
    refine step_induct (fun t => UidIn t ∧ StoredUnique t) s op hs ?_
    intro op' t t' ho he hp
    refine uid_eff he ?_ hp
    rcases ho with rfl | ⟨_, m, d, rfl⟩
    · exact hd op' (List.mem_cons_self ..)
    · exact fun h => h

theorem uid_empty : UidIn .empty ∧ StoredUnique .empty := by
  constructor
  · intro n q v h; simp [Stored, Store.empty, KMap.get_empty] at h
  · intro n q v n' q' v' h; simp [Stored, Store.empty, KMap.get_empty] at h

/-- **C22** (partial) In every history without received migrations no two stored versions share a
unique id, and submitting a stored unique id again, for any object, is refused without any change.
Missing: migrated versions, and reuse after removal (both counterexamples above). -/
theorem C22_at_most_once_partial (ops : List Op) (hd : ∀ op ∈ ops, ¬ IsMigrate op) :
    UidUnique (run .empty ops).2 ∧
    (∀ n q v, getVer (run .empty ops).2 n q = .ok v → ∀ n' d, d.uniqueId = v.uniqueId →
      ∃ e, step (run .empty ops).2 (.addVer n' d) = (.err e, (run .empty ops).2)) := by
  obtain ⟨h1, h2⟩ := uid_run uid_empty ops hd
  generalize (run .empty ops).2 = s at h1 h2
  constructor
  · intro n q v n' q' v' hv hv' heq
    obtain ⟨rfl, rfl⟩ := h2 n q v n' q' v' ((getVer_ok_iff ..).1 hv) ((getVer_ok_iff ..).1 hv') heq
    rfl
  · intro n q v hv n' d hd
    have hin := h1 n q v ((getVer_ok_iff ..).1 hv)
    rw [← hd] at hin
    have hex := (existsByUniqueId_iff s d.uniqueId).2 ⟨_, hin⟩
    simp only [step, repoAddVersion]
    by_cases e1 : d.hash = []
    · exact ⟨.noHash, by simp only [e1, ↓reduceIte]⟩
    · by_cases e2 : d.uniqueId = []
      · exact ⟨.noUniqueId, by simp only [e1, e2, ↓reduceIte]⟩
      · simp only [e1, e2, ↓reduceIte, update, addVer, hex]
        cases s.vers.get n' with
        | none => exact ⟨.notFound, rfl⟩
        | some b => exact ⟨.exists, rfl⟩

/-- A retry after success is refused; another id is accepted. -/
example : (run sampleStore [.addVer "b/a".toList (sampleVer "h2".toList "u2".toList 2),
    .addVer "b/a".toList (sampleVer "h2".toList "u7".toList 2)]).1 = [.err .exists, .seq 3] := rfl

end Verif.Meta
