import Verif.Meta.Lemmas

/-!
# Properties of the metadata store: C15, C16, C19, C20, C23, C24, C56

The store is observed through its read operations `getMeta`, `getVer` / `getVersion`, `bucketGet`,
`getExtra` and `findByHash`; `step` is one write request with its answer.
-/

namespace Verif.Meta

open Verif

/-! ## Sizes of stored keys -/

/-- Everything stored was stored under a key bbolt accepts. -/
structure KeysOk (s : Store) : Prop where
  meta_ : ∀ n, (s.metas.get n).isSome → keyErr n = none
  ver : ∀ n q v, Stored s n q v → keyErr (verKey n q) = none
  bucket : ∀ n, (s.buckets.get n).isSome → keyErr n = none
  bname : ∀ n b, s.buckets.get n = some b → b.name = n

theorem keysOk_empty : KeysOk .empty := by
  refine ⟨?_, ?_, ?_, ?_⟩
  · intro n; simp [Store.empty, KMap.get_empty]
  · intro n q v; simp [Stored, Store.empty, KMap.get_empty]
  · intro n; simp [Store.empty, KMap.get_empty]
  · intro n; simp [Store.empty, KMap.get_empty]

theorem addIndex_keyErr {idx idx' : KMap (KMap Unit)} {k key : Str}
    (h : addIndex idx k key = .ok idx') : keyErr key = none := by
  unfold addIndex at h
  split at h
  · cases h
  · split at h
    · cases h
    · assumption

theorem keysOk_eff {s s' : Store} {op : Op} (he : Eff s op s') (hi : KeysOk s) : KeysOk s' := by
  cases he with
  | addMeta id d h1 h2 h3 =>
    refine ⟨?_, ?_, hi.bucket, hi.bname⟩
    · intro n; simp only [KMap.get_put]
      have := hi.meta_ n
      split <;> simp_all
    · intro n q v hs
      rw [stored_put (s := s) (n := id) rfl] at hs
      split at hs
      · simp [KMap.get_empty] at hs
      · exact hi.ver n q v hs
  | removeMeta n h =>
    refine ⟨?_, ?_, hi.bucket, hi.bname⟩
    · intro n'; simp only [KMap.get_del]
      have := hi.meta_ n'
      split <;> simp_all
    · intro n' q v hs
      rw [stored_del (s := s) (n := n) rfl] at hs
      exact hi.ver n' q v hs.2
  | updateMeta id d o h1 h2 =>
    refine ⟨?_, hi.ver, hi.bucket, hi.bname⟩
    intro n; simp only [KMap.get_put]
    have := hi.meta_ n
    split <;> simp_all
  | addVer n d q b hi' ui g1 g2 h1 h2 h3 h4 h5 h6 =>
    refine ⟨hi.meta_, ?_, hi.bucket, hi.bname⟩
    intro n' q' v hs
    rw [stored_put (s := s) (n := n) rfl] at hs
    split at hs
    · rename_i hn; subst hn
      simp only [KMap.get_put, verKey_eq_iff, true_and] at hs
      split at hs
      · rename_i hq; subst hq; exact addIndex_keyErr h5
      · exact hi.ver n' q' v ⟨b, h1, hs⟩
    · exact hi.ver n' q' v hs
  | migrateVer n d b hi' ui g1 g2 h1 h3 h4 h5 h6 =>
    refine ⟨hi.meta_, ?_, hi.bucket, hi.bname⟩
    intro n' q' v hs
    rw [stored_put (s := s) (n := n) rfl] at hs
    split at hs
    · rename_i hn; subst hn
      simp only [KMap.get_put, verKey_eq_iff, true_and] at hs
      split at hs
      · rename_i hq; subst hq; exact addIndex_keyErr h5
      · exact hi.ver n' q' v ⟨b, h1, hs⟩
    · exact hi.ver n' q' v hs
  | updateVer n d b o h1 h2 h3 =>
    refine ⟨hi.meta_, ?_, hi.bucket, hi.bname⟩
    intro n' q' v hs
    rw [stored_put (s := s) (n := n) rfl] at hs
    split at hs
    · rename_i hn; subst hn
      simp only [KMap.get_put, verKey_eq_iff, true_and] at hs
      split at hs
      · rename_i hq; subst hq; exact hi.ver n' _ o ⟨b, h1, h2⟩
      · exact hi.ver n' q' v ⟨b, h1, hs⟩
    · exact hi.ver n' q' v hs
  | removeVer n q b v h1 h2 =>
    refine ⟨hi.meta_, ?_, hi.bucket, hi.bname⟩
    intro n' q' v' hs
    rw [stored_put (s := s) (n := n) rfl] at hs
    split at hs
    · rename_i hn; subst hn
      simp only [KMap.get_del, verKey_eq_iff, true_and] at hs
      split at hs
      · simp at hs
      · exact hi.ver n' q' v' ⟨b, h1, hs⟩
    · exact hi.ver n' q' v' hs
  | removeAllVersion n b h1 h2 =>
    refine ⟨hi.meta_, ?_, hi.bucket, hi.bname⟩
    intro n' q v hs
    rw [stored_put (s := s) (n := n) rfl] at hs
    split at hs
    · simp [KMap.get_empty] at hs
    · exact hi.ver n' q v hs
  | findByHash h => exact ⟨hi.meta_, hi.ver, hi.bucket, hi.bname⟩
  | bucketCreate d h1 h2 =>
    refine ⟨hi.meta_, hi.ver, ?_, ?_⟩
    · intro n; simp only [KMap.get_put]
      have := hi.bucket n
      split <;> simp_all
    · intro n b; simp only [KMap.get_put]
      have := hi.bname n b
      split
      · intro h; cases h; simp_all
      · exact this
  | bucketUpdate d o h1 h2 =>
    refine ⟨hi.meta_, hi.ver, ?_, ?_⟩
    · intro n; simp only [KMap.get_put]
      have := hi.bucket n
      split <;> simp_all
    · intro n b; simp only [KMap.get_put]
      have := hi.bname n b
      split
      · intro h; cases h; simp_all
      · exact this
  | bucketDelete n =>
    refine ⟨hi.meta_, hi.ver, ?_, ?_⟩
    · intro n'; simp only [KMap.get_del]
      have := hi.bucket n'
      split <;> simp_all
    · intro n' b; simp only [KMap.get_del]
      have := hi.bname n' b
      split
      · simp
      · exact this
  | applyIndex i h => exact ⟨hi.meta_, hi.ver, hi.bucket, hi.bname⟩

theorem keysOk_run {s : Store} (hi : KeysOk s) (ops : List Op) : KeysOk (run s ops).2 := by
  induction ops generalizing s with
  | nil => exact hi
  | cons op ops ih =>
    exact ih (step_induct KeysOk s op hi fun _ _ _ _ he h => keysOk_eff he h)

theorem keysOk_reachable {s : Store} (h : Reachable s) : KeysOk s := by
  obtain ⟨ops, rfl⟩ := h
  exact keysOk_run keysOk_empty ops

theorem run_append (s : Store) (a b : List Op) :
    (run s (a ++ b)).2 = (run (run s a).2 b).2 := by
  induction a generalizing s with
  | nil => rfl
  | cons op ops ih => exact ih _

theorem reachable_step {s : Store} (h : Reachable s) (op : Op) : Reachable (step s op).2 := by
  obtain ⟨ops, rfl⟩ := h
  refine ⟨ops ++ [op], ?_⟩
  rw [run_append]; rfl

theorem reachable_run {s : Store} (h : Reachable s) (ops : List Op) : Reachable (run s ops).2 := by
  obtain ⟨o, rfl⟩ := h
  exact ⟨o ++ ops, run_append _ _ _⟩

theorem reachable_empty : Reachable .empty := ⟨[], rfl⟩

theorem getMeta_ok_iff (s : Store) (n : Str) (m : Metadata) :
    getMeta s n = .ok m ↔ s.metas.get n = some m := by
  unfold getMeta; grind

theorem getMeta_notFound_iff (s : Store) (n : Str) :
    getMeta s n = .error .notFound ↔ s.metas.get n = none := by
  unfold getMeta; grind

/-! ## Sample values for the examples -/

def sampleMeta (t : Int) : Metadata := ⟨"a".toList, "b".toList, t, t⟩

def sampleVer (hash uid : Str) (t : Int) : Version :=
  ⟨false, 1, 4, 2, 10, 40, t, 0, hash, uid, ["s1".toList, "s2".toList]⟩

def sampleBucket (n : Str) (t : Int) : Bucket :=
  ⟨true, false, false, 0, 0, 0, 3, t, t, n, []⟩

/-- An object "b/a" with two versions, and a bucket. -/
def sampleOps : List Op :=
  [.addMeta "b/a".toList (sampleMeta 1),
   .addVer "b/a".toList (sampleVer "h1".toList "u1".toList 1),
   .addVer "b/a".toList (sampleVer "h2".toList "u2".toList 2),
   .bucketCreate (sampleBucket "b".toList 1)]

def sampleStore : Store := (run .empty sampleOps).2

theorem sampleStore_reachable : Reachable sampleStore := ⟨sampleOps, rfl⟩

/-! ## C15 -/

/-- **C15** Creating an object that exists is refused and changes nothing. -/
theorem C15_create_refused {s : Store} {id : Str} {m : Metadata} (h : getMeta s id = .ok m)
    (d : Metadata) : step s (.addMeta id d) = (.err .exists, s) := by
  rw [getMeta_ok_iff] at h
  simp [step, update, addMeta, h, Res.ofUnit]

/-- **C15** In every reachable store, creating a fresh name of legal length succeeds; afterwards it
is readable with the given content, and nothing else that can be read changed. -/
theorem C15_create_fresh {s : Store} (hr : Reachable s) {id : Str}
    (h : getMeta s id = .error .notFound) (h1 : id ≠ []) (h2 : id.length ≤ 32768) (d : Metadata) :
    ∃ s', step s (.addMeta id d) = (.ok, s') ∧ getMeta s' id = .ok d ∧
      (∀ n, n ≠ id → getMeta s' n = getMeta s n) ∧
      (∀ n v, getVersion s' n v = getVersion s n v) ∧
      (∀ n, n ≠ id → getExtra s' n = getExtra s n) ∧
      (∀ n, bucketGet s' n = bucketGet s n) ∧
      (∀ hash, (findByHash s' hash).1 = (findByHash s hash).1) := by
  have hi := inv_reachable hr
  rw [getMeta_notFound_iff] at h
  have hv : s.vers.get id = none := by
    have := hi.dom id
    rw [h] at this
    simpa using this.symm
  have hk : keyErr id = none := by
    simp only [keyErr, h1, ↓reduceIte]
    rw [if_neg (by omega)]
  have hver : ∀ n v, getVersion { s with vers := s.vers.put id ⟨0, .empty⟩, metas := s.metas.put id d }
      n v = getVersion s n v := by
    intro n v
    unfold getVersion lastVersionNumber getVer
    simp only [KMap.get_put]
    by_cases hn : n = id
    · subst hn; simp [hv, KMap.get_empty]
    · simp [hn]
  refine ⟨_, ?_, ?_, ?_, hver, ?_, ?_, ?_⟩
  · simp only [step, update, addMeta, h, createVersionBucket, h1, ↓reduceIte, hv, hk, Res.ofUnit]
  · simp [getMeta_ok_iff, KMap.get_put]
  · intro n hn; simp [getMeta, KMap.get_put, hn]
  · intro n hn; simp [getExtra, KMap.get_put, hn]
  · intro n; rfl
  · intro hash
    simp only [findByHash_eq, lookKey, hver]

/-- The two cases occur. -/
example : getMeta sampleStore "b/a".toList = .ok (sampleMeta 1) ∧
    getMeta sampleStore "b/c".toList = .error .notFound ∧
    getMeta (step sampleStore (.addMeta "b/c".toList (sampleMeta 7))).2 "b/c".toList
      = .ok (sampleMeta 7) := ⟨rfl, rfl, rfl⟩

/-- An empty or over-long name is refused. -/
theorem C15_create_bad_name {s : Store} {id : Str} (h : id = [] ∨ 32768 < id.length) (d : Metadata) :
    ∃ e, step s (.addMeta id d) = (.err e, s) := by
  rcases update_cases (addMeta id d) s with ⟨e, hu, _⟩ | ⟨a, s', ho, hu⟩
  · exact ⟨e, by simp [step, hu, Res.ofUnit]⟩
  · have := (addMeta_ok ho).1
    rcases h with rfl | h
    · exact absurd this keyErr_nil
    · unfold keyErr at this
      grind

/-! ## C16 -/

/-- The request handed out version number `q` of object `n`. -/
def Gave (n : Str) (op : Op) (r : Res) (q : Nat) : Prop :=
  (∃ d, op = .addVer n d ∧ r = .seq q) ∨ (∃ d, op = .migrateVer n d ∧ r = .ok ∧ d.sequence = q)

/-- The request deletes object `n` or all of its versions. -/
def Destroys (n : Str) (op : Op) : Prop := op = .removeMeta n ∨ op = .removeAllVersion n

theorem seq_mono_eff {s s' : Store} {op : Op} {n : Str} {q : Nat} (he : Eff s op s')
    (hd : ¬ Destroys n op) (h : ∃ b, s.vers.get n = some b ∧ q ≤ b.seq) :
    ∃ b, s'.vers.get n = some b ∧ q ≤ b.seq := by
  obtain ⟨b0, hb, hq⟩ := h
  cases he with
  | addMeta id d h1 h2 h3 =>
    simp only [KMap.get_put]
    split
    · simp_all
    · exact ⟨b0, hb, hq⟩
  | removeMeta n' h =>
    simp only [KMap.get_del]
    split
    · rename_i hn; subst hn; exact absurd (Or.inl rfl) hd
    · exact ⟨b0, hb, hq⟩
  | updateMeta id d o h1 h2 => exact ⟨b0, hb, hq⟩
  | addVer n' d q' b hi ui g1 g2 h1 h2 h3 h4 h5 h6 =>
    simp only [KMap.get_put]
    split
    · rename_i hn; subst hn
      rw [hb] at h1; cases h1
      exact ⟨_, rfl, by simp only []; omega⟩
    · exact ⟨b0, hb, hq⟩
  | migrateVer n' d b hi ui g1 g2 h1 h3 h4 h5 h6 =>
    simp only [KMap.get_put]
    split
    · rename_i hn; subst hn
      rw [hb] at h1; cases h1
      exact ⟨_, rfl, by simp only []; omega⟩
    · exact ⟨b0, hb, hq⟩
  | updateVer n' d b o h1 h2 h3 =>
    simp only [KMap.get_put]
    split
    · rename_i hn; subst hn
      rw [hb] at h1; cases h1
      exact ⟨_, rfl, hq⟩
    · exact ⟨b0, hb, hq⟩
  | removeVer n' q' b v h1 h2 =>
    simp only [KMap.get_put]
    split
    · rename_i hn; subst hn
      rw [hb] at h1; cases h1
      exact ⟨_, rfl, hq⟩
    · exact ⟨b0, hb, hq⟩
  | removeAllVersion n' b h1 h2 =>
    simp only [KMap.get_put]
    split
    · rename_i hn; subst hn; exact absurd (Or.inr rfl) hd
    · exact ⟨b0, hb, hq⟩
  | findByHash h => exact ⟨b0, hb, hq⟩
  | bucketCreate d h1 h2 => exact ⟨b0, hb, hq⟩
  | bucketUpdate d o h1 h2 => exact ⟨b0, hb, hq⟩
  | bucketDelete n => exact ⟨b0, hb, hq⟩
  | applyIndex i h => exact ⟨b0, hb, hq⟩

theorem seq_mono_run {s : Store} {n : Str} {q : Nat} (ops : List Op) (hd : ∀ op ∈ ops, ¬ Destroys n op)
    (h : ∃ b, s.vers.get n = some b ∧ q ≤ b.seq) :
    ∃ b, (run s ops).2.vers.get n = some b ∧ q ≤ b.seq := by
  induction ops generalizing s with
  | nil => exact h
  | cons op ops ih =>
    refine ih (fun o ho => hd o (List.mem_cons_of_mem _ ho)) ?_
    refine step_induct (fun s => ∃ b, s.vers.get n = some b ∧ q ≤ b.seq) s op h ?_
    intro op' t t' ho he hp
    refine seq_mono_eff he ?_ hp
    rcases ho with rfl | ⟨_, m, d, rfl⟩
    · exact hd op' (List.mem_cons_self ..)
    · rintro (h | h) <;> cases h

/-- What an accepted `addVer` request did. -/
theorem step_addVer_seq {s s' : Store} {n : Str} {d : Version} {q : Nat}
    (h : step s (.addVer n d) = (.seq q, s')) : addVer n d s = (.ok q, s') := by
  simp only [step, repoAddVersion] at h
  split at h
  · rename_i q' s'' hr
    cases h
    split at hr
    · cases hr
    · split at hr
      · cases hr
      · rcases update_cases (addVer n d) s with ⟨e, hu, _⟩ | ⟨a, t, ho, hu⟩
        · rw [hu] at hr; cases hr
        · rw [hu] at hr; cases hr; exact ho
  · cases h

theorem step_migrateVer_ok {s s' : Store} {n : Str} {d : Version}
    (h : step s (.migrateVer n d) = (.ok, s')) : addVerWithSequence n d s = (.ok (), s') := by
  simp only [step, repoMigrateVersion] at h
  split at h
  · cases h
  · split at h
    · cases h
    · rcases update_cases (addVerWithSequence n d) s with ⟨e, hu, _⟩ | ⟨a, t, ho, hu⟩
      · rw [hu] at h; cases h
      · rw [hu] at h; cases h; exact ho

/-- **C16** Whatever happened before (`s` is any reachable store) and whatever happens in between
(`ops` is any history that does not delete the object or all of its versions), a version added
later gets a strictly greater number than one handed out or received earlier. -/
theorem C16_numbers_increase {s s1 s3 : Store} (_hr : Reachable s) {n : Str} {op1 : Op} {r1 : Res}
    {q1 q2 : Nat} (h1 : step s op1 = (r1, s1)) (g1 : Gave n op1 r1 q1) (ops : List Op)
    (hd : ∀ op ∈ ops, ¬ Destroys n op) {d2 : Version}
    (h2 : step (run s1 ops).2 (.addVer n d2) = (.seq q2, s3)) : q1 < q2 := by
  have hb : ∃ b, s1.vers.get n = some b ∧ q1 ≤ b.seq := by
    rcases g1 with ⟨d, rfl, rfl⟩ | ⟨d, rfl, rfl, rfl⟩
    · obtain ⟨b, hi, ui, _, _, _, _, _, _, _, rfl⟩ := addVer_ok (step_addVer_seq h1)
      exact ⟨_, KMap.get_put_self .., Nat.le_refl _⟩
    · obtain ⟨b, hi, ui, _, _, _, _, _, _, rfl⟩ := addVerWithSequence_ok (step_migrateVer_ok h1)
      exact ⟨_, KMap.get_put_self .., by simp only []; omega⟩
  obtain ⟨b, hb1, hb2⟩ := seq_mono_run ops hd hb
  obtain ⟨b', _, _, e1, e2, _⟩ := addVer_ok (step_addVer_seq h2)
  rw [hb1] at e1; cases e1
  omega

/-- **C16** The number of an added version is greater than every stored number of the object. -/
theorem C16_number_above_stored {s s' : Store} (hr : Reachable s) {n : Str} {d v : Version}
    {q q' : Nat} (h : step s (.addVer n d) = (.seq q', s')) (hv : getVer s n q = .ok v) : q < q' := by
  obtain ⟨b, _, _, e1, e2, _⟩ := addVer_ok (step_addVer_seq h)
  rw [getVer_ok_iff] at hv
  obtain ⟨b', hb, hg⟩ := hv
  rw [e1] at hb; cases hb
  obtain ⟨q0, hk, hle, _⟩ := (inv_reachable hr).key n b _ v e1 hg
  have := (verKey_inj hk).2
  omega

/-- **C16** An accepted version is stored under the number that was answered, with that number in
its record and the submitted content; every other version of every object is untouched. -/
theorem C16_added_readable {s s' : Store} {n : Str} {d : Version} {q : Nat}
    (h : step s (.addVer n d) = (.seq q, s')) :
    getVer s' n q = .ok { d with sequence := q } ∧
    (∀ n' q', (n', q') ≠ (n, q) → getVer s' n' q' = getVer s n' q') ∧
    (∀ n', getMeta s' n' = getMeta s n') := by
  obtain ⟨b, hi, ui, e1, e2, _, e4, _, _, _, rfl⟩ := addVer_ok (step_addVer_seq h)
  refine ⟨?_, ?_, fun _ => rfl⟩
  · simp [getVer, KMap.get_put]
  · intro n' q' hne
    simp only [getVer, KMap.get_put]
    by_cases hn : n' = n
    · subst hn
      have : q' ≠ q := by rintro rfl; exact hne rfl
      simp [e1, KMap.get_put, this]
    · simp [hn]

/-- A history with a removal in between: numbers 1, 2, then 3 although 2 was removed; after deleting
the object the numbers start again (which the statement of C16 allows). -/
example :
    (run .empty (sampleOps ++ [.removeVer "b/a".toList 2,
      .addVer "b/a".toList (sampleVer "h3".toList "u3".toList 2),
      .removeMeta "b/a".toList, .addMeta "b/a".toList (sampleMeta 4),
      .addVer "b/a".toList (sampleVer "h4".toList "u4".toList 2)])).1 =
    [.ok, .seq 1, .seq 2, .ok, .ok, .seq 3, .ok, .ok, .seq 1] := rfl

/-! ## C19 -/

/-- **C19** (object metadata) A stored object accepts an update exactly if it is newer; a refused
update changes nothing, an accepted one replaces the content except bucket and creation time and
touches nothing else. -/
theorem C19_metadata {s : Store} (hr : Reachable s) {id : Str} {o : Metadata}
    (h : getMeta s id = .ok o) (d : Metadata) :
    (d.updateTime ≤ o.updateTime → step s (.updateMeta id d) = (.err .oldData, s)) ∧
    (o.updateTime < d.updateTime → ∃ s', step s (.updateMeta id d) = (.ok, s') ∧
      getMeta s' id = .ok ⟨d.name, o.bucket, o.createTime, d.updateTime⟩ ∧
      (∀ n, n ≠ id → getMeta s' n = getMeta s n) ∧
      (∀ n v, getVersion s' n v = getVersion s n v) ∧
      (∀ n, bucketGet s' n = bucketGet s n)) := by
  rw [getMeta_ok_iff] at h
  have hk := (keysOk_reachable hr).meta_ id (by simp [h])
  constructor
  · intro hle
    simp [step, update, updateMeta, h, hle, Res.ofUnit]
  · intro hlt
    have hn : ¬ d.updateTime ≤ o.updateTime := by omega
    refine ⟨{ s with metas := s.metas.put id { d with bucket := o.bucket, createTime := o.createTime } },
      ?_, ?_, ?_, ?_, ?_⟩
    · simp only [step, update, updateMeta, h, hn, ↓reduceIte, hk, Res.ofUnit]
    · simp [getMeta_ok_iff, KMap.get_put]
    · intro n hne; simp [getMeta, KMap.get_put, hne]
    · intro n v; rfl
    · intro n; rfl

/-- **C19** (versions) Likewise for version updates: number, content hash and unique id stay. -/
theorem C19_version {s : Store} (hr : Reachable s) {n : Str} {o : Version} (d : Version)
    (h : getVer s n d.sequence = .ok o) :
    (d.ts ≤ o.ts → step s (.updateVer n d) = (.err .oldData, s)) ∧
    (o.ts < d.ts → ∃ s', step s (.updateVer n d) = (.ok, s') ∧
      getVer s' n d.sequence = .ok { d with sequence := o.sequence, hash := o.hash, uniqueId := o.uniqueId } ∧
      (∀ n' q', (n', q') ≠ (n, d.sequence) → getVer s' n' q' = getVer s n' q') ∧
      (∀ n', getMeta s' n' = getMeta s n') ∧
      (∀ n', bucketGet s' n' = bucketGet s n')) := by
  rw [getVer_ok_iff] at h
  have hk := (keysOk_reachable hr).ver n d.sequence o h
  obtain ⟨b, hb, hg⟩ := h
  constructor
  · intro hle
    simp [step, update, updateVer, hb, hg, hle, Res.ofUnit]
  · intro hlt
    have hn : ¬ d.ts ≤ o.ts := by omega
    refine ⟨{ s with
        vers := s.vers.put n ⟨b.seq, b.items.put (verKey n d.sequence)
                  { d with uniqueId := o.uniqueId, sequence := o.sequence, hash := o.hash }⟩ },
      ?_, ?_, ?_, ?_, ?_⟩
    · simp only [step, update, updateVer, hb, hg, hn, ↓reduceIte, hk, Res.ofUnit]
    · simp [getVer, KMap.get_put]
    · intro n' q' hne
      simp only [getVer, KMap.get_put]
      by_cases hn' : n' = n
      · subst hn'
        have : q' ≠ d.sequence := by rintro rfl; exact hne rfl
        simp [hb, KMap.get_put, this]
      · simp [hn']
    · intro n'; rfl
    · intro n'; rfl

/-- In a reachable store the record of version `q` carries the number `q`, so an update keeps it. -/
theorem C19_version_number {s : Store} (hr : Reachable s) {n : Str} {q : Nat} {v : Version}
    (h : getVer s n q = .ok v) : v.sequence = q := by
  rw [getVer_ok_iff] at h
  obtain ⟨b, hb, hg⟩ := h
  obtain ⟨q', hk, _, hs⟩ := (inv_reachable hr).key n b _ v hb hg
  rw [(verKey_inj hk).2, hs]

/-- **C19** (any arrival order) After any sequence of updates of one object, in any order, the
stored timestamp is the largest of the old one and all submitted ones, and the stored content is
that of a submission with this timestamp (or still the old one). -/
theorem C19_any_order {s : Store} (hr : Reachable s) {id : Str} {o : Metadata}
    (h : getMeta s id = .ok o) (us : List Metadata) :
    ∃ m, getMeta (run s (us.map (.updateMeta id ·))).2 id = .ok m ∧
      (o.updateTime ≤ m.updateTime ∧ ∀ u ∈ us, u.updateTime ≤ m.updateTime) ∧
      m.bucket = o.bucket ∧ m.createTime = o.createTime ∧
      (m = o ∨ ∃ u ∈ us, u.name = m.name ∧ u.updateTime = m.updateTime) := by
  induction us generalizing s o with
  | nil => exact ⟨o, h, ⟨Int.le_refl _, by simp⟩, rfl, rfl, Or.inl rfl⟩
  | cons u us ih =>
    have hc := C19_metadata hr h u
    by_cases hle : u.updateTime ≤ o.updateTime
    · have e := hc.1 hle
      obtain ⟨m, h1, ⟨h2, h3⟩, h4, h5, h6⟩ := ih (s := (step s (.updateMeta id u)).2)
        (reachable_step hr _) (o := o) (by rw [e]; exact h)
      refine ⟨m, h1, ⟨h2, ?_⟩, h4, h5, ?_⟩
      · intro w hw
        rcases List.mem_cons.1 hw with rfl | hw
        · omega
        · exact h3 w hw
      · rcases h6 with h6 | ⟨w, hw, e1, e2⟩
        · exact Or.inl h6
        · exact Or.inr ⟨w, List.mem_cons_of_mem _ hw, e1, e2⟩
    · obtain ⟨s', e, e1, _⟩ := hc.2 (by omega)
      obtain ⟨m, h1, ⟨h2, h3⟩, h4, h5, h6⟩ := ih (s := (step s (.updateMeta id u)).2)
        (reachable_step hr _) (o := ⟨u.name, o.bucket, o.createTime, u.updateTime⟩) (by rw [e]; exact e1)
      refine ⟨m, h1, ⟨by simp only [] at h2; omega, ?_⟩, h4, h5, ?_⟩
      · intro w hw
        rcases List.mem_cons.1 hw with rfl | hw
        · exact h2
        · exact h3 w hw
      · rcases h6 with h6 | ⟨w, hw, e1, e2⟩
        · subst h6
          exact Or.inr ⟨u, List.mem_cons_self .., rfl, rfl⟩
        · exact Or.inr ⟨w, List.mem_cons_of_mem _ hw, e1, e2⟩

/-- Both outcomes occur: time 1 is stored; an update at time 1 is refused, one at time 5 accepted,
with the bucket kept. -/
example :
    (step sampleStore (.updateMeta "b/a".toList ⟨"a".toList, "x".toList, 9, 1⟩)).1 = .err .oldData ∧
    (step sampleStore (.updateMeta "b/a".toList ⟨"a".toList, "x".toList, 9, 5⟩)).1 = .ok ∧
    getMeta (step sampleStore (.updateMeta "b/a".toList ⟨"a".toList, "x".toList, 9, 5⟩)).2 "b/a".toList
      = .ok ⟨"a".toList, "b".toList, 1, 5⟩ ∧
    (step sampleStore (.updateVer "b/a".toList
      { sampleVer "zz".toList "zz".toList 3 with sequence := 2 })).1 = .ok := ⟨rfl, rfl, rfl, rfl⟩

/-! ## C20 -/

/-- **C20** Deleting an object always succeeds; afterwards neither the object nor any version of it
(named or latest) can be read, searching by hash finds only versions of other objects, and every
other object, version and bucket reads as before. -/
theorem C20_delete {s : Store} (hr : Reachable s) (n : Str) :
    ∃ s', step s (.removeMeta n) = (.ok, s') ∧
      getMeta s' n = .error .notFound ∧ (∀ v, getVersion s' n v = .error .notFound) ∧
      (∀ hash v, v ∈ (findByHash s' hash).1 → ∃ n' q, n' ≠ n ∧ getVersion s n' q = .ok v) ∧
      (∀ n', n' ≠ n → getMeta s' n' = getMeta s n' ∧ getExtra s' n' = getExtra s n' ∧
        ∀ v, getVersion s' n' v = getVersion s n' v) ∧
      (∀ b, bucketGet s' b = bucketGet s b) := by
  have hi := inv_reachable hr
  have key : ∃ s', step s (.removeMeta n) = (.ok, s') ∧ s'.metas = s.metas.del n ∧
      s'.vers = s.vers.del n ∧ s'.buckets = s.buckets := by
    obtain ⟨s', h⟩ := removeMeta_never_fails n s
    refine ⟨s', by simp [step, update, h, Res.ofUnit], ?_⟩
    rcases removeMeta_ok h with ⟨h1, rfl⟩ | ⟨_, rfl⟩
    · have : s'.vers.get n = none := by
        have := hi.dom n; rw [h1] at this; simpa using this.symm
      exact ⟨(KMap.del_of_get_none _ h1).symm, (KMap.del_of_get_none _ this).symm, rfl⟩
    · exact ⟨rfl, rfl, rfl⟩
  obtain ⟨s', hs, hm, hv, hbk⟩ := key
  have hri : Reachable s' := by have := reachable_step hr (.removeMeta n); rw [hs] at this; exact this
  have hgone : ∀ v, getVersion s' n v = .error .notFound := by
    intro v
    simp [getVersion, getVer, lastVersionNumber, hv, KMap.get_del]
  have hoth : ∀ n', n' ≠ n → ∀ v, getVersion s' n' v = getVersion s n' v := by
    intro n' hn v
    simp [getVersion, getVer, lastVersionNumber, hv, KMap.get_del, hn]
  refine ⟨s', hs, ?_, hgone, ?_, ?_, ?_⟩
  · simp [getMeta, hm, KMap.get_del]
  · intro hash v hvm
    rw [findByHash_eq] at hvm
    obtain ⟨k, hk, hkv⟩ := List.mem_filterMap.1 hvm
    obtain ⟨n', q, rfl⟩ := (inv_reachable hri).shape hash k hk
    rw [lookKey_verKey] at hkv
    have hok : getVersion s' n' q = .ok v := by
      cases hg : getVersion s' n' q with
      | ok w => rw [hg] at hkv; cases hkv; rfl
      | error e => rw [hg] at hkv; cases hkv
    have hn : n' ≠ n := by
      rintro rfl; rw [hgone] at hok; cases hok
    exact ⟨n', q, hn, by rw [← hoth n' hn]; exact hok⟩
  · intro n' hn
    refine ⟨?_, ?_, hoth n' hn⟩
    · simp [getMeta, hm, KMap.get_del, hn]
    · simp [getExtra, hv, KMap.get_del, hn]
  · intro b; simp [bucketGet, hbk]

/-- **C20** Re-creating a deleted object starts with no versions: none can be read, the reported
total is 0, and the first version added afterwards gets number 1. -/
theorem C20_recreate {s : Store} (hr : Reachable s) {n : Str} (h1 : n ≠ []) (h2 : n.length ≤ 32768)
    (d : Metadata) :
    ∃ s', run s [.removeMeta n, .addMeta n d] = ([.ok, .ok], s') ∧ getMeta s' n = .ok d ∧
      (∀ v, getVersion s' n v = .error .notFound) ∧ getExtra s' n = .ok ⟨0, 0, 0⟩ ∧
      (∀ v q s'', step s' (.addVer n v) = (.seq q, s'') → q = 1) := by
  obtain ⟨s1, e1, g1, g2, _⟩ := C20_delete hr n
  have hr1 : Reachable s1 := by have := reachable_step hr (.removeMeta n); rw [e1] at this; exact this
  obtain ⟨s2, e2, g3, _, g4, _⟩ := C15_create_fresh hr1 g1 h1 h2 d
  have hb : s2.vers.get n = some ⟨0, .empty⟩ := by
    have hu : update (addMeta n d) s1 = (.ok (), s2) := by
      rcases update_cases (addMeta n d) s1 with ⟨e, hu, _⟩ | ⟨a, t, ho, hu⟩
      · simp [step, hu, Res.ofUnit] at e2
      · simp [step, hu] at e2; rw [← e2.2]; exact hu
    rcases update_cases (addMeta n d) s1 with ⟨e, hu', _⟩ | ⟨a, t, ho, hu'⟩
    · rw [hu'] at hu; cases hu
    · rw [hu'] at hu; cases hu
      obtain ⟨_, _, _, rfl⟩ := addMeta_ok ho
      exact KMap.get_put_self ..
  refine ⟨s2, ?_, g3, ?_, ?_, ?_⟩
  · simp [run, e1, e2]
  · intro v; rw [g4, g2]
  · simp [getExtra, hb, KMap.size, KMap.keys, KMap.empty, extraSeq]
  · intro v q s'' hs
    obtain ⟨b, _, _, e, e', _⟩ := addVer_ok (step_addVer_seq hs)
    rw [hb] at e; cases e; simpa using e'

/-- **C20** Removing all versions keeps the object and removes every version of it, nothing else. -/
theorem C20_remove_all_versions {s : Store} (hr : Reachable s) {n : Str} {m : Metadata}
    (h : getMeta s n = .ok m) :
    ∃ s', step s (.removeAllVersion n) = (.ok, s') ∧ getMeta s' n = .ok m ∧
      (∀ v, getVersion s' n v = .error .notFound) ∧
      (∀ n', n' ≠ n → getMeta s' n' = getMeta s n' ∧ ∀ v, getVersion s' n' v = getVersion s n' v) := by
  rw [getMeta_ok_iff] at h
  have hi := inv_reachable hr
  have hb : ∃ b, s.vers.get n = some b := by
    have := hi.dom n; rw [h] at this
    exact Option.isSome_iff_exists.1 (by simpa using this.symm)
  obtain ⟨b, hb⟩ := hb
  have hne := hi.name n b hb
  refine ⟨{ s with vers := (s.vers.del n).put n ⟨0, .empty⟩ }, ?_, ?_, ?_, ?_⟩
  · simp [step, update, removeAllVersion, removeVersionBucket, createVersionBucket, hb, hne,
      KMap.get_del, Res.ofUnit]
  · rw [getMeta_ok_iff]; exact h
  · intro v
    simp [getVersion, getVer, lastVersionNumber, KMap.get_put, KMap.get_empty]
  · intro n' hn
    refine ⟨rfl, ?_⟩
    intro v
    simp [getVersion, getVer, lastVersionNumber, KMap.get_put, KMap.get_del, hn]

/-- The object had versions, and a similarly named object is not touched. -/
example :
    let s := (run sampleStore [.addMeta "b/a.1".toList (sampleMeta 1),
      .addVer "b/a.1".toList (sampleVer "h1".toList "u9".toList 1)]).2
    getVersion s "b/a".toList 1 = .ok { sampleVer "h1".toList "u1".toList 1 with sequence := 1 } ∧
    getVersion (step s (.removeMeta "b/a".toList)).2 "b/a".toList 1 = .error .notFound ∧
    getVersion (step s (.removeMeta "b/a".toList)).2 "b/a.1".toList 1 =
      .ok { sampleVer "h1".toList "u9".toList 1 with sequence := 1 } := ⟨rfl, rfl, rfl⟩

/-! ## C23 -/

/-- **C23** Every entry of the hash index, in every reachable store, splits at its last separator
into an object name and the decimal text of a number; printing that pair gives the entry back. -/
theorem C23_entries_decode {s : Store} (hr : Reachable s) {hash k : Str}
    (h : k ∈ getIndex s.hashIdx hash) :
    ∃ n q, cutLast '.' k = some (n, fmtNat q) ∧ toUint64 (fmtNat q) = q ∧ verKey n q = k := by
  obtain ⟨n, q, rfl⟩ := (inv_reachable hr).shape hash k h
  exact ⟨n, q, cutLast_verKey n q, toUint64_fmtNat q, rfl⟩

/-- **C23** The entry written for `(n, q)` decodes to exactly `(n, q)`, for every name (also one
containing separators and digits) and every number; so different pairs have different entries. -/
theorem C23_roundtrip (n : Str) (q : Nat) :
    (cutLast '.' (verKey n q)).map (fun p => (p.1, toUint64 p.2)) = some (n, q) := by
  simp [cutLast_verKey]

theorem C23_injective {n n' : Str} {q q' : Nat} (h : verKey n q = verKey n' q') : (n, q) = (n', q') := by
  have h1 := C23_roundtrip n q
  rw [h, C23_roundtrip] at h1
  exact (Option.some.inj h1).symm

/-- The real 64-bit parsers read the number back. -/
theorem C23_parsers (q : Nat) :
    (q < 2 ^ 64 → parseUint64 (fmtNat q) = some q) ∧ (q < 2 ^ 63 → atoi (fmtNat q) = some (q : Int)) :=
  ⟨parseUint64_fmtNat, atoi_fmtNat⟩

/-- **C23** Adding a version writes exactly the entry that decodes to it: the entries of the indexes
after the request are the old ones and this one. -/
theorem C23_written {s s' : Store} {n : Str} {d : Version} {q : Nat}
    (h : step s (.addVer n d) = (.seq q, s')) (k x : Str) :
    (x ∈ getIndex s'.hashIdx k ↔ (k = d.hash ∧ x = verKey n q) ∨ x ∈ getIndex s.hashIdx k) ∧
    (x ∈ getIndex s'.uidIdx k ↔ (k = d.uniqueId ∧ x = verKey n q) ∨ x ∈ getIndex s.uidIdx k) := by
  obtain ⟨b, hi, ui, _, _, _, _, _, h5, h6, rfl⟩ := addVer_ok (step_addVer_seq h)
  exact ⟨addIndex_ok h5 k x, addIndex_ok h6 k x⟩

example : verKey "b/v1.2.3".toList 10 = "b/v1.2.3.10".toList ∧
    "b/a.2".toList ∈ getIndex sampleStore.hashIdx "h2".toList := by decide

/-! ## C24 -/

/-- **C24** A request that answers with an error (or panics) leaves the store as it was. -/
theorem C24_error_changes_nothing {s s' : Store} {op : Op} {r : Res} (h : step s op = (r, s'))
    (hr : (∃ e, r = .err e) ∨ r = .panic) : s' = s := by
  have hu : ∀ (fn : Tx Unit), (Res.ofUnit (update fn s).1, (update fn s).2) = (r, s') → s' = s := by
    intro fn hh
    rcases update_cases fn s with ⟨e, hu, _⟩ | ⟨a, t, _, hu⟩
    · rw [hu] at hh; cases hh; rfl
    · rw [hu] at hh
      rcases hr with ⟨e, rfl⟩ | rfl <;> simp [Res.ofUnit] at hh
  cases op with
  | addVer n d =>
    simp only [step, repoAddVersion] at h
    rcases update_cases (addVer n d) s with ⟨e, hu, _⟩ | ⟨a, t, _, hu⟩ <;> rw [hu] at h <;> grind
  | migrateVer n d =>
    simp only [step, repoMigrateVersion] at h
    split at h
    · cases h; rfl
    · split at h
      · cases h; rfl
      · exact hu _ h
  | updateLocate now hh i v =>
    simp only [step] at h
    grind
  | findByHash hh =>
    simp only [step] at h
    cases h
    rcases hr with ⟨e, hr⟩ | hr <;> cases hr
  | addMeta id d => exact hu _ h
  | updateMeta id d => exact hu _ h
  | removeMeta id => exact hu _ h
  | updateVer n d => exact hu _ h
  | removeVer n d => exact hu _ h
  | removeAllVersion n => exact hu _ h
  | bucketCreate d => exact hu _ h
  | bucketUpdate d => exact hu _ h
  | bucketDelete d => exact hu _ h
  | applyIndex d => exact hu _ h

/-- A failure in the middle really leaves changes in the open transaction: here the sequence number
was already advanced when writing the (too long) key fails. -/
example (n : Str) (b : VBucket) (s : Store) (hb : s.vers.get n = some b) (d : Version)
    (hu : existsByUniqueId s d.uniqueId = false) (hl : n.length = 32768)
    (hg : b.items.get (verKey n (b.seq + 1)) = none) :
    ∃ e s1, addVer n d s = (.error e, s1) ∧ s1 ≠ s := by
  have hk : keyErr (verKey n (b.seq + 1)) = some .keyTooLarge := by
    simp only [keyErr, verKey_ne_nil, ↓reduceIte]
    rw [if_pos (by simp [verKey, hl])]
  refine ⟨.keyTooLarge, { s with vers := s.vers.put n { b with seq := b.seq + 1 } }, ?_, ?_⟩
  · unfold addVer
    simp only [hb, hu, Bool.false_eq_true, ↓reduceIte, hg, hk]
  · intro he
    have := congrArg (fun s => s.vers.get n) he
    simp [KMap.get_put, hb] at this
    have := congrArg VBucket.seq this
    simp at this

example : (step sampleStore (.addVer "b/a".toList (sampleVer "h3".toList "u1".toList 2))).1 = .err .exists ∧
    (step sampleStore (.removeVer "b/a".toList 7)).1 = .err .notFound ∧
    (step sampleStore (.updateLocate 9 "h1".toList 5 "x".toList)).1 = .panic := ⟨rfl, rfl, rfl⟩

/-! ## C56 -/

/-- The specification of bucket administration: a map from names to buckets. -/
abbrev BucketMap := Str → Option Bucket

/-- What a bucket request should answer and do. -/
def bucketSpec (m : BucketMap) : Op → Res × BucketMap
  | .bucketCreate d =>
    if d.name = [] then (.err .emptyName, m)
    else if (m d.name).isSome then (.err .exists, m)
    else if 32768 < d.name.length then (.err .keyTooLarge, m)
    else (.ok, fun n => if n = d.name then some d else m n)
  | .bucketUpdate d =>
    if d.name = [] then (.err .emptyName, m)
    else match m d.name with
      | none => (.err .notFound, m)
      | some o =>
        if d.updateTime ≤ o.updateTime then (.err .oldData, m)
        else (.ok, fun n => if n = d.name then some { d with createTime := o.createTime } else m n)
  | .bucketDelete n => (.ok, fun n' => if n' = n then none else m n')
  | _ => (.ok, m)

/-- The buckets a client can read. -/
def bucketsOf (s : Store) : BucketMap := fun n => (bucketGet s n).toOption

theorem bucketsOf_eq (s : Store) (n : Str) : bucketsOf s n = s.buckets.get n := by
  unfold bucketsOf bucketGet
  split <;> simp_all [Except.toOption]

/-- **C56** In every reachable store each bucket request answers and acts as the specification says,
and no other request changes any bucket. -/
theorem C56_bucket_refinement {s : Store} (hr : Reachable s) (op : Op) :
    bucketsOf (step s op).2 = (bucketSpec (bucketsOf s) op).2 ∧
    ((∃ d, op = .bucketCreate d) ∨ (∃ d, op = .bucketUpdate d) ∨ (∃ n, op = .bucketDelete n) →
      (step s op).1 = (bucketSpec (bucketsOf s) op).1) := by
  have hk := keysOk_reachable hr
  have frame : ∀ (P : Prop) (s' : Store), s'.buckets = s.buckets →
      bucketsOf s' = bucketsOf s := by
    intro P s' h; funext n; rw [bucketsOf_eq, bucketsOf_eq, h]
  cases op with
  | bucketCreate d =>
    have hb : bucketsOf s d.name = s.buckets.get d.name := bucketsOf_eq s d.name
    simp only [step, update, bucketCreate, bucketSpec, hb]
    by_cases h0 : d.name = []
    · simp [h0, Res.ofUnit]
    · cases hg : s.buckets.get d.name with
      | some o => simp [h0, hg, Res.ofUnit]
      | none =>
        by_cases hl : 32768 < d.name.length
        · simp [h0, hg, keyErr, hl, Res.ofUnit]
        · simp only [h0, hg, keyErr, hl, Res.ofUnit, ↓reduceIte, Option.isSome_none,
            Bool.false_eq_true, true_and, implies_true, and_true]
          funext n
          simp only [bucketsOf_eq, KMap.get_put]
  | bucketUpdate d =>
    have hb : bucketsOf s d.name = s.buckets.get d.name := bucketsOf_eq s d.name
    simp only [step, update, bucketUpdate, bucketSpec, hb]
    by_cases h0 : d.name = []
    · simp [h0, Res.ofUnit]
    · cases hg : s.buckets.get d.name with
      | none => simp [h0, hg, Res.ofUnit]
      | some o =>
        have hke := hk.bucket d.name (by simp [hg])
        by_cases hl : d.updateTime ≤ o.updateTime
        · simp [h0, hg, hl, Res.ofUnit]
        · simp only [h0, hg, hke, hl, Res.ofUnit, ↓reduceIte, implies_true, and_true]
          funext n
          simp only [bucketsOf_eq, KMap.get_put]
  | bucketDelete n =>
    simp only [step, update, bucketDelete, bucketSpec, Res.ofUnit, implies_true, and_true]
    funext n'
    simp only [bucketsOf_eq, KMap.get_del]
  | _ =>
    constructor
    · simp only [bucketSpec]
      refine frame True _ ?_
      refine step_induct (fun t => t.buckets = s.buckets) s _ rfl ?_
      intro op' t t' ho he hp
      rcases ho with rfl | ⟨_, n, d, rfl⟩ <;> cases he <;> exact hp
    · rintro (⟨d, h⟩ | ⟨d, h⟩ | ⟨d, h⟩) <;> cases h

/-- **C56** Over whole histories: the readable buckets are those of the specification run. -/
theorem C56_history {s : Store} (hr : Reachable s) (ops : List Op) :
    bucketsOf (run s ops).2 = ops.foldl (fun m op => (bucketSpec m op).2) (bucketsOf s) := by
  induction ops generalizing s with
  | nil => rfl
  | cons op ops ih =>
    rw [List.foldl_cons, ← (C56_bucket_refinement hr op).1]
    exact ih (reachable_step hr op)

/-- Deleting a bucket twice is the same as deleting it once. -/
theorem C56_delete_idempotent (s : Store) (n : Str) :
    (run s [.bucketDelete n, .bucketDelete n]).2 = (run s [.bucketDelete n]).2 ∧
    (run s [.bucketDelete n, .bucketDelete n]).1 = [.ok, .ok] := by
  refine ⟨?_, rfl⟩
  simp only [run, step, update, bucketDelete]
  rw [KMap.del_of_get_none _ (KMap.get_del_self ..)]

example : (run sampleStore [.bucketCreate (sampleBucket "b".toList 5),
    .bucketUpdate (sampleBucket "b".toList 1), .bucketUpdate (sampleBucket "b".toList 5),
    .bucketDelete "b".toList, .bucketDelete "b".toList,
    .bucketUpdate (sampleBucket "b".toList 9)]).1 =
    [.err .exists, .err .oldData, .ok, .ok, .ok, .err .notFound] := rfl

end Verif.Meta
