import Verif.Meta.Props
import Verif.HashSlot.Props

/-!
# Moving slots between metadata servers: C32

`AutoMigrate`, `migrateMetadata`, `migrateBuckets`, `ReceiveItem`, `FinishReceiveItem`
(src/metaserver/internal/usecase/service/hashslot_service.go) and `StreamingReceive`
(src/metaserver/internal/controller/grpc/hashslot_server.go), from the moment when the source is in
migrate-to and the target in migrate-from until both are idle again.  The stores are those of
`Verif.Meta.Model`, the slot lists those of `Verif.HashSlot.Model`.

Simplified:

* Nothing else writes to the two stores during the transfer.  (The middlewares refuse writes while
  the status is not normal, C28/C61, apart from `UpdateVersion` and requests that passed the check
  before; see also `Verif.Meta.MigStatus`.)
* Both groups have one member, or the leader's log is applied at once (C27 relates the log to
  `step`).
* The goroutines that delete sent objects at the source (lines 332-337, 381-386) are collected and run
  after the transfer; each of them touches only the object it deletes, which is not read again.  Which
  of them really run, and in which order, is arbitrary.
* Slot lists are ranges, not their text in etcd (C07).
* `GetBytes` of a bucket reads the database, not the cache (C30).  `migrateBuckets` uses keys of a
  finished bbolt transaction (`migKeys`, line 350); the model reads them as if they were copies.  What
  really happens to them is in `Verif.Meta.Pages` (C125).
-/

namespace Verif.Meta

open Verif Verif.HashSlot

/-! ## Model -/

/-- `pb.MigrationItem`: the three kinds of data sent (entity.DestMetadata, DestVersion,
DestBucket). -/
inductive Item
  | metadata (name : Str) (d : Metadata)
  | version (name : Str) (d : Version)
  | bucket (d : Bucket)
  deriving DecidableEq

/-- The operation an item causes at the target: `ReceiveItem`, service/hashslot_service.go:193-222,
with `AddMetadata` and `Create` setting the times (service/metadata_service.go:26-39,
bucket_service.go:20-35). -/
def Item.op (now : Int) : Item → Op
  | .metadata n d => .addMeta n { d with createTime := now, updateTime := now }
  | .version n d => .migrateVer n d
  | .bucket d => .bucketCreate { d with createTime := now, updateTime := now }

/-- `ReceiveItem` answers success also for `ErrExists`, service/hashslot_service.go:218-221. -/
def accepted : Res → Bool
  | .err .exists => true
  | .err _ => false
  | .panic => false
  | _ => true

/-- What the connection does with one item: both directions work, the item is lost, or the answer
is lost. -/
inductive Link
  | works | itemLost | answerLost
  deriving DecidableEq

/-- The environment of a transfer: the connection and the clock of the target, by number of the
item. -/
structure Env32 where
  link : Nat → Link
  now : Nat → Int

/-- The state of a transfer. -/
structure Xfer where
  tgt : Store          -- the store of the target
  n : Nat              -- items sent
  ok : Bool            -- `len(errs) == 0`
  delM : List Str      -- started deletions of metadata
  delB : List Str      -- started deletions of buckets

/-- One `Send` and `Recv` of the source (lines 289-304, 309-324, 364-379) with the round of
`StreamingReceive` (controller/grpc/hashslot_server.go:52-68) between them; the answer says whether the
source saw a success. -/
def exchange (e : Env32) (it : Item) (x : Xfer) : Bool × Xfer :=
  match e.link x.n with
  | .itemLost => (false, { x with n := x.n + 1, ok := false })
  | l =>
    let r := step x.tgt (it.op (e.now x.n))
    let good := accepted r.1 && decide (l = .works)
    (good, { x with tgt := r.2, n := x.n + 1, ok := x.ok && good })

/-- The loop over the versions of an object, service/hashslot_service.go:306-326: every version is
sent, also after a failure; the answer is `allVersionSuccess`. -/
def sendVersions (e : Env32) (name : Str) : List Version → Xfer → Bool × Xfer
  | [], x => (true, x)
  | v :: vs, x =>
    let r := exchange e (.version name v) x
    let t := sendVersions e name vs r.2
    (r.1 && t.1, t.2)

/-- `ForeachVersionBytes(name)`, repo/metadata_repo.go:330-340. -/
def versionsOf (s : Store) (name : Str) : List Version :=
  match s.vers.get name with
  | some b => b.items.entries.map (·.2)
  | none => []

/-- One round of `migrateMetadata`, service/hashslot_service.go:280-338. -/
def sendObject (e : Env32) (src : Store) (x : Xfer) (key : Str) : Xfer :=
  match src.metas.get key with
  | none => { x with ok := false }
  | some m =>
    let r := exchange e (.metadata key m) x
    if r.1 = false then r.2
    else
      let t := sendVersions e key (versionsOf src key) r.2
      if t.1 = false then t.2 else { t.2 with delM := key :: t.2.delM }

/-- One round of `migrateBuckets`, service/hashslot_service.go:354-387. -/
def sendBucket (e : Env32) (src : Store) (x : Xfer) (key : Str) : Xfer :=
  match src.buckets.get key with
  | none => { x with ok := false }
  | some b =>
    let r := exchange e (.bucket b) x
    if r.1 = false then r.2 else { r.2 with delB := key :: r.2.delB }

/-- `migrateMetadata` and `migrateBuckets`, service/hashslot_service.go:273-393; `mv` are the keys
whose slot moves. -/
def transfer (e : Env32) (mv : Str → Bool) (src tgt : Store) : Xfer :=
  let x1 := (src.metas.keys.filter mv).foldl (sendObject e src) ⟨tgt, 0, true, [], []⟩
  (src.buckets.keys.filter mv).foldl (sendBucket e src) x1

/-- How the end of the migration can go, after a transfer without errors.

* `sourceFails`: reading or writing the source's slots in etcd fails
  (service/hashslot_service.go:255-264); the call is cancelled and the target ends with
  `FinishReceiveItem(false)`.
* `targetFails`: the source has published its slots, the target does not take them: it is not in
  migrate-from any more (line 168, after the timeout of line 153), its etcd calls fail (177-188), or the
  cancellation of the call, which follows `CloseSend` at once (lines 238, 266), reaches it before the
  end of the stream.
* `done`: `FinishReceiveItem(true)` succeeds. -/
inductive End
  | sourceFails | targetFails | done
  deriving DecidableEq

/-- The slots published by source and target: service/hashslot_service.go:246-268, 161-191. -/
def publish (S : Sorter) (del : List Edge) (ok : Bool) (e : End) (srcE tgtE : List Edge) :
    List Edge × List Edge :=
  if ok = false then (srcE, tgtE)
  else
    match e with
    | .sourceFails => (srcE, tgtE)
    | .targetFails => (removeEdges srcE del, tgtE)
    | .done => (removeEdges srcE del, combineEdges S tgtE del)

/-- The two servers. -/
structure World where
  src : Store
  tgt : Store
  srcE : List Edge
  tgtE : List Edge

/-- The deletions that really run. -/
def deletions (s : Store) (ms bs : List Str) : Store :=
  bs.foldl (fun s n => (step s (.bucketDelete n)).2) (ms.foldl (fun s n => (step s (.removeMeta n)).2) s)

/-- `IsSlotInEdges(CalcBytesSlot(key), edges)`, service/hashslot_service.go:275-277, 347. -/
def moves (del : List Edge) (key : Str) : Bool := isSlotInEdges (calcBytesSlot key) del

/-- A whole migration: `ms`, `bs` are the deletions that run. -/
def migrate (S : Sorter) (e : Env32) (fin : End) (del : List Edge) (ms bs : List Str) (w : World) : World :=
  let x := transfer e (moves del) w.src w.tgt
  let p := publish S del x.ok fin w.srcE w.tgtE
  ⟨deletions w.src ms bs, x.tgt, p.1, p.2⟩

/-! ## Specification -/

/-- Store `b` has object `k` as store `a` has it: the same name and bucket and the same versions.
(The times of the metadata are not compared, see `C32_times_rewritten`.) -/
def SameObject (a b : Store) (k : Str) : Prop :=
  (∃ ma mb, getMeta a k = .ok ma ∧ getMeta b k = .ok mb ∧ mb.name = ma.name ∧ mb.bucket = ma.bucket) ∧
    ∀ q, getVer b k q = getVer a k q

/-- The same for a bucket, again up to the times. -/
def SameBucket (a b : Store) (k : Str) : Prop :=
  ∃ x y, bucketGet a k = .ok x ∧ bucketGet b k = .ok y ∧
    { y with createTime := x.createTime, updateTime := x.updateTime } = x

/-- The target has nothing under the keys that move, and nothing stands in the way of their versions
in its index of unique ids. -/
structure Clean (mv : Str → Bool) (src tgt : Store) : Prop where
  metas : ∀ k, mv k = true → getMeta tgt k = .error .notFound
  buckets : ∀ k, mv k = true → bucketGet tgt k = .error .notFound
  uids : ∀ k q v, mv k = true → getVer src k q = .ok v → existsByUniqueId tgt v.uniqueId = false
  hashes : ∀ k q v k' q' v', mv k = true → mv k' = true → getVer src k q = .ok v →
    getVer src k' q' = .ok v' → v.uniqueId ≠ v'.hash

/-! ## Lemmas -/

theorem addIndex_not_exists {idx : KMap (KMap Unit)} {k key : Str} :
    addIndex idx k key ≠ .error .exists := by
  unfold addIndex keyErr
  intro h
  split at h
  · cases h
  · simp only at h
    split at h
    · rename_i e he
      cases h
      split at he
      · cases he
      · split at he <;> cases he
    · cases h

theorem addBothMigrated_not_exists (h key : Str) (s s' : Store) :
    addBothMigrated h key s ≠ (.error .exists, s') := by
  intro hh
  unfold addBothMigrated at hh
  split at hh
  · rename_i e he
    cases hh
    exact addIndex_not_exists he
  · simp only at hh
    split at hh
    · rename_i e he
      cases hh
      exact addIndex_not_exists he
    · cases hh

theorem addVerWithSequence_exists {n : Str} {d : Version} {s s' : Store}
    (h : addVerWithSequence n d s = (.error .exists, s')) :
    existsByUniqueId s d.uniqueId = true ∨
      ∃ b v, s.vers.get n = some b ∧ b.items.get (verKey n d.sequence) = some v := by
  unfold addVerWithSequence at h
  split at h
  · cases h
  · rename_i b hb
    split at h
    · rename_i he; exact .inl he
    · simp only at h
      have e1 : (if d.sequence > b.seq then { b with seq := d.sequence } else b : VBucket).items
          = b.items := by split <;> rfl
      split at h
      · rename_i v hv
        rw [e1] at hv
        exact .inr ⟨b, v, hb, hv⟩
      · split at h
        · rename_i e he
          cases h
          unfold keyErr at he
          split at he
          · cases he
          · split at he <;> cases he
        · exact absurd h (addBothMigrated_not_exists _ _ _ _)

/-- What receiving a version does to the rest of the store. -/
theorem migrate_frame (s : Store) (n : Str) (d : Version) :
    let s' := (step s (.migrateVer n d)).2
    s'.metas = s.metas ∧ s'.buckets = s.buckets ∧ (∀ k, k ≠ n → s'.vers.get k = s.vers.get k) ∧
      (∀ u, u ≠ d.hash → existsByUniqueId s' u = existsByUniqueId s u) := by
  simp only
  refine step_induct (fun t => t.metas = s.metas ∧ t.buckets = s.buckets ∧
    (∀ k, k ≠ n → t.vers.get k = s.vers.get k) ∧
      (∀ u, u ≠ d.hash → existsByUniqueId t u = existsByUniqueId s u)) s _ ⟨rfl, rfl, fun _ _ => rfl, fun _ _ => rfl⟩ ?_
  intro op' t t' ho he hp
  rcases ho with rfl | ⟨h, _⟩
  · cases he with
    | migrateVer _ _ b hi ui g1 g2 h1 h3 h4 h5 h6 =>
      refine ⟨hp.1, hp.2.1, ?_, ?_⟩
      · intro k hk
        simp only
        rw [KMap.get_put_ne _ _ hk]
        exact hp.2.2.1 k hk
      · intro u hu
        rw [← hp.2.2.2 u hu]
        have : ∀ x, existsByUniqueId ({ t with
            vers := t.vers.put n ⟨max b.seq d.sequence, b.items.put (verKey n d.sequence) d⟩
            hashIdx := hi, uidIdx := x } : Store) u = !(getIndex x u).isEmpty := fun _ => rfl
        rw [this]
        have hg : ui.get u = t.uidIdx.get u := by
          unfold addIndex at h6
          split at h6
          · cases h6
          · simp only at h6
            split at h6
            · cases h6
            · cases h6
              rw [KMap.get_put_ne _ _ hu]
        simp only [existsByUniqueId, getIndex, hg]
  · exact absurd h id

theorem addMeta_frame (s : Store) (n : Str) (d : Metadata) :
    let s' := (step s (.addMeta n d)).2
    s'.buckets = s.buckets ∧ s'.uidIdx = s.uidIdx ∧
      (∀ k, k ≠ n → s'.metas.get k = s.metas.get k ∧ s'.vers.get k = s.vers.get k) := by
  simp only
  refine step_induct (fun t => t.buckets = s.buckets ∧ t.uidIdx = s.uidIdx ∧
    (∀ k, k ≠ n → t.metas.get k = s.metas.get k ∧ t.vers.get k = s.vers.get k)) s _
    ⟨rfl, rfl, fun _ _ => ⟨rfl, rfl⟩⟩ ?_
  intro op' t t' ho he hp
  rcases ho with rfl | ⟨h, _⟩
  · cases he with
    | addMeta _ _ h1 h2 h3 =>
      refine ⟨hp.1, hp.2.1, ?_⟩
      intro k hk
      simp only
      rw [KMap.get_put_ne _ _ hk, KMap.get_put_ne _ _ hk]
      exact hp.2.2 k hk
  · exact absurd h id

theorem bucketCreate_frame (s : Store) (d : Bucket) :
    let s' := (step s (.bucketCreate d)).2
    s'.metas = s.metas ∧ s'.vers = s.vers ∧ s'.uidIdx = s.uidIdx ∧
      (∀ k, k ≠ d.name → s'.buckets.get k = s.buckets.get k) := by
  simp only
  refine step_induct (fun t => t.metas = s.metas ∧ t.vers = s.vers ∧ t.uidIdx = s.uidIdx ∧
    (∀ k, k ≠ d.name → t.buckets.get k = s.buckets.get k)) s _ ⟨rfl, rfl, rfl, fun _ _ => rfl⟩ ?_
  intro op' t t' ho he hp
  rcases ho with rfl | ⟨h, _⟩
  · cases he with
    | bucketCreate _ h1 h2 =>
      refine ⟨hp.1, hp.2.1, hp.2.2.1, ?_⟩
      intro k hk
      simp only
      rw [KMap.get_put_ne _ _ hk]
      exact hp.2.2.2 k hk
  · exact absurd h id

/-- A version that is really new at the target and whose sending was answered with success is
there. -/
theorem migrate_stored {s : Store} {n : Str} {d : Version} {b : VBucket}
    (hb : s.vers.get n = some b) (hu : existsByUniqueId s d.uniqueId = false)
    (hi : b.items.get (verKey n d.sequence) = none)
    (ha : accepted (step s (.migrateVer n d)).1 = true) :
    ∃ q, (step s (.migrateVer n d)).2.vers.get n =
      some ⟨q, b.items.put (verKey n d.sequence) d⟩ := by
  have hok : (step s (.migrateVer n d)).1 = .ok := by
    simp only [step, repoMigrateVersion] at ha ⊢
    split
    · rename_i h; simp [h, Res.ofUnit, accepted] at ha
    · rename_i h1
      split
      · rename_i h2; simp [h1, h2, Res.ofUnit, accepted] at ha
      · rename_i h2
        simp only [h1, h2, ↓reduceIte] at ha
        rcases update_cases (addVerWithSequence n d) s with ⟨e, hu', he⟩ | ⟨a, t, ho, hu'⟩
        · rw [hu'] at ha ⊢
          cases e <;> simp [Res.ofUnit, accepted] at ha
          exfalso
          have : ∃ s', addVerWithSequence n d s = (.error .exists, s') := ⟨_, Prod.ext he rfl⟩
          obtain ⟨s', hs'⟩ := this
          rcases addVerWithSequence_exists hs' with h | ⟨b', v, hb', hv⟩
          · rw [hu] at h; cases h
          · rw [hb] at hb'; cases hb'; rw [hi] at hv; cases hv
        · rw [hu']; rfl
  have hst : step s (.migrateVer n d) = (.ok, (step s (.migrateVer n d)).2) := Prod.ext hok rfl
  obtain ⟨b', hi', ui, h1, _, _, _, _, _, h7⟩ := addVerWithSequence_ok (step_migrateVer_ok hst)
  rw [hb] at h1; cases h1
  refine ⟨max b.seq d.sequence, ?_⟩
  rw [h7]
  simp

/-- The same for metadata. -/
theorem addMeta_stored {s : Store} {n : Str} {d : Metadata}
    (hm : s.metas.get n = none) (ha : accepted (step s (.addMeta n d)).1 = true) :
    (step s (.addMeta n d)).2.metas.get n = some d ∧
      (step s (.addMeta n d)).2.vers.get n = some ⟨0, .empty⟩ := by
  simp only [step] at ha ⊢
  rcases update_cases (addMeta n d) s with ⟨e, hu', he⟩ | ⟨a, t, ho, hu'⟩
  · exfalso
    rw [hu'] at ha
    have hne : e ≠ .exists := by
      rintro rfl
      unfold addMeta at he
      rw [hm] at he
      simp only at he
      unfold createVersionBucket at he
      unfold keyErr at he
      grind
    cases e <;> simp [Res.ofUnit, accepted] at ha hne
  · rw [hu']
    obtain ⟨_, _, _, rfl⟩ := addMeta_ok ho
    simp

theorem bucketCreate_stored {s : Store} {d : Bucket} {n : Str} (hn : d.name = n)
    (hm : s.buckets.get n = none) (ha : accepted (step s (.bucketCreate d)).1 = true) :
    (step s (.bucketCreate d)).2.buckets.get n = some d := by
  subst hn
  simp only [step] at ha ⊢
  rcases update_cases (bucketCreate d) s with ⟨e, hu', he⟩ | ⟨a, t, ho, hu'⟩
  · exfalso
    rw [hu'] at ha
    have hne : e ≠ .exists := by
      rintro rfl
      unfold bucketCreate at he
      rw [hm] at he
      unfold keyErr at he
      grind
    cases e <;> simp [Res.ofUnit, accepted] at ha hne
  · rw [hu']
    unfold bucketCreate at ho
    rw [hm] at ho
    split at ho
    · cases ho
    · simp only at ho
      split at ho
      · cases ho
      · cases ho; simp

/-- Buckets are stored under their names. -/
theorem bucketName_reachable {s : Store} (h : Reachable s) :
    ∀ k b, s.buckets.get k = some b → b.name = k := by
  obtain ⟨ops, rfl⟩ := h
  have : ∀ (ops : List Op) (s : Store), (∀ k b, s.buckets.get k = some b → b.name = k) →
      ∀ k b, (run s ops).2.buckets.get k = some b → b.name = k := by
    intro ops
    induction ops with
    | nil => intro s h; exact h
    | cons op ops ih =>
      intro s h
      simp only [run]
      refine ih _ ?_
      refine step_induct (fun t => ∀ k b, t.buckets.get k = some b → b.name = k) s op h ?_
      intro op' t t' _ he hp k b hk
      cases he with
      | bucketCreate d h1 h2 =>
        simp only [KMap.get_put] at hk
        split at hk
        · rename_i hk'; cases hk; exact hk'.symm
        · exact hp k b hk
      | bucketUpdate d o h1 h2 =>
        simp only [KMap.get_put] at hk
        split at hk
        · rename_i hk'; cases hk; exact hk'.symm
        · exact hp k b hk
      | bucketDelete n =>
        simp only [KMap.get_del] at hk
        split at hk
        · cases hk
        · exact hp k b hk
      | _ => exact hp k b hk
  exact this ops .empty (by intro k b h; simp [Store.empty, KMap.get_empty] at h)

/-- Nothing in the target's index of unique ids stands in the way of the versions that move. -/
def UidClean (mv : Str → Bool) (src t : Store) : Prop :=
  ∀ k q v, mv k = true → getVer src k q = .ok v → existsByUniqueId t v.uniqueId = false

theorem exchange_spec (e : Env32) (it : Item) (x : Xfer) :
    (exchange e it x).2.delM = x.delM ∧ (exchange e it x).2.delB = x.delB ∧
    (exchange e it x).2.ok = (x.ok && (exchange e it x).1) ∧
    ((exchange e it x).2.tgt = x.tgt ∨
      (exchange e it x).2.tgt = (step x.tgt (it.op (e.now x.n))).2) ∧
    ((exchange e it x).1 = true →
      (exchange e it x).2.tgt = (step x.tgt (it.op (e.now x.n))).2 ∧
        accepted (step x.tgt (it.op (e.now x.n))).1 = true) := by
  unfold exchange
  cases e.link x.n <;> simp

/-- What sending a version leaves alone. -/
structure VFrame (mv : Str → Bool) (src : Store) (n : Str) (x x' : Xfer) : Prop where
  metas : x'.tgt.metas = x.tgt.metas
  buckets : x'.tgt.buckets = x.tgt.buckets
  vers : ∀ k, k ≠ n → x'.tgt.vers.get k = x.tgt.vers.get k
  uid : UidClean mv src x.tgt → UidClean mv src x'.tgt
  delM : x'.delM = x.delM
  delB : x'.delB = x.delB

theorem exchange_version_frame (e : Env32) {mv : Str → Bool} {src : Store} {n : Str} {v : Version}
    (hh : ∀ k q w, mv k = true → getVer src k q = .ok w → w.uniqueId ≠ v.hash) (x : Xfer) :
    VFrame mv src n x (exchange e (.version n v) x).2 := by
  obtain ⟨h1, h2, _, h4, _⟩ := exchange_spec e (.version n v) x
  rcases h4 with h4 | h4
  · exact ⟨by rw [h4], by rw [h4], fun k _ => by rw [h4], fun h => by rw [h4]; exact h, h1, h2⟩
  · obtain ⟨f1, f2, f3, f4⟩ := migrate_frame x.tgt n v
    refine ⟨by rw [h4]; exact f1, by rw [h4]; exact f2, fun k hk => by rw [h4]; exact f3 k hk, ?_, h1, h2⟩
    intro hu k q w hk hw
    rw [h4]
    exact (f4 _ (hh k q w hk hw)).trans (hu k q w hk hw)

theorem VFrame.trans {mv : Str → Bool} {src : Store} {n : Str} {x y z : Xfer}
    (a : VFrame mv src n x y) (b : VFrame mv src n y z) : VFrame mv src n x z :=
  ⟨b.metas.trans a.metas, b.buckets.trans a.buckets, fun k hk => (b.vers k hk).trans (a.vers k hk),
    fun h => b.uid (a.uid h), b.delM.trans a.delM, b.delB.trans a.delB⟩

theorem sendVersions_frame (e : Env32) {mv : Str → Bool} {src : Store} {n : Str} (vs : List Version)
    (hh : ∀ v ∈ vs, ∀ k q w, mv k = true → getVer src k q = .ok w → w.uniqueId ≠ v.hash) (x : Xfer) :
    VFrame mv src n x (sendVersions e n vs x).2 ∧
      (sendVersions e n vs x).2.ok = (x.ok && (sendVersions e n vs x).1) := by
  induction vs generalizing x with
  | nil => exact ⟨⟨rfl, rfl, fun _ _ => rfl, id, rfl, rfl⟩, by simp [sendVersions]⟩
  | cons v vs ih =>
    simp only [sendVersions]
    have h1 := exchange_version_frame e (n := n) (hh v (by simp)) x
    have h2 := ih (fun w hw => hh w (by simp [hw])) (exchange e (.version n v) x).2
    refine ⟨h1.trans h2.1, ?_⟩
    rw [h2.2, (exchange_spec e (.version n v) x).2.2.1, Bool.and_assoc]

theorem sendVersions_content (e : Env32) {mv : Str → Bool} {src : Store} {n : Str}
    (es done : List (Str × Version)) (b : VBucket) (x : Xfer)
    (hb : x.tgt.vers.get n = some b) (hd : ∀ k v, b.items.get k = some v ↔ (k, v) ∈ done)
    (hk : ∀ p ∈ es, p.1 = verKey n p.2.sequence) (hn : ((done ++ es).map (·.1)).Nodup)
    (hu : UidClean mv src x.tgt) (hmv : mv n = true) (hs : ∀ p ∈ es, ∃ q, getVer src n q = .ok p.2)
    (hh : ∀ p ∈ es, ∀ k q w, mv k = true → getVer src k q = .ok w → w.uniqueId ≠ p.2.hash)
    (hg : (sendVersions e n (es.map (·.2)) x).1 = true) :
    ∃ b', (sendVersions e n (es.map (·.2)) x).2.tgt.vers.get n = some b' ∧
      ∀ k v, b'.items.get k = some v ↔ (k, v) ∈ done ++ es := by
  induction es generalizing done b x with
  | nil => exact ⟨b, by simpa [sendVersions] using hb, by simpa using hd⟩
  | cons p es ih =>
    obtain ⟨pk, pv⟩ := p
    simp only [List.map_cons, sendVersions, Bool.and_eq_true] at hg ⊢
    have hpk : pk = verKey n pv.sequence := hk (pk, pv) (by simp)
    obtain ⟨q, hq⟩ := hs (pk, pv) (by simp)
    have hnone : b.items.get (verKey n pv.sequence) = none := by
      cases hget : b.items.get (verKey n pv.sequence) with
      | none => rfl
      | some w =>
        exfalso
        have hin := (hd _ _).1 hget
        rw [List.map_append, List.nodup_append] at hn
        exact hn.2.2 _ (List.mem_map_of_mem hin) pk (by simp) hpk.symm
    obtain ⟨_, _, _, _, h5⟩ := exchange_spec e (.version n pv) x
    obtain ⟨ht, ha⟩ := h5 hg.1
    obtain ⟨sq, hst⟩ := migrate_stored hb (hu n q pv hmv hq) hnone ha
    have hfr := exchange_version_frame e (n := n) (hh (pk, pv) (by simp)) x
    have := ih (done ++ [(pk, pv)]) ⟨sq, b.items.put (verKey n pv.sequence) pv⟩
      (exchange e (.version n pv) x).2 (by rw [ht]; exact hst) ?_
      (fun p hp => hk p (by simp [hp])) (by simpa using hn) (hfr.uid hu)
      (fun p hp => hs p (by simp [hp])) (fun p hp => hh p (by simp [hp])) hg.2
    · simpa using this
    · intro k v
      simp only [KMap.get_put, List.mem_append, List.mem_singleton, Prod.mk.injEq]
      split
      · rename_i hkk
        constructor
        · intro h; cases h; exact .inr ⟨hkk.trans hpk.symm, rfl⟩
        · rintro (h | ⟨_, rfl⟩)
          · have := (hd _ _).2 h
            rw [hkk, hnone] at this; cases this
          · rfl
      · rename_i hkk
        rw [hd]
        constructor
        · exact .inl
        · rintro (h | ⟨h, _⟩)
          · exact h
          · exact absurd (h.trans hpk) hkk

/-- What sending an object leaves alone, and what it achieves. -/
structure OFrame (mv : Str → Bool) (src : Store) (n : Str) (x x' : Xfer) : Prop where
  buckets : x'.tgt.buckets = x.tgt.buckets
  other : ∀ k, k ≠ n → x'.tgt.metas.get k = x.tgt.metas.get k ∧ x'.tgt.vers.get k = x.tgt.vers.get k
  uid : UidClean mv src x'.tgt
  delB : x'.delB = x.delB
  delM : x'.delM = x.delM ∧ x'.ok = false ∨
    x'.delM = n :: x.delM ∧ x'.ok = x.ok ∧ SameObject src x'.tgt n

theorem sendObject_spec (e : Env32) {mv : Str → Bool} {src : Store} (hi : Inv src) {n : Str}
    (hmv : mv n = true) (hin : src.metas.get n ≠ none) (x : Xfer)
    (hm : x.tgt.metas.get n = none) (hu : UidClean mv src x.tgt)
    (hh : ∀ k q v k' q' v', mv k = true → mv k' = true → getVer src k q = .ok v →
      getVer src k' q' = .ok v' → v.uniqueId ≠ v'.hash) :
    OFrame mv src n x (sendObject e src x n) := by
  unfold sendObject
  cases hms : src.metas.get n with
  | none => exact absurd hms hin
  | some m =>
    simp only
    obtain ⟨h1, h2, h3, h4, h5⟩ := exchange_spec e (.metadata n m) x
    have fr : (exchange e (.metadata n m) x).2.tgt.buckets = x.tgt.buckets ∧
        (∀ k, k ≠ n → (exchange e (.metadata n m) x).2.tgt.metas.get k = x.tgt.metas.get k ∧
          (exchange e (.metadata n m) x).2.tgt.vers.get k = x.tgt.vers.get k) ∧
        UidClean mv src (exchange e (.metadata n m) x).2.tgt := by
      rcases h4 with h4 | h4
      · rw [h4]; exact ⟨rfl, fun _ _ => ⟨rfl, rfl⟩, hu⟩
      · rw [h4]
        obtain ⟨f1, f2, f3⟩ := addMeta_frame x.tgt n { m with createTime := e.now x.n, updateTime := e.now x.n }
        refine ⟨f1, f3, ?_⟩
        intro k q v hk hv
        have := hu k q v hk hv
        simp only [existsByUniqueId] at this ⊢
        rw [show (step x.tgt ((Item.metadata n m).op (e.now x.n))).2.uidIdx = x.tgt.uidIdx from f2]
        exact this
    split
    · rename_i hf
      rw [hf, Bool.and_false] at h3
      exact ⟨fr.1, fr.2.1, fr.2.2, h2, .inl ⟨h1, h3⟩⟩
    · rename_i hf
      have hf : (exchange e (.metadata n m) x).1 = true := by simpa using hf
      obtain ⟨ht, ha⟩ := h5 hf
      obtain ⟨g1, g2⟩ := addMeta_stored (n := n) hm ha
      -- the versions
      have hv : ∃ b, src.vers.get n = some b := by
        have := hi.dom n
        rw [hms] at this
        cases hb : src.vers.get n with
        | none => rw [hb] at this; cases this
        | some b => exact ⟨b, rfl⟩
      obtain ⟨b, hb⟩ := hv
      have hvs : versionsOf src n = b.items.entries.map (·.2) := by simp [versionsOf, hb]
      have hent : ∀ p ∈ b.items.entries, p.1 = verKey n p.2.sequence ∧ getVer src n p.2.sequence = .ok p.2 := by
        intro p hp
        have hget := (KMap.mem_iff_get b.items p.1 p.2).1 hp
        obtain ⟨q, e1, _, e3⟩ := hi.key n b p.1 p.2 hb hget
        rw [e3]
        refine ⟨e1, (getVer_ok_iff _ _ _ _).2 ⟨b, hb, ?_⟩⟩
        rw [← e1]; exact hget
      have hhs : ∀ p ∈ b.items.entries, ∀ k q w, mv k = true → getVer src k q = .ok w →
          w.uniqueId ≠ p.2.hash := fun p hp k q w hk hw => hh k q w n _ p.2 hk hmv hw (hent p hp).2
      have hfr := sendVersions_frame e (n := n) (mv := mv) (src := src) (versionsOf src n)
        (by
          rw [hvs]
          intro v hv
          obtain ⟨p, hp, rfl⟩ := List.mem_map.1 hv
          exact hhs p hp) (exchange e (.metadata n m) x).2
      obtain ⟨vf, vok⟩ := hfr
      have hoth : ∀ k, k ≠ n →
          (sendVersions e n (versionsOf src n) (exchange e (.metadata n m) x).2).2.tgt.metas.get k = x.tgt.metas.get k ∧
          (sendVersions e n (versionsOf src n) (exchange e (.metadata n m) x).2).2.tgt.vers.get k = x.tgt.vers.get k := by
        intro k hk
        rw [vf.metas, vf.vers k hk]
        exact fr.2.1 k hk
      split
      · rename_i hall
        rw [hall, Bool.and_false] at vok
        exact ⟨vf.buckets.trans fr.1, hoth, vf.uid fr.2.2, vf.delB.trans h2,
          .inl ⟨vf.delM.trans h1, vok⟩⟩
      · rename_i hall
        have hall : (sendVersions e n (versionsOf src n) (exchange e (.metadata n m) x).2).1 = true := by
          simpa using hall
        refine ⟨vf.buckets.trans fr.1, hoth, vf.uid fr.2.2, vf.delB.trans h2, .inr ⟨?_, ?_, ?_⟩⟩
        · simp only [vf.delM, h1]
        · show (sendVersions e n (versionsOf src n) (exchange e (.metadata n m) x).2).2.ok = x.ok
          rw [vok, hall, Bool.and_true, h3, hf, Bool.and_true]
        · obtain ⟨b', hb', hc⟩ := sendVersions_content e (mv := mv) (src := src) (n := n) b.items.entries [] ⟨0, .empty⟩
            (exchange e (.metadata n m) x).2 (by rw [ht]; exact g2)
            (by intro k v; simp [KMap.get_empty]) (fun p hp => (hent p hp).1)
            (by simpa [KMap.keys] using KMap.keys_nodup b.items) fr.2.2 hmv (fun p hp => ⟨_, (hent p hp).2⟩) hhs
            (by rw [← hvs]; exact hall)
          constructor
          · refine ⟨m, { m with createTime := e.now x.n, updateTime := e.now x.n },
              (getMeta_ok_iff _ _ _).2 hms, (getMeta_ok_iff _ _ _).2 ?_, rfl, rfl⟩
            show (sendVersions e n (versionsOf src n) (exchange e (.metadata n m) x).2).2.tgt.metas.get n = _
            rw [vf.metas, ht]
            exact g1
          · intro q
            have hbb : b'.items.get (verKey n q) = b.items.get (verKey n q) := by
              cases hl : b.items.get (verKey n q) with
              | some v => exact (hc _ _).2 (by simpa using (KMap.mem_iff_get _ _ _).2 hl)
              | none =>
                cases hr : b'.items.get (verKey n q) with
                | none => rfl
                | some v =>
                  have := (hc _ _).1 hr
                  simp only [List.nil_append] at this
                  rw [(KMap.mem_iff_get _ _ _).1 this] at hl; cases hl
            rw [hvs]
            simp only [getVer, hb', hb, hbb]

theorem sameObject_congr {a b c : Store} {k : Str} (h1 : c.metas.get k = b.metas.get k)
    (h2 : c.vers.get k = b.vers.get k) (h : SameObject a b k) : SameObject a c k := by
  obtain ⟨⟨ma, mb, e1, e2, e3, e4⟩, hv⟩ := h
  refine ⟨⟨ma, mb, e1, ?_, e3, e4⟩, fun q => ?_⟩
  · unfold getMeta at e2 ⊢; rw [h1]; exact e2
  · rw [← hv q]; unfold getVer; rw [h2]

theorem sendObjects_spec (e : Env32) {mv : Str → Bool} {src : Store} (hi : Inv src)
    (hh : ∀ k q v k' q' v', mv k = true → mv k' = true → getVer src k q = .ok v →
      getVer src k' q' = .ok v' → v.uniqueId ≠ v'.hash) (l : List Str) (hn : l.Nodup)
    (hl : ∀ k ∈ l, mv k = true ∧ src.metas.get k ≠ none) (x : Xfer)
    (hdis : ∀ k ∈ x.delM, k ∉ l)
    (hsame : ∀ k ∈ x.delM, mv k = true ∧ SameObject src x.tgt k)
    (hm : ∀ k ∈ l, x.tgt.metas.get k = none) (hu : UidClean mv src x.tgt) :
    let y := l.foldl (sendObject e src) x
    y.tgt.buckets = x.tgt.buckets ∧
    (∀ k, k ∉ l → y.tgt.metas.get k = x.tgt.metas.get k ∧ y.tgt.vers.get k = x.tgt.vers.get k) ∧
    (∀ k ∈ y.delM, mv k = true ∧ SameObject src y.tgt k) ∧ y.delB = x.delB ∧
    (y.ok = true → x.ok = true ∧ ∀ k ∈ l, k ∈ y.delM) ∧ (∀ k ∈ x.delM, k ∈ y.delM) := by
  induction l generalizing x with
  | nil => exact ⟨rfl, fun _ _ => ⟨rfl, rfl⟩, hsame, rfl, fun h => ⟨h, by simp⟩, fun _ h => h⟩
  | cons n l ih =>
    simp only [List.foldl_cons]
    have hfr := sendObject_spec e hi (hl n (by simp)).1 (hl n (by simp)).2 x (hm n (by simp)) hu hh
    rw [List.nodup_cons] at hn
    have hcong : ∀ k ∈ x.delM, SameObject src (sendObject e src x n).tgt k := by
      intro k hk
      have hkn : k ≠ n := fun h => hdis k hk (by simp [h])
      exact sameObject_congr (hfr.other k hkn).1 (hfr.other k hkn).2 (hsame k hk).2
    have := ih hn.2 (fun k hk => hl k (by simp [hk])) (sendObject e src x n)
      (by
        intro k hk
        rcases hfr.delM with ⟨h, _⟩ | ⟨h, _⟩
        · rw [h] at hk; exact fun hc => hdis k hk (by simp [hc])
        · rw [h] at hk
          rcases List.mem_cons.1 hk with rfl | hk
          · exact hn.1
          · exact fun hc => hdis k hk (by simp [hc]))
      (by
        intro k hk
        rcases hfr.delM with ⟨h, _⟩ | ⟨h, _, hs⟩
        · rw [h] at hk; exact ⟨(hsame k hk).1, hcong k hk⟩
        · rw [h] at hk
          rcases List.mem_cons.1 hk with rfl | hk
          · exact ⟨(hl k (by simp)).1, hs⟩
          · exact ⟨(hsame k hk).1, hcong k hk⟩)
      (by
        intro k hk
        have hkn : k ≠ n := fun h => hn.1 (h ▸ hk)
        rw [(hfr.other k hkn).1]
        exact hm k (by simp [hk])) hfr.uid
    obtain ⟨r1, r2, r3, r4, r5, r6⟩ := this
    refine ⟨r1.trans hfr.buckets, ?_, r3, r4.trans hfr.delB, ?_, ?_⟩
    · intro k hk
      simp only [List.mem_cons, not_or] at hk
      obtain ⟨a, b⟩ := r2 k hk.2
      obtain ⟨c, d⟩ := hfr.other k hk.1
      exact ⟨a.trans c, b.trans d⟩
    · intro hok
      obtain ⟨h1, h2⟩ := r5 hok
      rcases hfr.delM with ⟨_, h⟩ | ⟨h, h', _⟩
      · rw [h] at h1; cases h1
      · refine ⟨h' ▸ h1, ?_⟩
        intro k hk
        rcases List.mem_cons.1 hk with rfl | hk
        · exact r6 k (by rw [h]; simp)
        · exact h2 k hk
    · intro k hk
      refine r6 k ?_
      rcases hfr.delM with ⟨h, _⟩ | ⟨h, _⟩ <;> rw [h] <;> simp [hk]

theorem sendBuckets_spec (e : Env32) {mv : Str → Bool} {src : Store}
    (hname : ∀ k b, src.buckets.get k = some b → b.name = k) (l : List Str) (hn : l.Nodup)
    (hl : ∀ k ∈ l, mv k = true ∧ src.buckets.get k ≠ none) (x : Xfer)
    (hdis : ∀ k ∈ x.delB, k ∉ l)
    (hsame : ∀ k ∈ x.delB, mv k = true ∧ SameBucket src x.tgt k)
    (hm : ∀ k ∈ l, x.tgt.buckets.get k = none) :
    let y := l.foldl (sendBucket e src) x
    y.tgt.metas = x.tgt.metas ∧ y.tgt.vers = x.tgt.vers ∧
    (∀ k, k ∉ l → y.tgt.buckets.get k = x.tgt.buckets.get k) ∧
    (∀ k ∈ y.delB, mv k = true ∧ SameBucket src y.tgt k) ∧ y.delM = x.delM ∧
    (y.ok = true → x.ok = true ∧ ∀ k ∈ l, k ∈ y.delB) ∧ (∀ k ∈ x.delB, k ∈ y.delB) := by
  induction l generalizing x with
  | nil => exact ⟨rfl, rfl, fun _ _ => rfl, hsame, rfl, fun h => ⟨h, by simp⟩, fun _ h => h⟩
  | cons n l ih =>
    simp only [List.foldl_cons]
    rw [List.nodup_cons] at hn
    obtain ⟨hmvn, hinn⟩ := hl n (by simp)
    obtain ⟨b, hb⟩ : ∃ b, src.buckets.get n = some b := by
      cases h : src.buckets.get n with
      | none => exact absurd h hinn
      | some b => exact ⟨b, rfl⟩
    have hbn := hname n b hb
    obtain ⟨h1, h2, h3, h4, h5⟩ := exchange_spec e (.bucket b) x
    have fr : (exchange e (.bucket b) x).2.tgt.metas = x.tgt.metas ∧
        (exchange e (.bucket b) x).2.tgt.vers = x.tgt.vers ∧
        ∀ k, k ≠ n → (exchange e (.bucket b) x).2.tgt.buckets.get k = x.tgt.buckets.get k := by
      rcases h4 with h4 | h4
      · rw [h4]; exact ⟨rfl, rfl, fun _ _ => rfl⟩
      · rw [h4]
        obtain ⟨f1, f2, _, f4⟩ := bucketCreate_frame x.tgt { b with createTime := e.now x.n, updateTime := e.now x.n }
        exact ⟨f1, f2, fun k hk => f4 k (by simpa [hbn] using hk)⟩
    have hsb : ∃ y, sendBucket e src x n = y ∧ y.tgt = (exchange e (.bucket b) x).2.tgt ∧ y.delM = x.delM ∧
        (y.delB = x.delB ∧ y.ok = false ∨ y.delB = n :: x.delB ∧ y.ok = x.ok ∧ SameBucket src y.tgt n) := by
      refine ⟨_, rfl, ?_⟩
      unfold sendBucket
      simp only [hb]
      split
      · rename_i hf
        rw [hf, Bool.and_false] at h3
        exact ⟨rfl, h1, .inl ⟨h2, h3⟩⟩
      · rename_i hf
        have hf : (exchange e (.bucket b) x).1 = true := by simpa using hf
        obtain ⟨ht, ha⟩ := h5 hf
        refine ⟨rfl, h1, .inr ⟨by simp only [h2], ?_, ?_⟩⟩
        · show (exchange e (.bucket b) x).2.ok = x.ok
          rw [h3, hf, Bool.and_true]
        · have hst := bucketCreate_stored (d := { b with createTime := e.now x.n, updateTime := e.now x.n })
            (s := x.tgt) (n := n) hbn (hm n (by simp)) ha
          refine ⟨b, { b with createTime := e.now x.n, updateTime := e.now x.n }, ?_, ?_, rfl⟩
          · simp [bucketGet, hb]
          · show bucketGet (exchange e (.bucket b) x).2.tgt n = _
            rw [ht]
            simp only [bucketGet]
            simp only [Item.op, hst]
    obtain ⟨y, hy, hyt, hym, hyb⟩ := hsb
    rw [hy]
    have hcong : ∀ k ∈ x.delB, SameBucket src y.tgt k := by
      intro k hk
      have hkn : k ≠ n := fun h => hdis k hk (by simp [h])
      obtain ⟨p, q, e1, e2, e3⟩ := (hsame k hk).2
      refine ⟨p, q, e1, ?_, e3⟩
      unfold bucketGet at e2 ⊢
      rw [hyt, fr.2.2 k hkn]; exact e2
    have := ih hn.2 (fun k hk => hl k (by simp [hk])) y
      (by
        intro k hk
        rcases hyb with ⟨h, _⟩ | ⟨h, _⟩
        · rw [h] at hk; exact fun hc => hdis k hk (by simp [hc])
        · rw [h] at hk
          rcases List.mem_cons.1 hk with rfl | hk
          · exact hn.1
          · exact fun hc => hdis k hk (by simp [hc]))
      (by
        intro k hk
        rcases hyb with ⟨h, _⟩ | ⟨h, _, hs⟩
        · rw [h] at hk; exact ⟨(hsame k hk).1, hcong k hk⟩
        · rw [h] at hk
          rcases List.mem_cons.1 hk with rfl | hk
          · exact ⟨hmvn, hs⟩
          · exact ⟨(hsame k hk).1, hcong k hk⟩)
      (by
        intro k hk
        have hkn : k ≠ n := fun h => hn.1 (h ▸ hk)
        rw [hyt, fr.2.2 k hkn]
        exact hm k (by simp [hk]))
    obtain ⟨r1, r2, r3, r4, r5, r6, r7⟩ := this
    refine ⟨r1.trans (by rw [hyt]; exact fr.1), r2.trans (by rw [hyt]; exact fr.2.1), ?_, r4, r5.trans hym, ?_, ?_⟩
    · intro k hk
      simp only [List.mem_cons, not_or] at hk
      rw [r3 k hk.2, hyt]
      exact fr.2.2 k hk.1
    · intro hok
      obtain ⟨g1, g2⟩ := r6 hok
      rcases hyb with ⟨_, h⟩ | ⟨h, h', _⟩
      · rw [h] at g1; cases g1
      · refine ⟨h' ▸ g1, ?_⟩
        intro k hk
        rcases List.mem_cons.1 hk with rfl | hk
        · exact r7 k (by rw [h]; simp)
        · exact g2 k hk
    · intro k hk
      refine r7 k ?_
      rcases hyb with ⟨h, _⟩ | ⟨h, _⟩ <;> rw [h] <;> simp [hk]

/-- Everything about a transfer to a clean target. -/
theorem transfer_spec (e : Env32) {mv : Str → Bool} {src tgt : Store} (hs : Reachable src)
    (hc : Clean mv src tgt) :
    let y := transfer e mv src tgt
    (∀ k, mv k = false → y.tgt.metas.get k = tgt.metas.get k ∧ y.tgt.vers.get k = tgt.vers.get k ∧
      y.tgt.buckets.get k = tgt.buckets.get k) ∧
    (∀ k ∈ y.delM, mv k = true ∧ SameObject src y.tgt k) ∧
    (∀ k ∈ y.delB, mv k = true ∧ SameBucket src y.tgt k) ∧
    (y.ok = true → ∀ k, mv k = true → (src.metas.get k ≠ none → k ∈ y.delM) ∧
      (src.buckets.get k ≠ none → k ∈ y.delB)) := by
  have hmem : ∀ {α : Type} (m : KMap α) k, k ∈ m.keys.filter mv ↔ m.get k ≠ none ∧ mv k = true := by
    intro α m k
    rw [List.mem_filter, KMap.mem_keys_iff]
    cases m.get k <;> simp
  have hmn : ∀ k, mv k = true → tgt.metas.get k = none := by
    intro k hk
    have := hc.metas k hk
    unfold getMeta at this
    cases h : tgt.metas.get k with
    | none => rfl
    | some m => rw [h] at this; cases this
  have hbn : ∀ k, mv k = true → tgt.buckets.get k = none := by
    intro k hk
    have := hc.buckets k hk
    unfold bucketGet at this
    cases h : tgt.buckets.get k with
    | none => rfl
    | some m => rw [h] at this; cases this
  obtain ⟨a1, a2, a3, a4, a5, _⟩ := sendObjects_spec e (inv_reachable hs) hc.hashes (src.metas.keys.filter mv)
    ((KMap.keys_nodup _).filter _) (fun k hk => ((hmem _ k).1 hk).symm) ⟨tgt, 0, true, [], []⟩
    (by simp) (by simp) (fun k hk => hmn k ((hmem _ k).1 hk).2) hc.uids
  obtain ⟨b1, b2, b3, b4, b5, b6, _⟩ := sendBuckets_spec e (bucketName_reachable hs) (src.buckets.keys.filter mv)
    ((KMap.keys_nodup _).filter _) (fun k hk => ((hmem _ k).1 hk).symm)
    ((src.metas.keys.filter mv).foldl (sendObject e src) ⟨tgt, 0, true, [], []⟩)
    (by rw [a4]; simp) (by rw [a4]; simp)
    (by intro k hk; rw [a1]; exact hbn k ((hmem _ k).1 hk).2)
  refine ⟨?_, ?_, b4, ?_⟩
  · intro k hk
    have hk1 : k ∉ src.metas.keys.filter mv := fun h => by
      have := ((hmem _ k).1 h).2; rw [hk] at this; cases this
    have hk2 : k ∉ src.buckets.keys.filter mv := fun h => by
      have := ((hmem _ k).1 h).2; rw [hk] at this; cases this
    refine ⟨?_, ?_, ?_⟩
    · show (transfer e mv src tgt).tgt.metas.get k = _
      unfold transfer; rw [b1]; exact (a2 k hk1).1
    · show (transfer e mv src tgt).tgt.vers.get k = _
      unfold transfer; rw [b2]; exact (a2 k hk1).2
    · show (transfer e mv src tgt).tgt.buckets.get k = _
      unfold transfer; rw [b3 k hk2, a1]
  · intro k hk
    have hk' : k ∈ ((src.metas.keys.filter mv).foldl (sendObject e src) ⟨tgt, 0, true, [], []⟩).delM := by
      rw [← b5]; exact hk
    obtain ⟨h1, h2⟩ := a3 k hk'
    refine ⟨h1, sameObject_congr ?_ ?_ h2⟩
    · unfold transfer; rw [b1]
    · unfold transfer; rw [b2]
  · intro hok k hk
    obtain ⟨g1, g2⟩ := b6 hok
    obtain ⟨_, g4⟩ := a5 g1
    refine ⟨fun h => ?_, fun h => g2 k ((hmem _ k).2 ⟨h, hk⟩)⟩
    show k ∈ (transfer e mv src tgt).delM
    unfold transfer
    rw [b5]
    exact g4 k ((hmem _ k).2 ⟨h, hk⟩)

theorem removeMetas_frame (ms : List Str) (s : Store) :
    (ms.foldl (fun s n => (step s (.removeMeta n)).2) s).buckets = s.buckets ∧
    ∀ k, k ∉ ms → (ms.foldl (fun s n => (step s (.removeMeta n)).2) s).metas.get k = s.metas.get k ∧
      (ms.foldl (fun s n => (step s (.removeMeta n)).2) s).vers.get k = s.vers.get k := by
  induction ms generalizing s with
  | nil => exact ⟨rfl, fun _ _ => ⟨rfl, rfl⟩⟩
  | cons n ms ih =>
    simp only [List.foldl_cons]
    obtain ⟨h1, h2⟩ := ih (step s (.removeMeta n)).2
    have hf : (step s (.removeMeta n)).2.buckets = s.buckets ∧
        ∀ k, k ≠ n → (step s (.removeMeta n)).2.metas.get k = s.metas.get k ∧
          (step s (.removeMeta n)).2.vers.get k = s.vers.get k := by
      obtain ⟨s', hs'⟩ := removeMeta_never_fails n s
      have : (step s (.removeMeta n)).2 = s' := by simp only [step, update, hs']
      rw [this]
      rcases removeMeta_ok hs' with ⟨_, rfl⟩ | ⟨_, rfl⟩
      · exact ⟨rfl, fun _ _ => ⟨rfl, rfl⟩⟩
      · exact ⟨rfl, fun k hk => ⟨KMap.get_del_ne _ hk, KMap.get_del_ne _ hk⟩⟩
    refine ⟨h1.trans hf.1, ?_⟩
    intro k hk
    simp only [List.mem_cons, not_or] at hk
    obtain ⟨a, b⟩ := h2 k hk.2
    obtain ⟨c, d⟩ := hf.2 k hk.1
    exact ⟨a.trans c, b.trans d⟩

theorem bucketDeletes_frame (bs : List Str) (s : Store) :
    (bs.foldl (fun s n => (step s (.bucketDelete n)).2) s).metas = s.metas ∧
    (bs.foldl (fun s n => (step s (.bucketDelete n)).2) s).vers = s.vers ∧
    ∀ k, k ∉ bs → (bs.foldl (fun s n => (step s (.bucketDelete n)).2) s).buckets.get k = s.buckets.get k := by
  induction bs generalizing s with
  | nil => exact ⟨rfl, rfl, fun _ _ => rfl⟩
  | cons n bs ih =>
    simp only [List.foldl_cons]
    obtain ⟨h1, h2, h3⟩ := ih (step s (.bucketDelete n)).2
    refine ⟨h1, h2, ?_⟩
    intro k hk
    simp only [List.mem_cons, not_or] at hk
    rw [h3 k hk.2]
    exact KMap.get_del_ne _ hk.1

theorem deletions_frame (s : Store) (ms bs : List Str) (k : Str) :
    (k ∉ ms → (deletions s ms bs).metas.get k = s.metas.get k ∧ (deletions s ms bs).vers.get k = s.vers.get k) ∧
    (k ∉ bs → (deletions s ms bs).buckets.get k = s.buckets.get k) := by
  obtain ⟨a1, a2⟩ := removeMetas_frame ms s
  obtain ⟨b1, b2, b3⟩ := bucketDeletes_frame bs (ms.foldl (fun s n => (step s (.removeMeta n)).2) s)
  unfold deletions
  constructor
  · intro h; rw [b1, b2]; exact a2 k h
  · intro h; rw [b3 k h, a1]

theorem sameObject_refl {s : Store} {k : Str} {m : Metadata} (h : getMeta s k = .ok m) : SameObject s s k :=
  ⟨⟨m, m, h, h, rfl, rfl⟩, fun _ => rfl⟩

theorem sameBucket_refl {s : Store} {k : Str} {b : Bucket} (h : bucketGet s k = .ok b) : SameBucket s s k :=
  ⟨b, b, h, h, rfl⟩

theorem sameBucket_congr {a b c : Store} {k : Str} (h1 : c.buckets.get k = b.buckets.get k)
    (h : SameBucket a b k) : SameBucket a c k := by
  obtain ⟨x, y, e1, e2, e3⟩ := h
  refine ⟨x, y, e1, ?_, e3⟩
  unfold bucketGet at e2 ⊢; rw [h1]; exact e2

/-! ## Properties -/

/-- The object is still stored on a server that the published slots name for it. -/
def Served (w w' : World) (k : Str) : Prop :=
  Covers w'.srcE (calcBytesSlot k) ∧ SameObject w.src w'.src k ∨
    Covers w'.tgtE (calcBytesSlot k) ∧ SameObject w.src w'.tgt k

/-- The same for a bucket. -/
def ServedBucket (w w' : World) (k : Str) : Prop :=
  Covers w'.srcE (calcBytesSlot k) ∧ SameBucket w.src w'.src k ∨
    Covers w'.tgtE (calcBytesSlot k) ∧ SameBucket w.src w'.tgt k

/-- What `PrepareMigrationTo` and `PrepareMigrationFrom` make sure of: well formed slot lists, the
moving slots belong to the source and no slot to both. -/
structure SlotsOk (del srcE tgtE : List Edge) : Prop where
  delT : Tidy del
  srcT : Tidy srcE
  tgtT : NonEmpty tgtE
  own : ∀ x, Covers del x → Covers srcE x
  disj : ∀ x, ¬ (Covers srcE x ∧ Covers tgtE x)

/-- The started deletions, and only they, may run. -/
def RunsOnly (e : Env32) (del : List Edge) (w : World) (ms bs : List Str) : Prop :=
  (∀ k ∈ ms, k ∈ (transfer e (moves del) w.src w.tgt).delM) ∧
    ∀ k ∈ bs, k ∈ (transfer e (moves del) w.src w.tgt).delB

/-- **C32**, the full statement: after a migration, however it went, every object and bucket of the
source is still stored on a server that the published slots name for it. -/
def C32_statement : Prop :=
  ∀ (S : Sorter) (e : Env32) (fin : End) (del : List Edge) (ms bs : List Str) (w : World),
    Reachable w.src → Reachable w.tgt → Clean (moves del) w.src w.tgt → SlotsOk del w.srcE w.tgtE →
    RunsOnly e del w ms bs → ∀ k m, getMeta w.src k = .ok m → Covers w.srcE (calcBytesSlot k) →
      Served w (migrate S e fin del ms bs w) k

/-- **C32** (no copy is lost; partial): for every failure of the connection, of the target's store or
of etcd, at every point, and whichever of the started deletions ran: every object and every bucket of
the source is still complete on the source or complete on the target.

Missing: which of the two it is need not be the one the published slots name
(`C32_failed_item_hides`, `C32_etcd_failure_hides`, `C32_target_failure_hides`); and without `Clean`
the copy itself can be lost (`C32_move_back_loses`). -/
theorem C32_no_copy_lost_partial (S : Sorter) (e : Env32) (fin : End) (del : List Edge)
    (ms bs : List Str) (w : World) (hs : Reachable w.src) (hc : Clean (moves del) w.src w.tgt)
    (hr : RunsOnly e del w ms bs) (k : Str) :
    (∀ m, getMeta w.src k = .ok m → SameObject w.src (migrate S e fin del ms bs w).src k ∨
      SameObject w.src (migrate S e fin del ms bs w).tgt k) ∧
    ∀ b, bucketGet w.src k = .ok b → SameBucket w.src (migrate S e fin del ms bs w).src k ∨
      SameBucket w.src (migrate S e fin del ms bs w).tgt k := by
  obtain ⟨_, h2, h3, _⟩ := transfer_spec e hs hc
  obtain ⟨d1, d2⟩ := deletions_frame w.src ms bs k
  constructor
  · intro m hm
    by_cases hk : k ∈ ms
    · exact .inr (h2 k (hr.1 k hk)).2
    · exact .inl (sameObject_congr (d1 hk).1 (d1 hk).2 (sameObject_refl hm))
  · intro b hb
    by_cases hk : k ∈ bs
    · exact .inr (h3 k (hr.2 k hk)).2
    · exact .inl (sameBucket_congr (d2 hk) (sameBucket_refl hb))

/-- **C32** (a successful migration; partial): when every item arrived and both servers published
their slots, every object and bucket of the source is served, by exactly one of the servers, and so is
everything the target had before.

Missing: the other endings, see `C32_statement` and the theorems that refute it; and the times of
the metadata, `C32_times_rewritten`. -/
theorem C32_success_partial (S : Sorter) (e : Env32) (del : List Edge) (ms bs : List Str) (w : World)
    (hs : Reachable w.src) (hc : Clean (moves del) w.src w.tgt) (ho : SlotsOk del w.srcE w.tgtE)
    (hr : RunsOnly e del w ms bs) (hok : (transfer e (moves del) w.src w.tgt).ok = true) (k : Str) :
    let w' := migrate S e .done del ms bs w
    (Covers w.srcE (calcBytesSlot k) →
      (∀ m, getMeta w.src k = .ok m → Served w w' k) ∧ ∀ b, bucketGet w.src k = .ok b → ServedBucket w w' k) ∧
    (Covers w.tgtE (calcBytesSlot k) → Covers w'.tgtE (calcBytesSlot k) ∧
      (∀ m, getMeta w.tgt k = .ok m → SameObject w.tgt w'.tgt k) ∧
      ∀ b, bucketGet w.tgt k = .ok b → SameBucket w.tgt w'.tgt k) ∧
    (∀ x, Covers w'.srcE x ∨ Covers w'.tgtE x ↔ Covers w.srcE x ∨ Covers w.tgtE x) ∧
    (∀ x, ¬ (Covers w'.srcE x ∧ Covers w'.tgtE x)) := by
  obtain ⟨h1, h2, h3, h4⟩ := transfer_spec e hs hc
  obtain ⟨d1, d2⟩ := deletions_frame w.src ms bs k
  have h4 := h4 hok k
  have hmv : moves del k = true ↔ Covers del (calcBytesSlot k) := isSlotInEdges_iff ho.delT _
  have hp : (migrate S e .done del ms bs w).srcE = removeEdges w.srcE del ∧
      (migrate S e .done del ms bs w).tgtE = combineEdges S w.tgtE del := by
    simp [migrate, publish, hok]
  obtain ⟨hrt, hru⟩ := removeEdges_spec w.srcE del ho.srcT ho.delT.1
  obtain ⟨_, hcu⟩ := combineEdges_spec S w.tgtE del ho.tgtT ho.delT.1
  have hsc : ∀ x, Covers (removeEdges w.srcE del) x ↔ Covers w.srcE x ∧ ¬ Covers del x := by
    intro x
    rw [covers_iff_owns, covers_iff_owns w.srcE]
    constructor
    · rintro ⟨u, hu⟩; have := (hru u x).1 hu; exact ⟨⟨u, this.1⟩, this.2⟩
    · rintro ⟨⟨u, hu⟩, h⟩; exact ⟨u, (hru u x).2 ⟨hu, h⟩⟩
  simp only [hp.1, hp.2, Served, ServedBucket]
  refine ⟨?_, ?_, ?_, ?_⟩
  · intro hcov
    by_cases hd : Covers del (calcBytesSlot k)
    · have hm := hmv.2 hd
      constructor
      · intro m hmm
        refine .inr ⟨(hcu _).2 (.inr hd), (h2 k ((h4 hm).1 ?_)).2⟩
        rw [(getMeta_ok_iff _ _ _).1 hmm]; simp
      · intro b hbb
        refine .inr ⟨(hcu _).2 (.inr hd), (h3 k ((h4 hm).2 ?_)).2⟩
        unfold bucketGet at hbb
        intro hn; rw [hn] at hbb; cases hbb
    · have hnm : ∀ l : List Str, (∀ x ∈ l, moves del x = true) → k ∉ l :=
        fun l hl hk => hd (hmv.1 (hl k hk))
      have km : k ∉ ms := hnm ms fun x hx => (h2 x (hr.1 x hx)).1
      have kb : k ∉ bs := hnm bs fun x hx => (h3 x (hr.2 x hx)).1
      constructor
      · intro m hmm
        exact .inl ⟨(hsc _).2 ⟨hcov, hd⟩, sameObject_congr (d1 km).1 (d1 km).2 (sameObject_refl hmm)⟩
      · intro b hbb
        exact .inl ⟨(hsc _).2 ⟨hcov, hd⟩, sameBucket_congr (d2 kb) (sameBucket_refl hbb)⟩
  · intro hcov
    have hd : moves del k = false := by
      cases hh : moves del k with
      | false => rfl
      | true => exact absurd ⟨ho.own _ (hmv.1 hh), hcov⟩ (ho.disj _)
    obtain ⟨g1, g2, g3⟩ := h1 k hd
    exact ⟨(hcu _).2 (.inl hcov), fun m hm => sameObject_congr g1 g2 (sameObject_refl hm),
      fun b hb => sameBucket_congr g3 (sameBucket_refl hb)⟩
  · intro x
    rw [hsc, hcu]
    constructor
    · rintro (⟨h, _⟩ | h | h)
      · exact .inl h
      · exact .inr h
      · exact .inl (ho.own x h)
    · rintro (h | h)
      · by_cases hdel : Covers del x
        · exact .inr (.inr hdel)
        · exact .inl ⟨h, hdel⟩
      · exact .inr (.inl h)
  · rintro x ⟨a, b⟩
    rw [hsc] at a
    rw [hcu] at b
    rcases b with b | b
    · exact ho.disj x ⟨a.1, b⟩
    · exact a.2 b

/-! ## A concrete migration -/

/-- Two objects with a version each, and a bucket. -/
def exOps : List Op :=
  [.addMeta "a".toList ⟨"a".toList, "b".toList, 1, 1⟩,
   .addVer "a".toList (sampleVer "h1".toList "u1".toList 1),
   .addMeta "c".toList ⟨"c".toList, "b".toList, 2, 2⟩,
   .addVer "c".toList (sampleVer "h2".toList "u2".toList 2),
   .bucketCreate (sampleBucket "b".toList 3)]

def exSrc : Store := (run .empty exOps).2

def exAll : List Edge := [⟨0, 16384, []⟩]

def exWorld : World := ⟨exSrc, .empty, exAll, []⟩

/-- Everything works. -/
def exEnv : Env32 := ⟨fun _ => .works, fun _ => 9⟩

theorem moves_all (k : Str) : moves exAll k = true := by
  have ht : Tidy exAll := by simp [Tidy, NonEmpty, exAll]
  refine (isSlotInEdges_iff ht _).2 ⟨⟨0, 16384, []⟩, by simp [exAll], ?_⟩
  exact C03_slot_range k

theorem exSrc_reachable : Reachable exSrc := ⟨exOps, rfl⟩

theorem covers_all (k : Str) : Covers exAll (calcBytesSlot k) :=
  ⟨⟨0, 16384, []⟩, by simp [exAll], C03_slot_range k⟩

theorem exSlots_ok : SlotsOk exAll exWorld.srcE exWorld.tgtE where
  delT := by simp [Tidy, NonEmpty, exAll]
  srcT := by simp [Tidy, NonEmpty, exAll, exWorld]
  tgtT := by simp [NonEmpty, exWorld]
  own := fun _ h => h
  disj := by simp [Covers, exWorld]

/-- The versions of the example. -/
theorem exSrc_versions {k : Str} {q : Nat} {v : Version} (h : getVer exSrc k q = .ok v) :
    v.uniqueId ∈ ["u1".toList, "u2".toList] ∧ v.hash ∈ ["h1".toList, "h2".toList] := by
  obtain ⟨b, hb, hv⟩ := (getVer_ok_iff _ _ _ _).1 h
  have h1 := (KMap.mem_iff_get exSrc.vers k b).2 hb
  have h2 := (KMap.mem_iff_get b.items _ v).2 hv
  have all : ∀ p ∈ exSrc.vers.entries, ∀ r ∈ p.2.items.entries,
      r.2.uniqueId ∈ ["u1".toList, "u2".toList] ∧ r.2.hash ∈ ["h1".toList, "h2".toList] := by decide
  exact all _ h1 _ h2

theorem exClean (mv : Str → Bool) : Clean mv exSrc .empty where
  metas := fun k _ => by simp [getMeta, Store.empty, KMap.get_empty]
  buckets := fun k _ => by simp [bucketGet, Store.empty, KMap.get_empty]
  uids := fun k q v _ _ => by simp [existsByUniqueId, getIndex, Store.empty, KMap.get_empty]
  hashes := by
    intro k q v k' q' v' _ _ h h' heq
    have h1 := (exSrc_versions h).1
    have h2 := (exSrc_versions h').2
    rw [heq] at h1
    have : ∀ x ∈ ["h1".toList, "h2".toList], x ∉ ["u1".toList, "u2".toList] := by decide
    exact this _ h2 h1

/-- The hypotheses of `C32_success_partial` are met: all items arrive, all deletions run. -/
example : (transfer exEnv (fun _ => true) exSrc .empty).ok = true ∧
    (transfer exEnv (fun _ => true) exSrc .empty).delM = ["c".toList, "a".toList] ∧
    (transfer exEnv (fun _ => true) exSrc .empty).delB = ["b".toList] ∧
    getVer (transfer exEnv (fun _ => true) exSrc .empty).tgt "c".toList 1 = getVer exSrc "c".toList 1 :=
  ⟨rfl, rfl, rfl, rfl⟩

/-! ## Findings -/

theorem transfer_all (e : Env32) (src tgt : Store) :
    transfer e (moves exAll) src tgt = transfer e (fun _ => true) src tgt := by
  have : moves exAll = fun _ => true := funext moves_all
  rw [this]

/-- **C32** (finding): the connection breaks after the first object.  Its copy at the source is
deleted, the source keeps its slots, the target gets none: the object is on the wrong server. -/
theorem C32_failed_item_hides :
    let e : Env32 := ⟨fun n => if n < 2 then .works else .itemLost, fun _ => 9⟩
    RunsOnly e exAll exWorld ["a".toList] [] ∧
      ¬ Served exWorld (migrate insertionSorter e .done exAll ["a".toList] [] exWorld) "a".toList := by
  refine ⟨⟨?_, by simp⟩, ?_⟩
  · rw [show exWorld.src = exSrc from rfl, show exWorld.tgt = Store.empty from rfl, transfer_all]
    decide
  · rintro (⟨_, ⟨⟨_, mb, _, h, _⟩, _⟩⟩ | ⟨h, _⟩)
    · have : getMeta (deletions exSrc ["a".toList] []) "a".toList = .error .notFound := rfl
      rw [show (migrate insertionSorter _ End.done exAll ["a".toList] [] exWorld).src
        = deletions exSrc ["a".toList] [] from rfl, this] at h
      cases h
    · have hno : (transfer ⟨fun n => if n < 2 then Link.works else .itemLost, fun _ => 9⟩ (moves exAll) exSrc .empty).ok = false := by
        rw [transfer_all]; decide
      simp only [migrate, exWorld, hno, publish, Covers] at h
      simp at h

/-- **C32** refuted by the previous finding. -/
theorem C32_statement_fails : ¬ C32_statement := by
  intro h
  obtain ⟨h1, h2⟩ := C32_failed_item_hides
  refine h2 (h _ _ _ _ _ _ _ exSrc_reachable ⟨[], rfl⟩ (exClean _) exSlots_ok h1 "a".toList
    ⟨"a".toList, "b".toList, 1, 1⟩ rfl ?_)
  exact covers_all _

/-- **C32** (finding): everything arrives, then the source cannot write its slots to etcd.  All
objects have been deleted at the source, which still owns all slots. -/
theorem C32_etcd_failure_hides :
    RunsOnly exEnv exAll exWorld ["a".toList, "c".toList] ["b".toList] ∧
      ∀ k, ¬ Served exWorld (migrate insertionSorter exEnv .sourceFails exAll ["a".toList, "c".toList] ["b".toList] exWorld) k := by
  refine ⟨⟨?_, ?_⟩, ?_⟩
  · rw [show exWorld.src = exSrc from rfl, show exWorld.tgt = Store.empty from rfl, transfer_all]
    decide
  · rw [show exWorld.src = exSrc from rfl, show exWorld.tgt = Store.empty from rfl, transfer_all]
    decide
  · rintro k (⟨_, ⟨⟨_, mb, _, h, _⟩, _⟩⟩ | ⟨h, _⟩)
    · have he : (deletions exSrc ["a".toList, "c".toList] ["b".toList]).metas.entries = [] := by decide
      have := (getMeta_ok_iff _ _ _).1 h
      have := (KMap.mem_iff_get _ _ _).2 this
      rw [show (migrate insertionSorter exEnv End.sourceFails exAll ["a".toList, "c".toList] ["b".toList] exWorld).src
        = deletions exSrc ["a".toList, "c".toList] ["b".toList] from rfl, he] at this
      cases this
    · have hno : (transfer exEnv (moves exAll) exSrc .empty).ok = true := by
        rw [transfer_all]; decide
      simp only [migrate, exWorld, hno, publish, Covers] at h
      simp at h

/-- **C32** (finding): the source has published that it gave its slots away, the target does not take
them (it timed out, it cannot reach etcd, or the call was cancelled before it saw the end of the
stream): no slot has an owner any more, every key is refused everywhere. -/
theorem C32_target_failure_hides (ms bs : List Str) :
    (migrate insertionSorter exEnv .targetFails exAll ms bs exWorld).srcE = [] ∧
      (migrate insertionSorter exEnv .targetFails exAll ms bs exWorld).tgtE = [] ∧
      ∀ k, ¬ Served exWorld (migrate insertionSorter exEnv .targetFails exAll ms bs exWorld) k := by
  have hno : (transfer exEnv (moves exAll) exSrc .empty).ok = true := by
    rw [transfer_all]; decide
  have h1 : (migrate insertionSorter exEnv .targetFails exAll ms bs exWorld).srcE = [] := by
    simp only [migrate, exWorld, hno, publish]
    decide
  have h2 : (migrate insertionSorter exEnv .targetFails exAll ms bs exWorld).tgtE = [] := by
    simp only [migrate, exWorld, hno, publish]
    simp
  refine ⟨h1, h2, ?_⟩
  rintro k (⟨h, _⟩ | ⟨h, _⟩)
  · rw [h1] at h; simp [Covers] at h
  · rw [h2] at h; simp [Covers] at h

/-- **C32** (finding): slots moved to another server and back.  `RemoveMeta` leaves the index of unique
ids behind (metadata_logic.go:58-75), so the first server still believes to have the versions: it
answers `ErrExists`, `ReceiveItem` turns that into success, and the second server deletes its copies.
Both migrations succeed, all deletions run, and no server has a version of any object. -/
theorem C32_move_back_loses :
    let x := transfer exEnv (fun _ => true) exSrc .empty
    let a1 := deletions exSrc x.delM x.delB
    let y := transfer exEnv (fun _ => true) x.tgt a1
    let b1 := deletions x.tgt y.delM y.delB
    x.ok = true ∧ y.ok = true ∧ getVer exSrc "a".toList 1 ≠ .error .notFound ∧
      versionsOf y.tgt "a".toList = [] ∧ versionsOf y.tgt "c".toList = [] ∧
      versionsOf b1 "a".toList = [] ∧ versionsOf b1 "c".toList = [] ∧
      getVer y.tgt "a".toList 1 = .error .notFound := by
  refine ⟨rfl, rfl, ?_, rfl, rfl, rfl, rfl, rfl⟩
  intro h
  cases h

/-- **C32** (finding): a migration sets the times of metadata and buckets to the time of the move
(`AddMetadata`, `Create`). -/
theorem C32_times_rewritten :
    getMeta exSrc "a".toList = .ok ⟨"a".toList, "b".toList, 1, 1⟩ ∧
      getMeta (transfer exEnv (fun _ => true) exSrc .empty).tgt "a".toList = .ok ⟨"a".toList, "b".toList, 9, 9⟩ :=
  ⟨rfl, rfl⟩

/-- **C32** (finding): the counter of version numbers does not move.  Versions 1 and 2 were added and 2
deleted; the source would give the next version the number 3, the target gives it 2 again. -/
theorem C32_number_reused :
    let s := (run .empty [.addMeta "a".toList ⟨"a".toList, "b".toList, 1, 1⟩,
      .addVer "a".toList (sampleVer "h1".toList "u1".toList 1),
      .addVer "a".toList (sampleVer "h2".toList "u2".toList 1), .removeVer "a".toList 2]).2
    let t := (transfer exEnv (fun _ => true) s .empty).tgt
    (step s (.addVer "a".toList (sampleVer "h3".toList "u3".toList 1))).1 = .seq 3 ∧
      (step t (.addVer "a".toList (sampleVer "h3".toList "u3".toList 1))).1 = .seq 2 := by
  decide

end Verif.Meta
