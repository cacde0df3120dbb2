import Verif.Meta.Props

/-!
# Object keys: C47

The API server addresses the metadata of the object `name` in `bucket` by the id `bucket + "/" + name`
(`fmt.Sprint(bucket, "/", name)`, src/apiserver/internal/usecase/repo/metadata_repo.go:19, 32 and
version_repo.go:23, 37, 47, 60; metadata_api.go:57 of the HTTP controller).  The store behind it is
`Verif.Meta.Model`.

`name` is the parameter `:name` of a route (objects_api.go:24-25, big_api.go, metadata_api.go:22-25): it is one
segment of the raw path (`UseRawPath`, `UnescapePathValues = false`, server.go:27-28) and so contains no `/`, unless the
request replaces it by a query parameter (`Verif.Api.Bind`, C85): see `Verif.Api.KeyShare`.
`bucket` is a header and may be any string.
-/

namespace Verif.Api

open Verif Verif.Meta

/-- See the head of this file. -/
def objectKey (bucket name : Str) : Str := bucket ++ '/' :: name

/-- The id an operation of the metadata server is addressed to (for search and relocation, which go by hash,
and for operations on buckets there is none). -/
def opTarget : Op → Option Str
  | .addMeta id _ => some id
  | .updateMeta id _ => some id
  | .removeMeta id => some id
  | .addVer n _ => some n
  | .migrateVer n _ => some n
  | .updateVer n _ => some n
  | .removeVer n _ => some n
  | .removeAllVersion n => some n
  | _ => none

/-- **C47**, for names without `/`: the key determines bucket and name.  (Missing: other names, `C47_statement_fails`.) -/
theorem C47_injective_partial (b b' n n' : Str) (h : '/' ∉ n) (h' : '/' ∉ n') (hk : objectKey b n = objectKey b' n') :
    b = b' ∧ n = n' := by
  have h1 := cutLast_append (sep := '/') (a := b) h
  have h2 := cutLast_append (sep := '/') (a := b') h'
  unfold objectKey at hk
  rw [hk, h2] at h1
  cases h1
  exact ⟨rfl, rfl⟩

example : objectKey ['a', '/', 'b'] ['c'] ≠ objectKey ['a'] ['b', 'c'] := by decide

/-- Everything the metadata server keeps about the object with id `k`. -/
def SameObject (s s' : Store) (k : Str) : Prop :=
  s'.metas.get k = s.metas.get k ∧ s'.vers.get k = s.vers.get k ∧
  ∀ h q, InIdx s'.hashIdx h (verKey k q) ↔ InIdx s.hashIdx h (verKey k q)

theorem sameObject_eff {t t' : Store} {op : Op} (he : Eff t op t') {i k : Str} (ht : opTarget op = some i)
    (hne : k ≠ i) : SameObject t t' k := by
  have other : ∀ {q q' : Nat}, ¬ verKey k q = verKey i q' := fun h => hne (verKey_inj h).1
  cases he with
  | addMeta id d =>
    cases ht
    exact ⟨KMap.get_put_ne _ _ hne, KMap.get_put_ne _ _ hne, fun _ _ => Iff.rfl⟩
  | removeMeta n =>
    cases ht
    exact ⟨KMap.get_del_ne _ hne, KMap.get_del_ne _ hne, fun _ _ => Iff.rfl⟩
  | updateMeta id d =>
    cases ht
    exact ⟨KMap.get_put_ne _ _ hne, rfl, fun _ _ => Iff.rfl⟩
  | addVer n d q b hi ui g1 g2 h1 h2 h3 h4 h5 h6 =>
    cases ht
    refine ⟨rfl, KMap.get_put_ne _ _ hne, fun h q' => ?_⟩
    show InIdx hi h (verKey k q') ↔ _
    rw [addIndex_ok h5]
    exact ⟨fun h => h.resolve_left fun h => other h.2, Or.inr⟩
  | migrateVer n d b hi ui g1 g2 h1 h3 h4 h5 h6 =>
    cases ht
    refine ⟨rfl, KMap.get_put_ne _ _ hne, fun h q' => ?_⟩
    show InIdx hi h (verKey k q') ↔ _
    rw [addIndex_ok h5]
    exact ⟨fun h => h.resolve_left fun h => other h.2, Or.inr⟩
  | updateVer n d b o =>
    cases ht
    exact ⟨rfl, KMap.get_put_ne _ _ hne, fun _ _ => Iff.rfl⟩
  | removeVer n q b v =>
    cases ht
    refine ⟨rfl, KMap.get_put_ne _ _ hne, fun h q' => ?_⟩
    show InIdx (removeIndex t.hashIdx v.hash (verKey i q)) h (verKey k q') ↔ _
    rw [removeIndex_iff]
    exact ⟨fun h => h.1, fun h => ⟨h, fun h => other h.2⟩⟩
  | removeAllVersion n b =>
    cases ht
    exact ⟨rfl, KMap.get_put_ne _ _ hne, fun _ _ => Iff.rfl⟩
  | _ => cases ht

theorem sameObject_step (s : Store) (op : Op) {i k : Str} (ht : opTarget op = some i) (hne : k ≠ i) :
    SameObject s (step s op).2 k := by
  refine step_induct (fun t => SameObject s t k) s op ⟨rfl, rfl, fun _ _ => Iff.rfl⟩ ?_
  intro op' t t' ho he h
  have : opTarget op' = some i := by
    rcases ho with rfl | ⟨hl, _⟩
    · exact ht
    · cases op <;> first | exact False.elim hl | (cases ht; done)
  obtain ⟨h1, h2, h3⟩ := sameObject_eff he this hne
  exact ⟨h1.trans h.1, h2.trans h.2.1, fun a q => (h3 a q).trans (h.2.2 a q)⟩

/-- All that can be read about the object with id `k`. -/
structure Reads where
  info : Except Err Metadata
  extra : Except Err Extra
  version : Int → Except Err Version
  page : Int → Int → Except Err (List Version × Nat)

/-- The reads of the metadata server (`Verif.Meta.Model`). -/
def readsOf (s : Store) (k : Str) : Reads :=
  ⟨getMeta s k, getExtra s k, getVersion s k, listVersions s k⟩

theorem readsOf_same {s s' : Store} {k : Str} (h : SameObject s s' k) : readsOf s' k = readsOf s k := by
  obtain ⟨h1, h2, _⟩ := h
  unfold readsOf getMeta getExtra getVersion getVer lastVersionNumber listVersions repoListVersions
  simp only [h1, h2]

/-- **C47**, for names without `/`: in any state, operations on one object — however many, and whatever they answer — change nothing
that can be read about an object with another bucket or another name, and none of its entries in the search
index. -/
theorem C47_isolated_partial (s : Store) (b n b' n' : Str) (h : '/' ∉ n) (h' : '/' ∉ n') (hne : (b, n) ≠ (b', n'))
    (ops : List Op) (ht : ∀ op ∈ ops, opTarget op = some (objectKey b n)) :
    readsOf (run s ops).2 (objectKey b' n') = readsOf s (objectKey b' n') ∧
    ∀ hash q, InIdx (run s ops).2.hashIdx hash (verKey (objectKey b' n') q) ↔
      InIdx s.hashIdx hash (verKey (objectKey b' n') q) := by
  have hk : objectKey b' n' ≠ objectKey b n := fun e => by
    obtain ⟨e1, e2⟩ := C47_injective_partial _ _ _ _ h' h e
    exact hne (by rw [e1, e2])
  induction ops generalizing s with
  | nil => exact ⟨rfl, fun _ _ => Iff.rfl⟩
  | cons op ops ih =>
    have h1 := sameObject_step s op (ht op (by simp)) hk
    obtain ⟨h2, h3⟩ := ih (step s op).2 (fun o ho => ht o (by simp [ho]))
    unfold run
    exact ⟨h2.trans (readsOf_same h1), fun a q => (h3 a q).trans (h1.2.2 a q)⟩

/-- Creating the object `c` of the bucket `a/b` beside the object `b` of the bucket `a`. -/
def exOps : List Op := [.addMeta (objectKey ['a', '/', 'b'] ['c']) (sampleMeta 1)]

example : (readsOf (run .empty exOps).2 (objectKey ['a', '/', 'b'] ['c'])).info = .ok (sampleMeta 1) ∧
    (readsOf (run .empty exOps).2 (objectKey ['a'] ['b'])).info = .error .notFound := by
  constructor <;> rfl

/-- Names with a separator break this. -/
theorem C47_needs_segments :
    objectKey ['a', '/', 'b'] ['c'] = objectKey ['a'] ['b', '/', 'c'] := by decide

/-- Listing by the prefix `a/` (as done for the bucket `a`) includes the objects of the bucket `a/b`: bucket
names are not checked when buckets are created (bucket_api.go:25-40). -/
theorem C47_listing_mixes_buckets :
    (listMetadata (run .empty exOps).2 (['a', '/']) 10).1 = [sampleMeta 1] := by rfl

end Verif.Api
