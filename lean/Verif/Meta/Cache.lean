import Verif.Meta.Replay
import Verif.Meta.Versions

/-!
# The metadata cache: C30

`MetadataRepo` and `BucketRepo` (src/metaserver/internal/usecase/repo/metadata_repo.go, bucket_repo.go)
keep a cache in front of the store (metadata_cache_repo.go, bucket_cache_repo.go).  All changes of the
cache are made by goroutines that are started after the store has been read or written.
-/

namespace Verif.Meta

open Verif

/-! ## Model -/

/-- A cached value: the encoding of one of the three kinds of records. -/
inductive CVal
  | mdata (m : Metadata)
  | ver (v : Version)
  | bucket (b : Bucket)
  deriving DecidableEq

/-- `MetaCachePrefix` ("metadata_"), metadata_cache_repo.go. -/
def metaPrefix : Str := ['m', 'e', 't', 'a', 'd', 'a', 't', 'a', '_']
/-- `BucketCachePrefix` ("bucket_"), bucket_cache_repo.go. -/
def bucketPrefix : Str := ['b', 'u', 'c', 'k', 'e', 't', '_']

/-- `fmt.Sprint(MetaCachePrefix, id)`, metadata_cache_repo.go:50, 92, 115. -/
def mkKey (id : Str) : Str := metaPrefix ++ id
/-- `fmt.Sprint(MetaCachePrefix, s, Sep, u)`, metadata_cache_repo.go:61, 97, 120. -/
def vkKey (n : Str) (q : Nat) : Str := metaPrefix ++ verKey n q
/-- `fmt.Sprint(BucketCachePrefix, name)`, bucket_cache_repo.go:24, 38, 43. -/
def bkKey (n : Str) : Str := bucketPrefix ++ n

/-- A change of the cache: `Set` or `Delete`, src/common/cache/cache.go:78-87. -/
inductive Act
  | set (k : Str) (x : CVal)
  | del (k : Str)
  deriving DecidableEq

abbrev Cache := KMap CVal

def Act.run (c : Cache) : Act → Cache
  | .set k x => c.put k x
  | .del k => c.del k

def perform (c : Cache) (l : List Act) : Cache := List.foldl Act.run c l

/-- The zero values, which decoding a record of another kind yields (all its fields are unknown and
skipped). -/
def zeroMeta : Metadata := ⟨[], [], 0, 0⟩
def zeroVer : Version := ⟨false, 0, 0, 0, 0, 0, 0, 0, [], [], []⟩

/-- The goroutine that a successful operation of the repositories starts (metadata_repo.go:32-181,
bucket_repo.go:42-76); `s` is the store before, `s'` the store after.  The operations complete the
record they are given in place, so the cached record is the stored one.  `UpdateLocateByHash`
(metadata_repo.go:390-411) and `ApplyIndex` start none.  `FindByHash` is left out of this model. -/
def cacheActs (s s' : Store) : Op → List Act
  | .addMeta id d => [.set (mkKey id) (.mdata d)]
  | .updateMeta id _ =>
    match s'.metas.get id with
    | some m => [.set (mkKey id) (.mdata m)]
    | none => []
  | .removeMeta n =>
    .del (mkKey n) :: (List.range' 1 (lastVersionNumber s n)).map fun i => .del (vkKey n i)
  | .addVer n d =>
    match s.vers.get n with
    | some b => [.set (vkKey n (b.seq + 1)) (.ver { d with sequence := b.seq + 1 })]
    | none => []
  | .migrateVer n d => [.set (vkKey n d.sequence) (.ver d)]
  | .updateVer n d =>
    match getVer s' n d.sequence with
    | .ok v => [.set (vkKey n v.sequence) (.ver v)]
    | .error _ => []
  | .removeVer n q => [.del (vkKey n q)]
  | .removeAllVersion n => (List.range (lastVersionNumber s n + 1)).map fun i => .del (vkKey n i)
  | .bucketCreate d => [.set (bkKey d.name) (.bucket d)]
  | .bucketUpdate d =>
    match s'.buckets.get d.name with
    | some b => [.set (bkKey d.name) (.bucket b)]
    | none => []
  | .bucketDelete n => [.del (bkKey n)]
  | .updateLocate .. => []
  | .findByHash _ => []
  | .applyIndex _ => []

/-- What happens to a server. -/
inductive CEv
  | op (o : Op)                -- a write through the repositories (no cluster)
  | readMeta (id : Str)
  | readVer (n : Str) (q : Nat)
  | readBucket (n : Str)
  | evict (k : Str)            -- time to live, capacity
  deriving DecidableEq

inductive CAns
  | res (r : Res)
  | mdata (r : Except Err Metadata)
  | ver (r : Except Err Version)
  | bucket (r : Except Err Bucket)
  | none

/-- `GetMetadata(id)`, metadata_repo.go:77-90: the answer and the goroutine. -/
def cachedMeta (s : Store) (c : Cache) (id : Str) : Except Err Metadata × List Act :=
  match c.get (mkKey id) with
  | some (.mdata m) => (.ok m, [])
  | some _ => (.ok zeroMeta, [])
  | none =>
    match getMeta s id with
    | .ok m => (.ok m, [.set (mkKey id) (.mdata m)])
    | .error e => (.error e, [])

/-- `GetVersion(name, ver)`, metadata_repo.go:225-238. -/
def cachedVer (s : Store) (c : Cache) (n : Str) (q : Nat) : Except Err Version × List Act :=
  match c.get (vkKey n q) with
  | some (.ver v) => (.ok v, [])
  | some _ => (.ok zeroVer, [])
  | none =>
    match getVer s n q with
    | .ok v => (.ok v, [.set (vkKey n v.sequence) (.ver v)])
    | .error e => (.error e, [])

/-- `BucketRepo.Get(name)`, bucket_repo.go:27-40.  Buckets have keys of their own, so no other kind of
record is found there. -/
def cachedBucket (s : Store) (c : Cache) (n : Str) : Except Err Bucket × List Act :=
  match c.get (bkKey n) with
  | some (.bucket b) => (.ok b, [])
  | _ =>
    match bucketGet s n with
    | .ok b => (.ok b, [.set (bkKey b.name) (.bucket b)])
    | .error e => (.error e, [])

/-- The answer, the store and the goroutine that is started. -/
def serveC (s : Store) (c : Cache) : CEv → CAns × Store × List Act
  | .op o =>
    let r := step s o
    (.res r.1, r.2, if r.1.success then cacheActs s r.2 o else [])
  | .readMeta id => let r := cachedMeta s c id; (.mdata r.1, s, r.2)
  | .readVer n q => let r := cachedVer s c n q; (.ver r.1, s, r.2)
  | .readBucket n => let r := cachedBucket s c n; (.bucket r.1, s, r.2)
  | .evict k => (.none, s, [.del k])

/-- A server with the goroutines that have not finished. -/
structure CSys where
  store : Store
  cache : Cache
  pend : List (List Act)
  deriving DecidableEq

def CSys.init : CSys := ⟨.empty, .empty, []⟩

/-- Steps of the server, in any order. -/
inductive AEv
  | ev (e : CEv)
  | go (i : Nat)              -- goroutine `i` makes its next change
  | apply (o : Op)            -- an entry of the replicated log: the batch repositories have no cache
  | restore (snap : Store)    -- Storage.Replace, db/storage.go:119-144

def astep (s : CSys) : AEv → CSys
  | .ev e => let r := serveC s.store s.cache e; ⟨r.2.1, s.cache, s.pend ++ [r.2.2]⟩
  | .go i =>
    match s.pend[i]? with
    | some (a :: rest) => { s with cache := a.run s.cache, pend := s.pend.set i rest }
    | _ => s
  | .apply o => { s with store := (step s.store o).2 }
  | .restore snap => { s with store := snap }

def arun (s : CSys) (es : List AEv) : CSys := List.foldl astep s es

/-- A server on which every goroutine finishes before the next request. -/
def seqStep (s : Store × Cache) (e : CEv) : CAns × Store × Cache :=
  let r := serveC s.1 s.2 e
  (r.1, r.2.1, perform s.2 r.2.2)

def seqRun (s : Store × Cache) : List CEv → List CAns × Store × Cache
  | [] => ([], s)
  | e :: es =>
    let r := seqStep s e
    let rest := seqRun r.2 es
    (r.1 :: rest.1, rest.2)

/-! ## Specification: a server without cache -/

def plainStep (s : Store) : CEv → CAns × Store
  | .op o => let r := step s o; (.res r.1, r.2)
  | .readMeta id => (.mdata (getMeta s id), s)
  | .readVer n q => (.ver (getVer s n q), s)
  | .readBucket n => (.bucket (bucketGet s n), s)
  | .evict _ => (.none, s)

def plainRun (s : Store) : List CEv → List CAns × Store
  | [] => ([], s)
  | e :: es =>
    let r := plainStep s e
    let rest := plainRun r.2 es
    (r.1 :: rest.1, rest.2)

/-- Reads give what the store gives. -/
def Fresh (s : CSys) : Prop :=
  (∀ id, (cachedMeta s.store s.cache id).1 = getMeta s.store id) ∧
  (∀ n q, (cachedVer s.store s.cache n q).1 = getVer s.store n q) ∧
  (∀ n, (cachedBucket s.store s.cache n).1 = bucketGet s.store n)

/-- The full property. -/
def AlwaysFresh : Prop := ∀ es, Fresh (arun .init es)

/-! ## The statement fails -/

def isOk {α : Type} : Except Err α → Bool
  | .ok _ => true
  | .error _ => false

/-- A read misses the cache; the object is removed and the removal cleans the cache; then the read fills
the cache. -/
def fillRaceEvents : List AEv :=
  [.ev (.op (.addMeta "b/a".toList (sampleMeta 1))), .go 0,
    .ev (.evict (mkKey "b/a".toList)), .go 1,
    .ev (.readMeta "b/a".toList), .ev (.op (.removeMeta "b/a".toList)), .go 3, .go 3, .go 2]

def fillRace : CSys := arun .init fillRaceEvents

/-- Until the entry expires the removed object can still be read. -/
theorem C30_fill_race :
    (cachedMeta fillRace.store fillRace.cache "b/a".toList).1 = .ok (sampleMeta 1) ∧
    getMeta fillRace.store "b/a".toList = .error .notFound := by
  constructor <;> rfl

/-- **C30 fails** as stated. -/
theorem C30_statement_fails : ¬ AlwaysFresh := by
  intro h
  have h' : Fresh fillRace := h fillRaceEvents
  have h2 := h'.1 "b/a".toList
  rw [C30_fill_race.1, C30_fill_race.2] at h2
  cases h2

/-- In a cluster the log is applied behind the back of the cache. -/
theorem C30_cluster_stale :
    let s := arun .init [.apply (.addMeta "b/a".toList (sampleMeta 1)), .ev (.readMeta "b/a".toList),
      .go 0, .apply (.removeMeta "b/a".toList)]
    isOk (cachedMeta s.store s.cache "b/a".toList).1 = true ∧
    isOk (getMeta s.store "b/a".toList) = false := by decide

/-- Restoring a snapshot does not clear the cache. -/
theorem C30_restore_stale :
    let s := arun .init [.ev (.op (.addMeta "b/a".toList (sampleMeta 1))), .go 0, .restore .empty]
    isOk (cachedMeta s.store s.cache "b/a".toList).1 = true ∧
    isOk (getMeta s.store "b/a".toList) = false := by decide

/-- Relocating the shards of a version does not touch the cache. -/
theorem C30_relocate_stale :
    let s := arun .init [.ev (.op (.addMeta "b/a".toList (sampleMeta 1))), .go 0,
      .ev (.op (.addVer "b/a".toList (sampleVer "h".toList "u".toList 1))), .go 1,
      .ev (.op (.updateLocate 9 "h".toList 0 "new".toList))]
    (cachedVer s.store s.cache "b/a".toList 1).1.toOption ≠
      (getVer s.store "b/a".toList 1).toOption := by decide

/-- An object called `a.1` and version 1 of object `a` share a cache entry: after the upload of the
version, reading the object gives an empty record. -/
theorem C30_key_collision :
    let s := arun .init [.ev (.op (.addMeta "a.1".toList (sampleMeta 1))), .go 0,
      .ev (.op (.addMeta "a".toList (sampleMeta 2))), .go 1,
      .ev (.op (.addVer "a".toList (sampleVer "h".toList "u".toList 1))), .go 2]
    (cachedMeta s.store s.cache "a.1".toList).1 = .ok zeroMeta ∧
    getMeta s.store "a.1".toList = .ok (sampleMeta 1) := by
  constructor <;> rfl

/-- Removing an object cleans the cache up to the number of its textually last version only: version
10 of a removed object can still be read, although everything happened in sequence. -/
theorem C30_version_ten_stale :
    let up : Nat → CEv := fun i =>
      .op (.addVer "a".toList (sampleVer "h".toList (fmtNat i) 1))
    let r := seqRun (.empty, .empty)
      ([.op (.addMeta "a".toList (sampleMeta 1))] ++ (List.range 10).map up ++
        [.op (.removeMeta "a".toList), .readVer "a".toList 10])
    (r.1.getLast?.map fun a => match a with | .ver v => isOk v | _ => false) = some true ∧
    isOk (getVer r.2.1 "a".toList 10) = false := by decide

/-! ## Partial: sequential use -/

theorem mkKey_inj {a b : Str} (h : mkKey a = mkKey b) : a = b := List.append_cancel_left h
theorem vkKey_inj {a b : Str} {p q : Nat} (h : vkKey a p = vkKey b q) : a = b ∧ p = q :=
  verKey_inj (List.append_cancel_left h)
theorem bkKey_inj {a b : Str} (h : bkKey a = bkKey b) : a = b := List.append_cancel_left h
theorem mk_ne_bk (a b : Str) : mkKey a ≠ bkKey b := by simp [mkKey, bkKey, metaPrefix, bucketPrefix]
theorem vk_ne_bk (a : Str) (q : Nat) (b : Str) : vkKey a q ≠ bkKey b := by simp [vkKey, bkKey, metaPrefix, bucketPrefix]
theorem mk_eq_vk {a n : Str} {q : Nat} (h : mkKey a = vkKey n q) : a = verKey n q :=
  List.append_cancel_left h

/-- Object names that do not look like the version key of another one. -/
def NoClash (P : Str → Prop) : Prop := ∀ id n q, P id → P n → id ≠ verKey n q

/-- A cache entry that repeats the store. -/
inductive Valid (P : Str → Prop) (s : Store) (k : Str) : CVal → Prop
  | mdata (id m) (h1 : P id) (h2 : k = mkKey id) (h3 : s.metas.get id = some m) : Valid P s k (.mdata m)
  | ver (n q v) (h1 : P n) (h2 : k = vkKey n q) (h3 : Stored s n q v) : Valid P s k (.ver v)
  | bucket (n b) (h2 : k = bkKey n) (h3 : s.buckets.get n = some b) : Valid P s k (.bucket b)

def Agree (P : Str → Prop) (s : Store) (c : Cache) : Prop := ∀ k x, c.get k = some x → Valid P s k x

theorem agree_put {P : Str → Prop} {s s' : Store} {c : Cache} {k : Str} {x : CVal} (h : Agree P s c)
    (h1 : ∀ k' x', k' ≠ k → Valid P s k' x' → Valid P s' k' x') (h2 : Valid P s' k x) :
    Agree P s' (c.put k x) := by
  intro k' x' hg
  rw [KMap.get_put] at hg
  by_cases hk : k' = k
  · rw [if_pos hk] at hg; cases hg; rw [hk]; exact h2
  · rw [if_neg hk] at hg; exact h1 k' x' hk (h k' x' hg)

theorem agree_dels {P : Str → Prop} {s s' : Store} {c : Cache} (ks : List Str) (h : Agree P s c)
    (h1 : ∀ k' x', k' ∉ ks → Valid P s k' x' → Valid P s' k' x') :
    Agree P s' (perform c (ks.map .del)) := by
  have hget : ∀ (ks : List Str) (c : Cache) k x, (perform c (ks.map .del)).get k = some x →
      k ∉ ks ∧ c.get k = some x := by
    intro ks
    induction ks with
    | nil => intro c k x h; exact ⟨by simp, h⟩
    | cons d ks ih =>
      intro c k x h
      obtain ⟨h1, h2⟩ := ih (c.del d) k x h
      rw [KMap.get_del] at h2
      split at h2
      · cases h2
      · rename_i hne
        exact ⟨by simp [hne, h1], h2⟩
  intro k x hg
  obtain ⟨hk, hc⟩ := hget ks c k x hg
  exact h1 k x hk (h k x hc)

theorem agree_same {P : Str → Prop} {s s' : Store} {c : Cache} (h : Agree P s c)
    (h1 : ∀ k' x', Valid P s k' x' → Valid P s' k' x') : Agree P s' c :=
  fun k x hg => h1 k x (h k x hg)

/-- The number of the textually last version of `n` bounds the numbers of its versions. -/
def LastOk (s : Store) (n : Str) : Prop :=
  ∀ q v, getVer s n q = .ok v → 1 ≤ q ∧ q ≤ lastVersionNumber s n

/-- What sequential use must respect: names without clashes; no relocation or search; removals of
objects whose version numbers are in textual order. -/
def EvOk (P : Str → Prop) (s : Store) : CEv → Prop
  | .op (.addMeta id _) | .op (.updateMeta id _) | .readMeta id => P id
  | .op (.removeMeta n) => P n ∧ LastOk s n
  | .op (.addVer n _) | .op (.migrateVer n _) | .op (.updateVer n _) | .op (.removeVer n _)
  | .readVer n _ => P n
  | .op (.removeAllVersion n) => P n ∧ LastOk s n
  | .op (.updateLocate ..) | .op (.findByHash _) => False
  | _ => True

/-- The condition along an execution. -/
def AllOk (P : Str → Prop) (s : Store) : List CEv → Prop
  | [] => True
  | e :: es => EvOk P s e ∧ AllOk P (plainStep s e).2 es

theorem valid_vers {P : Str → Prop} {s s' : Store} (hm : s'.metas = s.metas)
    (hb : s'.buckets = s.buckets) {k : Str} {x : CVal}
    (hv : ∀ n q v, k = vkKey n q → Stored s n q v → Stored s' n q v) (h : Valid P s k x) :
    Valid P s' k x := by
  cases h with
  | mdata id m h1 h2 h3 => exact .mdata id m h1 h2 (by rw [hm]; exact h3)
  | ver n q v h1 h2 h3 => exact .ver n q v h1 h2 (hv n q v h2 h3)
  | bucket n b h2 h3 => exact .bucket n b h2 (by rw [hb]; exact h3)

theorem stored_put_other {s : Store} {n : Str} {b b' : VBucket} {hI uI : KMap (KMap Unit)}
    {k0 : Str} {x0 : Version} (hb : s.vers.get n = some b) (hi : b'.items = b.items.put k0 x0)
    {n' : Str} {q' : Nat} {v' : Version} (hne : n' = n → verKey n' q' ≠ k0) (h : Stored s n' q' v') :
    Stored { s with vers := s.vers.put n b', hashIdx := hI, uidIdx := uI } n' q' v' := by
  obtain ⟨c, h1, h2⟩ := h
  by_cases hn : n' = n
  · subst hn
    rw [hb] at h1; cases h1
    refine ⟨b', by show (s.vers.put n' b').get n' = _; simp, ?_⟩
    rw [hi, KMap.get_put, if_neg (hne rfl)]; exact h2
  · exact ⟨c, by show (s.vers.put n b').get n' = _; rw [KMap.get_put, if_neg hn]; exact h1, h2⟩

theorem range_dels (n : Str) (l : List Nat) :
    (l.map fun i => Act.del (vkKey n i)) = (l.map (vkKey n)).map .del := by
  rw [List.map_map]; rfl

theorem stored_put_new {s : Store} {n : Str} {b' : VBucket} (hI uI : KMap (KMap Unit)) {q : Nat}
    {x : Version} (h : b'.items.get (verKey n q) = some x) :
    Stored { s with vers := s.vers.put n b', hashIdx := hI, uidIdx := uI } n q x :=
  ⟨b', by show (s.vers.put n b').get n = _; simp, h⟩

/-- One write keeps the cache in agreement with the store. -/
theorem agree_op {P : Str → Prop} {s : Store} {c : Cache} (hi : Inv s) (h : Agree P s c) (o : Op)
    (hok : EvOk P s (.op o)) : Agree P (step s o).2 (perform c (serveC s c (.op o)).2.2) := by
  have fail : (step s o).2 = s → (step s o).1.success = false →
      Agree P (step s o).2 (perform c (serveC s c (.op o)).2.2) := by
    intro h1 h2
    simp only [serveC, h2, Bool.false_eq_true, ↓reduceIte, h1]
    exact h
  cases o with
  | addMeta id d =>
    rcases update_cases (addMeta id d) s with ⟨e, h1, _⟩ | ⟨a, s', h1, h2⟩
    · exact fail (by simp [step, h1]) (by simp [step, h1, Res.ofUnit, Res.success])
    · simp only [serveC, step, h2, Res.ofUnit, Res.success, ↓reduceIte, cacheActs]
      obtain ⟨_, g2, g3, rfl⟩ := addMeta_ok h1
      refine agree_put h (fun k x hk hv => ?_) (.mdata id d hok rfl (by simp))
      cases hv with
      | mdata id' m p1 p2 p3 =>
        have hne : id' ≠ id := by rintro rfl; rw [g2] at p3; cases p3
        exact .mdata id' m p1 p2 (by show (s.metas.put id d).get id' = _; rw [KMap.get_put, if_neg hne]; exact p3)
      | ver n q v p1 p2 p3 =>
        obtain ⟨b, e1, e2⟩ := p3
        have hne : n ≠ id := by rintro rfl; rw [g3] at e1; cases e1
        exact .ver n q v p1 p2 ⟨b, by
          show (s.vers.put id _).get n = _; rw [KMap.get_put, if_neg hne]; exact e1, e2⟩
      | bucket n b p2 p3 => exact .bucket n b p2 p3
  | updateMeta id d =>
    rcases update_cases (updateMeta id d) s with ⟨e, h1, _⟩ | ⟨a, s', h1, h2⟩
    · exact fail (by simp [step, h1]) (by simp [step, h1, Res.ofUnit, Res.success])
    · obtain ⟨o', g1, g2, rfl⟩ := updateMeta_ok h1
      simp only [serveC, step, h2, Res.ofUnit, Res.success, ↓reduceIte, cacheActs, KMap.get_put_self]
      refine agree_put h (fun k x hk hv => ?_) (.mdata id _ hok rfl (by simp))
      cases hv with
      | mdata id' m p1 p2 p3 =>
        have hne : id' ≠ id := by rintro rfl; exact hk p2
        exact .mdata id' m p1 p2 (by
          show (s.metas.put id _).get id' = _; rw [KMap.get_put, if_neg hne]; exact p3)
      | ver n q v p1 p2 p3 => exact .ver n q v p1 p2 p3
      | bucket n b p2 p3 => exact .bucket n b p2 p3
  | removeMeta n =>
    rcases update_cases (removeMeta n) s with ⟨e, h1, _⟩ | ⟨a, s', h1, h2⟩
    · exact fail (by simp [step, h1]) (by simp [step, h1, Res.ofUnit, Res.success])
    · simp only [serveC, step, h2, Res.ofUnit, Res.success, ↓reduceIte, cacheActs, range_dels]
      show Agree P s' (perform c ((mkKey n :: (List.range' 1 (lastVersionNumber s n)).map (vkKey n)).map .del))
      refine agree_dels _ h fun k x hk hv => ?_
      simp only [List.mem_cons, List.mem_map, List.mem_range', not_or] at hk
      rcases removeMeta_ok h1 with ⟨_, rfl⟩ | ⟨_, rfl⟩
      · exact hv
      · cases hv with
        | mdata id m p1 p2 p3 =>
          have hne : id ≠ n := by rintro rfl; exact hk.1 p2
          exact .mdata id m p1 p2 (by
            show (s.metas.del n).get id = _; rw [KMap.get_del, if_neg hne]; exact p3)
        | ver n' q v p1 p2 p3 =>
          have hne : n' ≠ n := by
            rintro rfl
            obtain ⟨hq1, hq2⟩ := hok.2 q v ((getVer_ok_iff s n' q v).2 p3)
            exact hk.2 ⟨q, ⟨q - 1, by omega, by omega⟩, p2.symm⟩
          obtain ⟨b, e1, e2⟩ := p3
          exact .ver n' q v p1 p2 ⟨b, by
            show (s.vers.del n).get n' = _; rw [KMap.get_del, if_neg hne]; exact e1, e2⟩
        | bucket m b p2 p3 => exact .bucket m b p2 p3
  | addVer n d =>
    by_cases g1 : d.hash = []
    · exact fail (by simp [step, repoAddVersion, g1]) (by simp [step, repoAddVersion, g1, Res.success])
    · by_cases g2 : d.uniqueId = []
      · exact fail (by simp [step, repoAddVersion, g1, g2])
          (by simp [step, repoAddVersion, g1, g2, Res.success])
      · rcases update_cases (addVer n d) s with ⟨e, h1, _⟩ | ⟨q, s', h1, h2⟩
        · exact fail (by simp [step, repoAddVersion, g1, g2, h1])
            (by simp [step, repoAddVersion, g1, g2, h1, Res.success])
        · obtain ⟨b, hI, uI, e1, rfl, _, e4, _, _, _, rfl⟩ := addVer_ok h1
          simp only [serveC, step, repoAddVersion, g1, g2, h2, Res.success, ↓reduceIte, cacheActs, e1]
          refine agree_put h (fun k x hk hv => valid_vers (s := s) (by rfl) (by rfl) (fun n' q' v' hkk hst => ?_) hv)
            (.ver n _ _ hok rfl (stored_put_new _ _ (by simp)))
          refine stored_put_other e1 rfl (fun hn hvk => ?_) hst
          subst hn
          exact hk (by rw [hkk]; simp [vkKey, hvk])
  | migrateVer n d =>
    by_cases g1 : d.hash = []
    · exact fail (by simp [step, repoMigrateVersion, g1])
        (by simp [step, repoMigrateVersion, g1, Res.ofUnit, Res.success])
    · by_cases g2 : d.uniqueId = []
      · exact fail (by simp [step, repoMigrateVersion, g1, g2])
          (by simp [step, repoMigrateVersion, g1, g2, Res.ofUnit, Res.success])
      · rcases update_cases (addVerWithSequence n d) s with ⟨e, h1, _⟩ | ⟨q, s', h1, h2⟩
        · exact fail (by simp [step, repoMigrateVersion, g1, g2, h1])
            (by simp [step, repoMigrateVersion, g1, g2, h1, Res.ofUnit, Res.success])
        · obtain ⟨b, hI, uI, e1, _, e4, _, _, _, rfl⟩ := addVerWithSequence_ok h1
          simp only [serveC, step, repoMigrateVersion, g1, g2, h2, Res.ofUnit, Res.success, ↓reduceIte,
            cacheActs]
          refine agree_put h (fun k x hk hv => valid_vers (s := s) (by rfl) (by rfl) (fun n' q' v' hkk hst => ?_) hv)
            (.ver n _ _ hok rfl (stored_put_new _ _ (by simp)))
          refine stored_put_other e1 rfl (fun hn hvk => ?_) hst
          subst hn
          exact hk (by rw [hkk]; simp [vkKey, hvk])
  | updateVer n d =>
    rcases update_cases (updateVer n d) s with ⟨e, h1, _⟩ | ⟨a, s', h1, h2⟩
    · exact fail (by simp [step, h1]) (by simp [step, h1, Res.ofUnit, Res.success])
    · obtain ⟨b, o', e1, e2, e3, rfl⟩ := updateVer_ok h1
      obtain ⟨q, hq, _, hseq⟩ := hi.key n b _ o' e1 e2
      have hq' : q = d.sequence := (verKey_inj hq).2.symm
      have hst' : Stored { s with
          vers := s.vers.put n ⟨b.seq, b.items.put (verKey n d.sequence)
            { d with uniqueId := o'.uniqueId, sequence := o'.sequence, hash := o'.hash }⟩ }
          n d.sequence { d with uniqueId := o'.uniqueId, sequence := o'.sequence, hash := o'.hash } :=
        (stored_put_new _ _ (by simp))
      rw [hseq, hq'] at hst'
      simp only [serveC, step, h2, Res.ofUnit, Res.success, ↓reduceIte, cacheActs, hseq, hq']
      rw [(getVer_ok_iff _ _ _ _).2 hst']
      refine agree_put h (fun k x hk hv =>
        valid_vers (s := s) (by rfl) (by rfl) (fun n' q' v' hkk hst => ?_) hv)
        (.ver n d.sequence _ hok rfl hst')
      refine stored_put_other (hI := s.hashIdx) (uI := s.uidIdx) e1 rfl (fun hn hvk => ?_) hst
      subst hn
      exact hk (by rw [hkk]; simp [vkKey, hvk])
  | removeVer n q =>
    rcases update_cases (removeVer n q) s with ⟨e, h1, _⟩ | ⟨a, s', h1, h2⟩
    · exact fail (by simp [step, h1]) (by simp [step, h1, Res.ofUnit, Res.success])
    · simp only [serveC, step, h2, Res.ofUnit, Res.success, ↓reduceIte, cacheActs]
      show Agree P s' (perform c ([vkKey n q].map .del))
      refine agree_dels _ h fun k x hk hv => ?_
      rcases removeVer_ok h1 with ⟨_, rfl⟩ | ⟨b, v, e1, e2, rfl⟩
      · exact hv
      · refine valid_vers (s := s) (by rfl) (by rfl) (fun n' q' v' hkk hst => ?_) hv
        obtain ⟨b', f1, f2⟩ := hst
        by_cases hn : n' = n
        · subst hn
          rw [e1] at f1; cases f1
          have hne : verKey n' q' ≠ verKey n' q := by
            intro he; exact hk (by rw [hkk]; simp [vkKey, he])
          refine ⟨_, by show (s.vers.put n' _).get n' = _; rw [KMap.get_put_self], ?_⟩
          show (b.items.del _).get _ = _
          rw [KMap.get_del, if_neg hne]; exact f2
        · exact ⟨b', by show (s.vers.put n _).get n' = _; rw [KMap.get_put, if_neg hn]; exact f1, f2⟩
  | removeAllVersion n =>
    rcases update_cases (removeAllVersion n) s with ⟨e, h1, _⟩ | ⟨a, s', h1, h2⟩
    · exact fail (by simp [step, h1]) (by simp [step, h1, Res.ofUnit, Res.success])
    · simp only [serveC, step, h2, Res.ofUnit, Res.success, ↓reduceIte, cacheActs, range_dels]
      refine agree_dels _ h fun k x hk hv => ?_
      obtain ⟨_, ⟨b, e1⟩, rfl⟩ := removeAllVersion_ok h1
      refine valid_vers (s := s) (by rfl) (by rfl) (fun n' q' v' hkk hst => ?_) hv
      have hne : n' ≠ n := by
        rintro rfl
        obtain ⟨_, hq2⟩ := hok.2 q' v' ((getVer_ok_iff s n' q' v').2 hst)
        exact hk (List.mem_map.2 ⟨q', List.mem_range.2 (by omega), hkk.symm⟩)
      obtain ⟨b', f1, f2⟩ := hst
      exact ⟨b', by show (s.vers.put n _).get n' = _; rw [KMap.get_put, if_neg hne]; exact f1, f2⟩
  | updateLocate now hsh i v => exact hok.elim
  | findByHash hsh => exact hok.elim
  | bucketCreate d =>
    rcases update_cases (bucketCreate d) s with ⟨e, h1, _⟩ | ⟨a, s', h1, h2⟩
    · exact fail (by simp [step, h1]) (by simp [step, h1, Res.ofUnit, Res.success])
    · simp only [serveC, step, h2, Res.ofUnit, Res.success, ↓reduceIte, cacheActs]
      have : s' = { s with buckets := s.buckets.put d.name d } := by unfold bucketCreate at h1; grind
      subst this
      refine agree_put h (fun k x hk hv => ?_) (.bucket d.name d rfl (by simp))
      cases hv with
      | mdata id m p1 p2 p3 => exact .mdata id m p1 p2 p3
      | ver n q v p1 p2 p3 => exact .ver n q v p1 p2 p3
      | bucket n b p2 p3 =>
        have hne : n ≠ d.name := by rintro rfl; exact hk p2
        exact .bucket n b p2 (by
          show (s.buckets.put d.name d).get n = _; rw [KMap.get_put, if_neg hne]; exact p3)
  | bucketUpdate d =>
    rcases update_cases (bucketUpdate d) s with ⟨e, h1, _⟩ | ⟨a, s', h1, h2⟩
    · exact fail (by simp [step, h1]) (by simp [step, h1, Res.ofUnit, Res.success])
    · have : ∃ o, s' = { s with buckets := s.buckets.put d.name { d with createTime := o } } := by
        unfold bucketUpdate at h1; grind
      obtain ⟨o', rfl⟩ := this
      simp only [serveC, step, h2, Res.ofUnit, Res.success, ↓reduceIte, cacheActs, KMap.get_put_self]
      refine agree_put h (fun k x hk hv => ?_) (.bucket d.name _ rfl (by simp))
      cases hv with
      | mdata id m p1 p2 p3 => exact .mdata id m p1 p2 p3
      | ver n q v p1 p2 p3 => exact .ver n q v p1 p2 p3
      | bucket n b p2 p3 =>
        have hne : n ≠ d.name := by rintro rfl; exact hk p2
        exact .bucket n b p2 (by
          show (s.buckets.put d.name _).get n = _; rw [KMap.get_put, if_neg hne]; exact p3)
  | bucketDelete n =>
    simp only [serveC, step, update, bucketDelete, Res.ofUnit, Res.success, ↓reduceIte, cacheActs]
    show Agree P _ (perform c ([bkKey n].map .del))
    refine agree_dels _ h fun k x hk hv => ?_
    cases hv with
    | mdata id m p1 p2 p3 => exact .mdata id m p1 p2 p3
    | ver n' q v p1 p2 p3 => exact .ver n' q v p1 p2 p3
    | bucket n' b p2 p3 =>
      have hne : n' ≠ n := by rintro rfl; exact hk (by rw [p2]; exact List.mem_singleton.2 rfl)
      exact .bucket n' b p2 (by
        show (s.buckets.del n).get n' = _; rw [KMap.get_del, if_neg hne]; exact p3)
  | applyIndex i =>
    simp only [serveC, step, update, applyIndex]
    have : ∀ b : Bool, perform c (if b = true then cacheActs s s (.applyIndex i) else []) = c := by
      intro b; cases b <;> rfl
    by_cases hlt : i > s.applied
    · simp only [hlt, ↓reduceIte, Res.ofUnit, Res.success]
      refine agree_same h fun k x hv => ?_
      cases hv with
      | mdata id m p1 p2 p3 => exact .mdata id m p1 p2 p3
      | ver n q v p1 p2 p3 => exact .ver n q v p1 p2 p3
      | bucket n b p2 p3 => exact .bucket n b p2 p3
    · simp only [hlt, ↓reduceIte, Res.ofUnit, Res.success]
      exact h

/-- Reads are right while the cache agrees with the store. -/
theorem agree_readMeta {P : Str → Prop} (hP : NoClash P) {s : Store} {c : Cache} (h : Agree P s c)
    {id : Str} (hid : P id) : (cachedMeta s c id).1 = getMeta s id := by
  unfold cachedMeta
  cases hg : c.get (mkKey id) with
  | none => simp only; split <;> simp_all
  | some x =>
    cases h _ _ hg with
    | mdata id' m h1 h2 h3 =>
      have := mkKey_inj h2; subst this
      simp [getMeta, h3]
    | ver n q v h1 h2 h3 => exact absurd (mk_eq_vk h2) (hP id n q hid h1)
    | bucket n b h2 h3 => exact absurd h2 (mk_ne_bk id n)

theorem agree_readVer {P : Str → Prop} (hP : NoClash P) {s : Store} {c : Cache} (h : Agree P s c)
    {n : Str} (hn : P n) (q : Nat) : (cachedVer s c n q).1 = getVer s n q := by
  unfold cachedVer
  cases hg : c.get (vkKey n q) with
  | none => simp only; split <;> simp_all
  | some x =>
    cases h _ _ hg with
    | mdata id' m h1 h2 h3 => exact absurd (mk_eq_vk h2.symm) (hP id' n q h1 hn)
    | ver n' q' v h1 h2 h3 =>
      obtain ⟨rfl, rfl⟩ := vkKey_inj h2
      simp only
      exact ((getVer_ok_iff _ _ _ _).2 h3).symm
    | bucket n' b h2 h3 => exact absurd h2 (vk_ne_bk n q n')

theorem agree_readBucket {P : Str → Prop} {s : Store} {c : Cache} (h : Agree P s c) (n : Str) :
    (cachedBucket s c n).1 = bucketGet s n := by
  unfold cachedBucket
  cases hg : c.get (bkKey n) with
  | none => simp only; split <;> simp_all
  | some x =>
    cases h _ _ hg with
    | mdata id' m h1 h2 h3 => exact absurd h2.symm (mk_ne_bk id' n)
    | ver n' q' v h1 h2 h3 => exact absurd h2.symm (vk_ne_bk n' q' n)
    | bucket n' b h2 h3 =>
      have := bkKey_inj h2; subst this
      simp [bucketGet, h3]

/-- Bucket records carry the name they are stored under. -/
def BucketNames (s : Store) : Prop := ∀ n b, s.buckets.get n = some b → b.name = n

theorem bucketNames_step {s : Store} (h : BucketNames s) (o : Op) : BucketNames (step s o).2 := by
  refine step_induct BucketNames s o h fun op' t t' _ he ht => ?_
  cases he with
  | bucketCreate d _ _ =>
    intro n b hg
    simp only [KMap.get_put] at hg
    split at hg
    · rename_i hn; cases hg; exact hn.symm
    · exact ht n b hg
  | bucketUpdate d o _ _ =>
    intro n b hg
    simp only [KMap.get_put] at hg
    split at hg
    · rename_i hn; cases hg; exact hn.symm
    · exact ht n b hg
  | bucketDelete m =>
    intro n b hg
    simp only [KMap.get_del] at hg
    split at hg
    · cases hg
    · exact ht n b hg
  | findByHash hsh => exact ht
  | _ => exact ht

theorem seq_refines {P : Str → Prop} (hP : NoClash P) (es : List CEv) (s : Store) (c : Cache)
    (hi : Inv s) (hb : BucketNames s) (h : Agree P s c) (hok : AllOk P s es) :
    (seqRun (s, c) es).1 = (plainRun s es).1 ∧ (seqRun (s, c) es).2.1 = (plainRun s es).2 := by
  induction es generalizing s c with
  | nil => exact ⟨rfl, rfl⟩
  | cons e es ih =>
    obtain ⟨he, hes⟩ := hok
    have key : (seqStep (s, c) e).1 = (plainStep s e).1 ∧ (seqStep (s, c) e).2.1 = (plainStep s e).2 ∧
        Inv (plainStep s e).2 ∧ BucketNames (plainStep s e).2 ∧
        Agree P (plainStep s e).2 (seqStep (s, c) e).2.2 := by
      cases e with
      | op o => exact ⟨rfl, rfl, inv_step hi o, bucketNames_step hb o, agree_op hi h o he⟩
      | readMeta id =>
        refine ⟨?_, rfl, hi, hb, ?_⟩
        · show CAns.mdata _ = .mdata _
          rw [agree_readMeta hP h he]
        · show Agree P s (perform c (cachedMeta s c id).2)
          unfold cachedMeta
          split
          · exact h
          · exact h
          · split
            · rename_i m hm
              refine agree_put h (fun _ _ _ hv => hv) (.mdata id m he rfl ?_)
              unfold getMeta at hm; split at hm
              · cases hm; assumption
              · cases hm
            · exact h
      | readVer n q =>
        refine ⟨?_, rfl, hi, hb, ?_⟩
        · show CAns.ver _ = .ver _
          rw [agree_readVer hP h he]
        · show Agree P s (perform c (cachedVer s c n q).2)
          unfold cachedVer
          split
          · exact h
          · exact h
          · split
            · rename_i v hv
              have hst := (getVer_ok_iff _ _ _ _).1 hv
              obtain ⟨b, e1, e2⟩ := hst
              obtain ⟨q', hk, _, hq⟩ := hi.key n b _ v e1 e2
              have := (verKey_inj hk).2
              rw [hq, ← this]
              exact agree_put h (fun _ _ _ hv => hv) (.ver n q v he rfl ⟨b, e1, e2⟩)
            · exact h
      | readBucket n =>
        refine ⟨?_, rfl, hi, hb, ?_⟩
        · show CAns.bucket _ = .bucket _
          rw [agree_readBucket h n]
        · show Agree P s (perform c (cachedBucket s c n).2)
          unfold cachedBucket
          split
          · exact h
          · split
            · rename_i b hm
              have hg : s.buckets.get n = some b := by
                unfold bucketGet at hm; split at hm
                · cases hm; assumption
                · cases hm
              have hn := hb n b hg
              rw [hn]
              exact agree_put h (fun _ _ _ hv => hv) (.bucket n b rfl hg)
            · exact h
      | evict k => exact ⟨rfl, rfl, hi, hb, agree_dels [k] h fun _ _ _ hv => hv⟩
    obtain ⟨k1, k2, k3, k4, k5⟩ := key
    have := ih (plainStep s e).2 (seqStep (s, c) e).2.2 k3 k4 k5 hes
    simp only [seqRun, plainRun]
    have e2 : (seqStep (s, c) e).2 = ((plainStep s e).2, (seqStep (s, c) e).2.2) := by
      rw [← k2]
    rw [k1, e2, this.1, this.2]
    exact ⟨rfl, rfl⟩

/-- **C30, partial**: what is missing are overlapping requests, the cluster, restores, relocations and
searches, clashing names, and removals of objects whose textually last version is not their newest.
Otherwise, for every sequence of writes, reads and evictions of any length, a server with the cache gives
exactly the answers of a server without. -/
theorem C30_sequential_partial (P : Str → Prop) (hP : NoClash P) (es : List CEv)
    (hok : AllOk P .empty es) :
    (seqRun (.empty, .empty) es).1 = (plainRun .empty es).1 :=
  (seq_refines hP es .empty .empty inv_empty
    (fun n b h => by simp [Store.empty, KMap.get_empty] at h)
    (fun k x h => by simp [KMap.get_empty] at h) hok).1

/-- `LastOk` holds for objects whose version numbers start at 1 and have the same number of digits. -/
theorem lastOk_of_sameDigits {s : Store} (hr : Reachable s) {n : Str} (hs : SameDigits s n)
    (h1 : ∀ q v, getVer s n q = .ok v → 1 ≤ q) : LastOk s n := by
  intro q v hv
  refine ⟨h1 q v hv, ?_⟩
  obtain ⟨w, hw, hlt⟩ := last_spec (inv_reachable hr) ((getVer_ok_iff ..).1 hv)
  rcases hlt with hlt | hlt
  · omega
  · rw [strLt_fmtNat (hs q _ v w hv ((getVer_ok_iff ..).2 hw))] at hlt; omega

/-- Names without a dot do not clash. -/
theorem noClash_noDot : NoClash (fun n => '.' ∉ n) := by
  rintro id n q hid _ rfl
  exact hid (by simp [verKey])

/-- A run that meets the hypotheses: an object is created, read, versioned, read from the cache,
removed and read again. -/
def sampleRun : List CEv :=
  [.op (.addMeta "b".toList (sampleMeta 1)), .readMeta "b".toList,
    .op (.addVer "b".toList (sampleVer "h".toList "u".toList 1)), .readVer "b".toList 1,
    .op (.removeMeta "b".toList), .readVer "b".toList 1, .readMeta "b".toList]

theorem lastOk_of_keys {s : Store} {n : Str} {b : VBucket} (hb : s.vers.get n = some b)
    (h : ∀ k ∈ b.items.keys, 1 ≤ (keySeq k).getD 0 ∧ (keySeq k).getD 0 ≤ lastVersionNumber s n) :
    LastOk s n := by
  intro q v hv
  obtain ⟨b', h1, h2⟩ := (getVer_ok_iff ..).1 hv
  rw [hb] at h1; cases h1
  have := h (verKey n q) (by rw [KMap.mem_keys_iff, h2]; rfl)
  simpa [keySeq_verKey] using this

example : AllOk (fun n => '.' ∉ n) .empty sampleRun := by
  have hd : '.' ∉ "b".toList := by decide
  refine ⟨hd, hd, hd, hd, ⟨hd, ?_⟩, hd, hd, trivial⟩
  exact lastOk_of_keys (b := ⟨1, KMap.empty.put (verKey "b".toList 1)
    { sampleVer "h".toList "u".toList 1 with sequence := 1 }⟩) (by decide) (by decide)

example : (seqRun (.empty, .empty) sampleRun).1.length = 7 := by decide

end Verif.Meta
