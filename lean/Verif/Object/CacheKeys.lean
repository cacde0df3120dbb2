import Verif.Common.Str

/-!
# Three kinds of entries in one cache of a data server (C128)

A data server has one cache (`pool.Cache`, a bigcache from texts to bytes) for three things:

* the contents of shards, with the name of the shard (src/objectserver/internal/controller/http/objects/objects_rest.go:41-46, 86-91,
  objects_cache.go:11-22);
* records of uploads, gob encoded, with their id `TempInfo_…` (src/objectserver/internal/usecase/service/temp_service.go:16-30);
* marks that a shard exists, `LocateCache#` and the name (objects_service.go:22-24, 71-79).

Names and ids are parameters of the routes (src/objectserver/internal/controller/http/router.go:24-34), and nobody has to log in.
The specification is a server with three tables.
Simplified: the cache is written at once (C115), there is one drive (C52), paths are texts given by the configuration, files
are not compressed (C87) and have no padding (C49), removals by the cleaners are left out except in `C128_cleaner` (C80).
-/

namespace Verif.CacheKeys

open Verif

abbrev Bytes := List UInt8

/-- `TempKeyPrefix`, src/objectserver/internal/entity/dto.go:11. -/
def tempPrefix : Str := ['T', 'e', 'm', 'p', 'I', 'n', 'f', 'o', '_']

/-- `LocateKeyPrefix`, objects_service.go:22-24. -/
def locPrefix : Str := ['L', 'o', 'c', 'a', 't', 'e', 'C', 'a', 'c', 'h', 'e', '#']

/-- `TempInfo` without size and mount point (src/objectserver/internal/entity). -/
structure Info where
  name : Str
  id : Str
  full : Str
  deriving DecidableEq

/-- `GobEncode` and `GobDecode` (src/common/util): any encoding that can be read back and is not empty. -/
structure Codec where
  enc : Info → Bytes
  dec : Bytes → Option Info
  ok : ∀ t, dec (enc t) = some t
  ne : ∀ t, enc t ≠ []

structure Conf where
  /-- `filepath.Join(mountPoint, StoragePath, name)` -/
  store : Str → Str
  /-- `filepath.Join(mountPoint, TempPath, id)` -/
  temp : Str → Str
  /-- `MaxItemSize` -/
  limit : Nat

/-- What the handlers do with the cache.  `info` is `some none` if there is an entry that is not a record. -/
structure Ops (σ : Type) where
  get : σ → Str → Option Bytes
  put : σ → Str → Bytes → σ
  del : σ → Str → σ
  info : σ → Str → Option (Option Info)
  setInfo : σ → Str → Info → σ
  delInfo : σ → Str → σ
  marked : σ → Str → Bool
  mark : σ → Str → σ
  unmark : σ → Str → σ

structure St (σ : Type) where
  cache : σ
  files : Str → Option Bytes

/-- Requests, and entries that vanish from the cache. -/
inductive Req
  | get (name : Str) (size : Nat)
  | head (name : Str)
  | put (name : Str) (body : Bytes)
  | delete (name : Str)
  | post (id name : Str)
  | patch (id : Str) (body : Bytes)
  | tdelete (id : Str)
  | tget (id : Str) (size : Nat)
  | tput (id : Str)
  | evict (name : Str)
  | evictInfo (id : Str)
  | evictMark (name : Str)

/-- Status and body. -/
abbrev Ans := Nat × Bytes

def upd {β : Type} (m : Str → Option β) (k : Str) (v : Option β) : Str → Option β := fun k' => if k' = k then v else m k'

/-- `Exist`, objects_service.go:27-47. -/
def exist {σ : Type} (o : Ops σ) (c : Conf) (s : St σ) (name : Str) : Bool × St σ :=
  if o.marked s.cache name || (o.get s.cache name).isSome then (true, s)
  else if (s.files (c.store name)).isSome then (true, { s with cache := o.mark s.cache name })
  else (false, s)

/-- The handlers: `GetFromCache` and `Get`, `Head`, `Put`, `Delete` of objects_cache.go:11-22 and objects_rest.go:18-102 with objects_service.go:
82-171; `Post`, `Patch`, `Delete`, `Get`, `Put` of temp_rest.go with `FilterExpired` (temp_mid.go:10-15) and `CommitFile`
(objects_service.go:286-326). -/
def step {σ : Type} (o : Ops σ) (c : Conf) (s : St σ) : Req → St σ × Ans
  | .get name size =>
    match o.get s.cache name with
    | some b => (s, (200, b))
    | none =>
      match exist o c s name with
      | (false, s) => (s, (404, []))
      | (true, s) =>
        match s.files (c.store name) with
        | none => (s, (500, []))
        | some b =>
          let s := { s with cache := o.mark s.cache name }
          if size ≤ c.limit ∧ b.take size ≠ [] then ({ s with cache := o.put s.cache name (b.take size) }, (200, b.take size))
          else (s, (200, b.take size))
  | .head name =>
    match exist o c s name with
    | (true, s) => (s, (200, []))
    | (false, s) => (s, (404, []))
  | .put name body =>
    if body = [] then (s, (400, []))
    else
      match exist o c s name with
      | (true, s) => (s, (200, []))
      | (false, s) =>
        let s := { cache := o.mark s.cache name, files := upd s.files (c.store name) (some body) }
        if body.length ≤ c.limit then ({ s with cache := o.put s.cache name body }, (200, [])) else (s, (200, []))
  | .delete name =>
    let s := { s with cache := o.del s.cache name }
    match exist o c s name with
    | (false, s) => (s, (204, []))
    | (true, s) => ({ cache := o.unmark s.cache name, files := upd s.files (c.store name) none }, (204, []))
  | .post id name => ({ s with cache := o.setInfo s.cache id ⟨name, id, c.temp id⟩ }, (200, []))
  | .patch id body =>
    match o.info s.cache id with
    | none => (s, (404, []))
    | some none => (s, (400, []))
    | some (some t) =>
      if body = [] then (s, (400, []))
      else ({ s with files := upd s.files t.full (some ((s.files t.full).getD [] ++ body)) }, (200, []))
  | .tdelete id =>
    match o.info s.cache id with
    | none => (s, (404, []))
    | some _ => ({ s with cache := o.delInfo s.cache id }, (200, []))
  | .tget id size =>
    match o.info s.cache id with
    | none => (s, (404, []))
    | some none => (s, (400, []))
    | some (some t) =>
      match s.files t.full with
      | none => (s, (500, []))
      | some b => (s, (200, b.take size))
  | .tput id =>
    match o.info s.cache id with
    | none => (s, (404, []))
    | some none => (s, (400, []))
    | some (some t) =>
      if (s.files (c.store t.name)).isSome then ({ s with cache := o.delInfo s.cache id }, (200, []))
      else
        match s.files (c.temp id) with
        | none => (s, (404, []))
        | some b =>
          ({ cache := o.delInfo (o.mark s.cache t.name) id,
             files := upd (upd s.files (c.temp id) none) (c.store t.name) (some b) }, (200, []))
  | .evict name => ({ s with cache := o.del s.cache name }, (0, []))
  | .evictInfo id => ({ s with cache := o.delInfo s.cache id }, (0, []))
  | .evictMark name => ({ s with cache := o.unmark s.cache name }, (0, []))

def run {σ : Type} (o : Ops σ) (c : Conf) : St σ → List Req → St σ × List Ans
  | s, [] => (s, [])
  | s, r :: rs =>
    let x := step o c s r
    let y := run o c x.1 rs
    (y.1, x.2 :: y.2)

/-! ## The cache there is -/

abbrev One := Str → Option Bytes

/-- One table of bytes. -/
def one (g : Codec) : Ops One where
  get m n := m n
  put m n b := upd m n (some b)
  del m n := upd m n none
  info m i := (m i).map g.dec
  setInfo m i t := upd m i (some (g.enc t))
  delInfo m i := upd m i none
  marked m n := (m (locPrefix ++ n)).isSome
  mark m n := upd m (locPrefix ++ n) (some [])
  unmark m n := upd m (locPrefix ++ n) none

/-! ## The specification: three tables -/

structure Three where
  contents : Str → Option Bytes
  infos : Str → Option Info
  marks : Str → Bool

/-- A table for each kind. -/
def three : Ops Three where
  get m n := m.contents n
  put m n b := { m with contents := upd m.contents n (some b) }
  del m n := { m with contents := upd m.contents n none }
  info m i := (m.infos i).map some
  setInfo m i t := { m with infos := upd m.infos i (some t) }
  delInfo m i := { m with infos := upd m.infos i none }
  marked m n := m.marks n
  mark m n := { m with marks := fun k => if k = n then true else m.marks k }
  unmark m n := { m with marks := fun k => if k = n then false else m.marks k }

def Three.empty : Three := ⟨fun _ => none, fun _ => none, fun _ => false⟩

/-! ## Refinement -/

/-- A name that is neither an id nor a mark; the names the API servers give to shards are hexadecimal numbers with an index
(src/apiserver/internal/usecase/service/object_service.go:56-62). -/
def Plain (n : Str) : Prop := ¬ tempPrefix <+: n ∧ ¬ locPrefix <+: n

/-- Ids are made by `GenerateTempID`, temp_service.go:28-30. -/
def IsTemp (i : Str) : Prop := tempPrefix <+: i

/-- Requests that respect the kinds. -/
def Req.Good : Req → Prop
  | .get n _ | .head n | .put n _ | .delete n | .evict n | .evictMark n => Plain n
  | .post i n => IsTemp i ∧ Plain n
  | .patch i _ | .tdelete i | .tget i _ | .tput i | .evictInfo i => IsTemp i

structure Sim (g : Codec) (m : One) (t : Three) : Prop where
  contents : ∀ n, Plain n → m n = t.contents n
  infos : ∀ i, IsTemp i → m i = (t.infos i).map g.enc
  marks : ∀ n, m (locPrefix ++ n) = if t.marks n then some [] else none
  names : ∀ i x, t.infos i = some x → Plain x.name

theorem plain_ne_temp {n i : Str} (hn : Plain n) (hi : IsTemp i) : n ≠ i := fun h => hn.1 (h ▸ hi)
theorem plain_ne_loc {n k : Str} (hn : Plain n) : n ≠ locPrefix ++ k := fun h => hn.2 (h ▸ List.prefix_append _ _)
theorem temp_ne_loc {i k : Str} (hi : IsTemp i) : i ≠ locPrefix ++ k := by
  rintro rfl
  obtain ⟨r, hr⟩ := hi
  simp [tempPrefix, locPrefix] at hr

theorem sim_put {g m t} (h : Sim g m t) {n : Str} (hn : Plain n) (v : Option Bytes) :
    Sim g (upd m n v) { t with contents := upd t.contents n v } := by
  refine ⟨fun k hk => ?_, fun i hi => ?_, fun k => ?_, h.names⟩
  · unfold upd; dsimp only; split
    · rfl
    · exact h.contents k hk
  · unfold upd; rw [if_neg (plain_ne_temp hn hi).symm]; exact h.infos i hi
  · unfold upd; rw [if_neg (plain_ne_loc hn).symm]; exact h.marks k

theorem sim_info {g m t} (h : Sim g m t) {i : Str} (hi : IsTemp i) (v : Option Info) (hv : ∀ x, v = some x → Plain x.name) :
    Sim g (upd m i (v.map g.enc)) { t with infos := upd t.infos i v } := by
  refine ⟨fun k hk => ?_, fun j hj => ?_, fun k => ?_, fun j x hx => ?_⟩
  · unfold upd; rw [if_neg (plain_ne_temp hk hi)]; exact h.contents k hk
  · unfold upd; dsimp only; split
    · rfl
    · exact h.infos j hj
  · unfold upd; rw [if_neg (temp_ne_loc hi).symm]; exact h.marks k
  · unfold upd at hx; dsimp only at hx; split at hx
    · exact hv x hx
    · exact h.names j x hx

theorem sim_mark {g m t} (h : Sim g m t) (n : Str) (v : Bool) :
    Sim g (upd m (locPrefix ++ n) (if v then some [] else none)) { t with marks := fun k => if k = n then v else t.marks k } := by
  refine ⟨fun k hk => ?_, fun i hi => ?_, fun k => ?_, h.names⟩
  · unfold upd; rw [if_neg (plain_ne_loc hk)]; exact h.contents k hk
  · unfold upd; rw [if_neg (temp_ne_loc hi)]; exact h.infos i hi
  · unfold upd; dsimp only
    by_cases hk : k = n
    · subst hk; simp
    · rw [if_neg (by simpa using hk)]; simp only [if_neg hk]; exact h.marks k

/-- States that show the same. -/
structure SimS (g : Codec) (s : St One) (t : St Three) : Prop where
  cache : Sim g s.cache t.cache
  files : s.files = t.files

theorem sim_exist {g : Codec} {c : Conf} {s : St One} {t : St Three} (h : SimS g s t) {n : Str} (hn : Plain n) :
    (exist (one g) c s n).1 = (exist three c t n).1 ∧ SimS g (exist (one g) c s n).2 (exist three c t n).2 := by
  have h1 : (one g).marked s.cache n = three.marked t.cache n := by
    show (s.cache (locPrefix ++ n)).isSome = t.cache.marks n
    rw [h.cache.marks]; split <;> simp_all
  have h2 : (one g).get s.cache n = three.get t.cache n := h.cache.contents n hn
  unfold exist
  rw [h1, h2, h.files]
  split
  · exact ⟨rfl, h⟩
  · split
    · exact ⟨rfl, sim_mark h.cache n true, rfl⟩
    · exact ⟨rfl, h⟩

theorem info_eq {g : Codec} {s : St One} {t : St Three} (h : SimS g s t) {i : Str} (hi : IsTemp i) :
    (one g).info s.cache i = three.info t.cache i := by
  show (s.cache i).map g.dec = (t.cache.infos i).map some
  rw [h.cache.infos i hi, Option.map_map]
  congr 1
  funext x
  exact g.ok x

theorem sim_step {g : Codec} {c : Conf} {s : St One} {t : St Three} (h : SimS g s t) {r : Req} (hr : r.Good) :
    (step (one g) c s r).2 = (step three c t r).2 ∧ SimS g (step (one g) c s r).1 (step three c t r).1 := by
  cases r with
  | get n size =>
    have h2 : (one g).get s.cache n = three.get t.cache n := h.cache.contents n hr
    obtain ⟨e1, e2⟩ := sim_exist (c := c) h (n := n) hr
    unfold step
    dsimp only
    rw [h2]
    split
    · exact ⟨rfl, h⟩
    · rcases hx : exist (one g) c s n with ⟨b, s'⟩
      rcases hy : exist three c t n with ⟨b', t'⟩
      rw [hx, hy] at e1 e2
      dsimp only at e1 e2
      subst e1
      cases b with
      | false => exact ⟨rfl, e2⟩
      | true =>
        dsimp only
        rw [e2.files]
        split
        · exact ⟨rfl, e2⟩
        · split
          · exact ⟨rfl, sim_put (sim_mark e2.cache n true) hr (some _), rfl⟩
          · exact ⟨rfl, sim_mark e2.cache n true, rfl⟩
  | head n =>
    obtain ⟨e1, e2⟩ := sim_exist (c := c) h (n := n) hr
    unfold step
    dsimp only
    rcases hx : exist (one g) c s n with ⟨b, s'⟩
    rcases hy : exist three c t n with ⟨b', t'⟩
    rw [hx, hy] at e1 e2
    dsimp only at e1 e2
    subst e1
    cases b <;> exact ⟨rfl, e2⟩
  | put n body =>
    obtain ⟨e1, e2⟩ := sim_exist (c := c) h (n := n) hr
    unfold step
    dsimp only
    split
    · exact ⟨rfl, h⟩
    · rcases hx : exist (one g) c s n with ⟨b, s'⟩
      rcases hy : exist three c t n with ⟨b', t'⟩
      rw [hx, hy] at e1 e2
      dsimp only at e1 e2
      subst e1
      cases b with
      | true => exact ⟨rfl, e2⟩
      | false =>
        dsimp only
        rw [e2.files]
        split
        · exact ⟨rfl, sim_put (sim_mark e2.cache n true) hr (some _), rfl⟩
        · exact ⟨rfl, sim_mark e2.cache n true, rfl⟩
  | delete n =>
    have h' : SimS g { s with cache := (one g).del s.cache n } { t with cache := three.del t.cache n } :=
      ⟨sim_put h.cache hr none, h.files⟩
    obtain ⟨e1, e2⟩ := sim_exist (c := c) h' (n := n) hr
    unfold step
    dsimp only
    rcases hx : exist (one g) c { s with cache := (one g).del s.cache n } n with ⟨b, s'⟩
    rcases hy : exist three c { t with cache := three.del t.cache n } n with ⟨b', t'⟩
    rw [hx, hy] at e1 e2
    dsimp only at e1 e2
    subst e1
    cases b with
    | false => exact ⟨rfl, e2⟩
    | true =>
      dsimp only
      rw [e2.files]
      exact ⟨rfl, sim_mark e2.cache n false, rfl⟩
  | post i n =>
    exact ⟨rfl, sim_info h.cache hr.1 (some ⟨n, i, c.temp i⟩) (fun x hx => by cases hx; exact hr.2), h.files⟩
  | patch i body =>
    unfold step
    dsimp only
    rw [info_eq h hr, h.files]
    split
    · exact ⟨rfl, h⟩
    · exact ⟨rfl, h⟩
    · split
      · exact ⟨rfl, h⟩
      · exact ⟨rfl, h.cache, rfl⟩
  | tdelete i =>
    unfold step
    dsimp only
    rw [info_eq h hr]
    split
    · exact ⟨rfl, h⟩
    · exact ⟨rfl, sim_info h.cache hr none (fun x hx => by cases hx), h.files⟩
  | tget i size =>
    unfold step
    dsimp only
    rw [info_eq h hr, h.files]
    split
    · exact ⟨rfl, h⟩
    · exact ⟨rfl, h⟩
    · split
      · exact ⟨rfl, h⟩
      · exact ⟨rfl, h⟩
  | tput i =>
    unfold step
    dsimp only
    rw [info_eq h hr, h.files]
    split
    · exact ⟨rfl, h⟩
    · exact ⟨rfl, h⟩
    · split
      · exact ⟨rfl, sim_info h.cache hr none (fun x hx => by cases hx), rfl⟩
      · split
        · exact ⟨rfl, h⟩
        · exact ⟨rfl, sim_info (sim_mark h.cache _ true) hr none (fun x hx => by cases hx), rfl⟩
  | evict n => exact ⟨rfl, sim_put h.cache hr none, h.files⟩
  | evictInfo i => exact ⟨rfl, sim_info h.cache hr none (fun x hx => by cases hx), h.files⟩
  | evictMark n => exact ⟨rfl, sim_mark h.cache n false, h.files⟩

/-- Without names that look like ids or marks the cache behaves like three tables: for every sequence of requests and of entries
that vanish, all answers and all files are the same. -/
theorem C128_three_tables_partial (g : Codec) (c : Conf) (files : Str → Option Bytes) (rs : List Req) (h : ∀ r ∈ rs, r.Good) :
    (run (one g) c ⟨fun _ => none, files⟩ rs).2 = (run three c ⟨.empty, files⟩ rs).2 ∧
      (run (one g) c ⟨fun _ => none, files⟩ rs).1.files = (run three c ⟨.empty, files⟩ rs).1.files := by
  have key : ∀ (rs : List Req) (s : St One) (t : St Three), SimS g s t → (∀ r ∈ rs, r.Good) →
      (run (one g) c s rs).2 = (run three c t rs).2 ∧ (run (one g) c s rs).1.files = (run three c t rs).1.files := by
    intro rs
    induction rs with
    | nil => intro s t hs _; exact ⟨rfl, hs.files⟩
    | cons r rs ih =>
      intro s t hs hg
      obtain ⟨h1, h2⟩ := sim_step (c := c) hs (hg r (by simp))
      obtain ⟨h3, h4⟩ := ih _ _ h2 fun r' hr' => hg r' (by simp [hr'])
      refine ⟨?_, h4⟩
      show _ :: _ = _ :: _
      rw [h1, h3]
  refine key rs _ _ ⟨⟨fun _ _ => rfl, fun _ _ => rfl, fun _ => rfl, fun i x hx => by cases hx⟩, rfl⟩ h

/-- In the specification a record has the path of its id: uploads touch no other file. -/
theorem C128_own_file (c : Conf) (files : Str → Option Bytes) (rs : List Req) (i : Str) (t : Info)
    (h : (run three c ⟨.empty, files⟩ rs).1.cache.infos i = some t) : t.full = c.temp i := by
  have hex : ∀ (s : St Three) n, (exist three c s n).2.cache.infos = s.cache.infos := by
    intro s n; unfold exist; (repeat' split) <;> rfl
  have hstep : ∀ (s : St Three) (r : Req), (∀ i t, s.cache.infos i = some t → t.full = c.temp i) →
      ∀ i t, (step three c s r).1.cache.infos i = some t → t.full = c.temp i := by
    intro s r hs i t ht
    have hdel : ∀ (m : Str → Option Info) j, (∀ i t, m i = some t → t.full = c.temp i) →
        upd m j none i = some t → t.full = c.temp i := by
      intro m j hm hx; unfold upd at hx; split at hx
      · cases hx
      · exact hm i t hx
    cases r with
    | get n size =>
      have he := hex s n
      unfold step at ht; dsimp only at ht
      split at ht
      · exact hs i t ht
      · rcases hx : exist three c s n with ⟨b, s'⟩
        rw [hx] at he ht
        dsimp only at he
        have hs' : ∀ i t, s'.cache.infos i = some t → t.full = c.temp i := he ▸ hs
        cases b with
        | false => exact hs' i t ht
        | true =>
          dsimp only at ht
          split at ht
          · exact hs' i t ht
          · split at ht <;> exact hs' i t ht
    | head n =>
      have he := hex s n
      unfold step at ht; dsimp only at ht
      rcases hx : exist three c s n with ⟨b, s'⟩
      rw [hx] at he ht
      dsimp only at he
      have hs' : ∀ i t, s'.cache.infos i = some t → t.full = c.temp i := he ▸ hs
      cases b <;> exact hs' i t ht
    | put n body =>
      have he := hex s n
      unfold step at ht; dsimp only at ht
      split at ht
      · exact hs i t ht
      · rcases hx : exist three c s n with ⟨b, s'⟩
        rw [hx] at he ht
        dsimp only at he
        have hs' : ∀ i t, s'.cache.infos i = some t → t.full = c.temp i := he ▸ hs
        cases b with
        | true => exact hs' i t ht
        | false =>
          dsimp only at ht
          split at ht <;> exact hs' i t ht
    | delete n =>
      have he := hex { s with cache := three.del s.cache n } n
      unfold step at ht; dsimp only at ht
      rcases hx : exist three c { s with cache := three.del s.cache n } n with ⟨b, s'⟩
      rw [hx] at he ht
      dsimp only at he
      have hs' : ∀ i t, s'.cache.infos i = some t → t.full = c.temp i := he ▸ hs
      cases b <;> exact hs' i t ht
    | post j n =>
      unfold step at ht
      have ht : upd s.cache.infos j (some ⟨n, j, c.temp j⟩) i = some t := ht
      unfold upd at ht
      split at ht
      · rename_i hij; cases ht; rw [hij]
      · exact hs i t ht
    | patch j body =>
      unfold step at ht; dsimp only at ht
      (repeat' split at ht) <;> exact hs i t ht
    | tdelete j =>
      unfold step at ht; dsimp only at ht
      split at ht
      · exact hs i t ht
      · exact hdel _ j hs ht
    | tget j size =>
      unfold step at ht; dsimp only at ht
      (repeat' split at ht) <;> exact hs i t ht
    | tput j =>
      unfold step at ht; dsimp only at ht
      split at ht
      · exact hs i t ht
      · exact hs i t ht
      · split at ht
        · exact hdel _ j hs ht
        · split at ht
          · exact hs i t ht
          · exact hdel _ j hs ht
    | evict n => exact hs i t ht
    | evictInfo j => exact hdel _ j hs ht
    | evictMark n => exact hs i t ht
  have key : ∀ (rs : List Req) (s : St Three), (∀ i t, s.cache.infos i = some t → t.full = c.temp i) →
      ∀ i t, (run three c s rs).1.cache.infos i = some t → t.full = c.temp i := by
    intro rs
    induction rs with
    | nil => intro s hs; exact hs
    | cons r rs ih => intro s hs; exact ih _ (hstep s r hs)
  exact key rs _ (fun i t ht => by cases ht) i t h

/-! ## Names that look like ids and marks -/

/-- `GET /objects/<id of an upload>` answers with the record: the path of a file on the server. -/
theorem C128_record_read (g : Codec) (c : Conf) (files : Str → Option Bytes) (id name : Str) (size : Nat) :
    (run (one g) c ⟨fun _ => none, files⟩ [.post id name, .get id size]).2 =
      [(200, []), (200, g.enc ⟨name, id, c.temp id⟩)] := by
  simp [run, step, one, upd]

/-- `PUT /objects/<id of an upload>` is answered with 200 and stores nothing. -/
theorem C128_put_lost (g : Codec) (c : Conf) (files : Str → Option Bytes) (id name : Str) (body : Bytes) (hb : body ≠ []) :
    (run (one g) c ⟨fun _ => none, files⟩ [.post id name, .put id body]).2 = [(200, []), (200, [])] ∧
      (run (one g) c ⟨fun _ => none, files⟩ [.post id name, .put id body]).1.files = files := by
  simp [run, step, one, upd, exist, hb]

theorem loc_ne (n : Str) : locPrefix ++ n ≠ n := by
  intro h
  have := congrArg List.length h
  simp [locPrefix] at this
  omega

theorem loc_nil : locPrefix ≠ [] := by decide

/-- `GET /objects/LocateCache#<name>` answers 200 with nothing, for a shard that was stored. -/
theorem C128_mark_read (g : Codec) (c : Conf) (files : Str → Option Bytes) (name : Str) (body : Bytes) (size : Nat) (hb : body ≠ [])
    (hf : files (c.store name) = none) :
    (run (one g) c ⟨fun _ => none, files⟩ [.put name body, .get (locPrefix ++ name) size]).2 = [(200, []), (200, [])] := by
  have h1 := loc_ne name
  have h2 : ¬ name = locPrefix ++ name := fun h => h1 h.symm
  by_cases hl : body.length ≤ c.limit <;> simp [run, step, one, upd, exist, hb, hf, hl, loc_nil]

/-- A record can be forged: whoever stores the encoding of a record as the shard `TempInfo_x` then reads and extends any file of the
server, here the file `p`, through the requests for uploads. -/
theorem C128_forged (g : Codec) (c : Conf) (files : Str → Option Bytes) (x n i p : Str) (size : Nat) (content body : Bytes)
    (hfree : files (c.store (tempPrefix ++ x)) = none) (hp : files p = some content)
    (hl : (g.enc ⟨n, i, p⟩).length ≤ c.limit) (hb : body ≠ []) :
    (run (one g) c ⟨fun _ => none, files⟩
      [.put (tempPrefix ++ x) (g.enc ⟨n, i, p⟩), .tget (tempPrefix ++ x) size]).2 = [(200, []), (200, content.take size)] ∧
    (run (one g) c ⟨fun _ => none, files⟩
      [.put (tempPrefix ++ x) (g.enc ⟨n, i, p⟩), .patch (tempPrefix ++ x) body]).1.files p = some (content ++ body) := by
  have hne : p ≠ c.store (tempPrefix ++ x) := by rintro rfl; rw [hfree] at hp; cases hp
  have h1 : ¬ (tempPrefix ++ x = locPrefix ++ (tempPrefix ++ x)) := fun h => loc_ne _ h.symm
  constructor <;> simp [run, step, one, upd, exist, g.ne, hfree, hl, g.ok, hne, hp, hb]

/-- What a cleaner removes below the directory for uploads when an entry vanishes, temp_service.go:43-56. -/
def cleaned (g : Codec) (key : Str) (value : Bytes) : Option Str :=
  if tempPrefix.isPrefixOf key then (g.dec value).map (·.id) else none

/-- The records of uploads have the id they are stored with, but a forged one names any file, also outside the directory. -/
theorem C128_cleaner (g : Codec) (c : Conf) (files : Str → Option Bytes) (x : Str) (t : Info)
    (hfree : files (c.store (tempPrefix ++ x)) = none) (hl : (g.enc t).length ≤ c.limit) :
    ((run (one g) c ⟨fun _ => none, files⟩ [.put (tempPrefix ++ x) (g.enc t)]).1.cache (tempPrefix ++ x)).bind
      (cleaned g (tempPrefix ++ x)) = some t.id := by
  have h2 : tempPrefix.isPrefixOf (tempPrefix ++ x) = true := by
    rw [List.isPrefixOf_iff_prefix]; exact List.prefix_append _ _
  have h3 : ∀ y, (step (one g) c ⟨fun _ => none, files⟩ (.put (tempPrefix ++ x) y)).1.cache (tempPrefix ++ x) =
      if y = [] then none else if y.length ≤ c.limit then some y else none := by
    intro y
    have h1 : ¬ (tempPrefix ++ x = locPrefix ++ (tempPrefix ++ x)) := fun h => loc_ne _ h.symm
    by_cases hy : y = []
    · simp [step, hy]
    · by_cases hyl : y.length ≤ c.limit <;> simp [step, one, upd, exist, hfree, hy, hyl, h1]
  show ((step (one g) c _ _).1.cache _).bind _ = _
  rw [h3, if_neg (g.ne t), if_pos hl]
  show cleaned g _ _ = _
  unfold cleaned
  rw [if_pos h2, g.ok]
  rfl

/-- An encoding of texts for examples: a 1 and three bytes for each character; a 0 ends the text. -/
def encStr (l : Str) : Bytes := l.flatMap fun ch => [1, (ch.toNat / 65536).toUInt8, (ch.toNat / 256 % 256).toUInt8, (ch.toNat % 256).toUInt8]

def decStr : Bytes → Option (Str × Bytes)
  | 1 :: a :: b :: c :: l => (decStr l).map fun r => (Char.ofNat (a.toNat * 65536 + b.toNat * 256 + c.toNat) :: r.1, r.2)
  | 0 :: l => some ([], l)
  | _ => none

theorem decStr_enc (l : Str) (r : Bytes) : decStr (encStr l ++ 0 :: r) = some (l, r) := by
  induction l with
  | nil => rfl
  | cons ch l ih =>
    have h1 : encStr (ch :: l) ++ 0 :: r =
        1 :: (ch.toNat / 65536).toUInt8 :: (ch.toNat / 256 % 256).toUInt8 :: (ch.toNat % 256).toUInt8 :: (encStr l ++ 0 :: r) := by
      simp [encStr]
    have hv : ch.toNat < 1114112 := by
      have := ch.valid
      rcases this with h | h
      · show ch.val.toNat < _; omega
      · show ch.val.toNat < _; omega
    have h2 : (ch.toNat / 65536).toUInt8.toNat * 65536 + (ch.toNat / 256 % 256).toUInt8.toNat * 256 + (ch.toNat % 256).toUInt8.toNat =
        ch.toNat := by
      simp only [Nat.toUInt8, UInt8.toNat_ofNat']
      omega
    rw [h1]
    show Option.map _ (decStr (encStr l ++ 0 :: r)) = _
    rw [ih]
    simp only [Option.map_some, h2, Char.ofNat_toNat]

def toy : Codec where
  enc t := encStr t.name ++ 0 :: (encStr t.id ++ 0 :: (encStr t.full ++ [0]))
  dec b := do
    let (n, b) ← decStr b
    let (i, b) ← decStr b
    let (f, _) ← decStr b
    pure ⟨n, i, f⟩
  ok t := by simp [decStr_enc]
  ne t := by simp

/-- A directory for shards and one for uploads. -/
def exConf : Conf := ⟨fun n => 's' :: '/' :: n, fun i => 't' :: '/' :: i, 1000⟩

/-- The file with the configuration of the server. -/
def exFiles : Str → Option Bytes := fun p => if p = ['c'] then some [7, 8, 9] else none

example : exFiles (exConf.store (tempPrefix ++ ['x'])) = none ∧ exFiles ['c'] = some [7, 8, 9] ∧
    (toy.enc ⟨['n'], ['i'], ['c']⟩).length ≤ exConf.limit := by decide

example : ∀ r ∈ [Req.post (tempPrefix ++ ['1']) ['h', '.', '0'], .patch (tempPrefix ++ ['1']) [1, 2], .tput (tempPrefix ++ ['1']),
    .get ['h', '.', '0'] 2], r.Good := by
  intro r hr
  simp only [List.mem_cons, List.not_mem_nil, or_false] at hr
  rcases hr with rfl | rfl | rfl | rfl
  · exact ⟨List.prefix_append _ _, by decide, by decide⟩
  · exact List.prefix_append _ _
  · exact List.prefix_append _ _
  · exact ⟨by decide, by decide⟩

/-- The statement of C128: whatever the names are, the answers are those of a server with a table for each kind. -/
theorem C128_statement_fails : ¬ ∀ (g : Codec) (c : Conf) (files : Str → Option Bytes) (rs : List Req),
    (run (one g) c ⟨fun _ => none, files⟩ rs).2 = (run three c ⟨.empty, files⟩ rs).2 := by
  intro h
  have h1 := h toy exConf exFiles [.post ['i'] ['n'], .get ['i'] 1]
  rw [C128_record_read] at h1
  cases h1

end Verif.CacheKeys
