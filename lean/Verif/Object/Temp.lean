import Verif.Object.DataServer

/-!
# Temporary objects of a data server and their cleaners (C80)

Models src/objectserver/internal/controller/http/temp/temp_rest.go and temp_mid.go,
usecase/service/temp_service.go, `CommitFile` and `DeleteFile` of usecase/service/objects_service.go,
`onRemove` and `NotifyEvicted` of src/common/cache/cache.go, and `Open`, `Close` of
usecase/pool/instance.go as far as they start and stop the cleaners.

Simplified: a request runs without interruption (an entry that expires between the filter and the handler
is answered 400 instead of 404); bodies arrive completely (`Verif.Object.Disk` has the other case); the
file system does not fail; paths are lists of components, so `filepath.Join` is concatenation, and the
storage path is absolute; identifiers come from outside (`uuid.NewString`), and so does the chosen mount
point (`Verif.Object.Drives`).  The other users of the cache (existence marks, cached objects) are not
modelled, their notifications are dropped by the cleaners.
-/

namespace Verif.Temp

open Verif.Object (Bytes appendAligned getFile padded)

/-- Components of an absolute path; `[]` is `/`. -/
abbrev Path := List Str

/-- `TempKeyPrefix`, objectserver/internal/entity/dto.go:11. -/
def tempPrefix : Str := "TempInfo_".toList

/-- `TempInfo`, dto.go:25-31.  The field `FullPath` is `fullPath`. -/
structure Info where
  name : Str
  id : Str
  size : Nat
  mount : Path
  deriving DecidableEq

/-- The server: `Config.StoragePath`, which is also `Config.TempPath` (config.go:58-60); the buffer of the
copy loop and the alignment loss (see `appendAligned`, `getFile`); s2 compression. -/
structure Conf where
  store : Path
  B : Nat
  lost : Nat
  comp : Bytes → Bytes

/-- A path in the storage directory of a mount point: `filepath.Join(mp, StoragePath, x)`
(temp_rest.go:54, objects_service.go:287-288). -/
def Conf.at (c : Conf) (mount : Path) (x : Str) : Path := mount ++ (c.store ++ [x])

/-- A channel of `NotifyEvicted` (cache.go:55-59): its buffer, and whether its cleaners run. -/
structure Chan where
  live : Bool
  queue : List Info

structure St where
  /-- the entries of the cache that belong to temporary objects -/
  infos : Str → Option Info
  files : Path → Option Bytes
  /-- `Cache.notifyEvicted` -/
  chans : List Chan
  /-- goroutines of `onRemove` (cache.go:46-53): the entry and the channels it still has to be sent to -/
  notes : List (Info × List Nat)
  /-- `openOnce` is used up -/
  opened : Bool

/-- A server that has just been started, with these files on its disks. -/
def St.start (files : Path → Option Bytes) : St := ⟨fun _ => none, files, [⟨true, []⟩], [], true⟩

inductive Op
  /-- POST /temp/:name; `stored`: the cache accepted the entry. -/
  | post (id name : Str) (size : Nat) (mount : Path) (stored : Bool)
  | patch (id : Str) (body : Bytes)
  | head (id : Str)
  | get (id : Str) (n : Nat)
  | put (id : Str) (compress : Bool)
  | delete (id : Str)
  /-- the cache drops the entry: its time is over, or space is needed -/
  | expire (id : Str)
  /-- a goroutine of `onRemove` sends its entry to the next channel -/
  | send (i : Nat)
  /-- a cleaner of the channel handles an entry -/
  | clean (ch : Nat)
  /-- `LeaveCommand`: `pool.Close` -/
  | leave
  /-- `JoinCommand`: `pool.Open` -/
  | join
  /-- the process ends and is started again -/
  | restart

/-- Answers: a status, or 200 with an identifier, a size header, or a body. -/
inductive Ans
  | status (code : Nat)
  | ident (id : Str)
  | size (n : Nat)
  | data (b : Bytes)
  deriving DecidableEq

def updF {β : Type} (m : Path → Option β) (k : Path) (v : Option β) : Path → Option β :=
  fun x => if x = k then v else m x

/-- An entry leaves the cache: `Cache.Delete` (cache.go:80-85) or eviction; `onRemove` starts a
goroutine that sends the entry to the channels that exist now (cache.go:46-53). -/
def drop (s : St) (id : Str) : St :=
  match s.infos id with
  | none => s
  | some ti =>
    { s with infos := Object.upd s.infos id none, notes := s.notes ++ [(ti, List.range s.chans.length)] }

/-- `CommitFile`, objects_service.go:285-326, without the goroutine that records the path
(`Verif.Object.Paths`).  `AppendFileCompress` writes to a new file. -/
def commit (c : Conf) (files : Path → Option Bytes) (mount : Path) (tmp name : Str) (compress : Bool) :
    Option (Path → Option Bytes) :=
  match files (c.at mount name) with
  | some _ => some files
  | none =>
    match files (c.at mount tmp) with
    | none => none
    | some b =>
      if compress then some (updF files (c.at mount name) (some (c.comp b)))
      else some (updF (updF files (c.at mount tmp) none) (c.at mount name) (some b))

/-- Capacity of a channel of `NotifyEvicted`, cache.go:56. -/
def chanCap : Nat := 5

/-- A goroutine of `onRemove` sends to its next channel (cache.go:49-51).  It waits while the buffer is
full. -/
def send (s : St) (i : Nat) : St :=
  match s.notes[i]? with
  | none => s
  | some (_, []) => { s with notes := s.notes.eraseIdx i }
  | some (e, ch :: rest) =>
    match s.chans[ch]? with
    | none => s
    | some q =>
      if q.queue.length < chanCap then
        { s with
          chans := s.chans.set ch { q with queue := q.queue ++ [e] }
          notes := match rest with
            | [] => s.notes.eraseIdx i
            | _ => s.notes.set i (e, rest) }
      else s

/-- A cleaner receives an entry and deletes its file, temp_service.go:43-56: the path is
`filepath.Join(TempPath, ti.Id)`, without the mount point.  `DeleteFile`, objects_service.go:174-187, does
nothing if the file does not exist. -/
def clean (c : Conf) (s : St) (ch : Nat) : St :=
  match s.chans[ch]? with
  | none => s
  | some q =>
    match q.live, q.queue with
    | true, e :: rest =>
      { s with
        chans := s.chans.set ch { q with queue := rest }
        files := updF s.files (c.at [] e.id) none }
    | _, _ => s

/-- One step with its answer (`none` for steps that are not requests to the temporary objects).
temp_rest.go; `FilterExpired` and `FilterEmptyRequest` (temp_mid.go) run before the handlers
(controller/http/router.go:29-34). -/
def step (c : Conf) (s : St) : Op → St × Option Ans
  | .post id name size mount stored =>
    if size = 0 then (s, some (.status 400))
    else if stored then
      ({ s with infos := Object.upd s.infos id (some ⟨name, id, size, mount⟩) }, some (.ident id))
    else (s, some (.status 500))
  | .patch id body =>
    match s.infos id with
    | none => (s, some (.status 404))
    | some ti =>
      if body = [] then (s, some (.status 400))
      else
        let p := c.at ti.mount ti.id
        let f := (appendAligned c.B ((s.files p).getD []) ⟨body, false⟩).1
        ({ s with files := updF s.files p (some f) }, some (.status 200))
  | .head id =>
    match s.infos id with
    | none => (s, some (.status 404))
    | some ti =>
      match s.files (c.at ti.mount ti.id) with
      | none => (s, some (.size 0))
      | some f => (s, some (.size (min f.length ti.size)))
  | .get id n =>
    match s.infos id with
    | none => (s, some (.status 404))
    | some ti =>
      if n = 0 then (s, some (.status 400))
      else
        match s.files (c.at ti.mount ti.id) with
        | none => (s, some (.status 404))
        | some f =>
          match getFile c.lost f 0 n with
          | none => (s, some (.status 500))
          | some b => (s, some (.data b))
  | .put id compress =>
    match s.infos id with
    | none => (s, some (.status 404))
    | some ti =>
      match commit c s.files ti.mount id ti.name compress with
      | none => (s, some (.status 404))
      | some fs => (drop { s with files := fs } id, some (.status 200))
  | .delete id =>
    match s.infos id with
    | none => (s, some (.status 404))
    | some _ => (drop s id, some (.status 200))
  | .expire id => (drop s id, none)
  | .send i => (send s i, none)
  | .clean ch => (clean c s ch, none)
  | .leave =>
    -- the cancel functions of instance.go:Close end the cleaners; the channels stay in the cache
    (if s.opened then { s with chans := s.chans.map fun q => { q with live := false }, opened := false } else s,
      none)
  | .join =>
    -- app.go:29-46: `StartTempRemovalBackground` appends a channel
    (if s.opened then s else { s with chans := s.chans ++ [⟨true, []⟩], opened := true }, none)
  | .restart => (St.start s.files, none)

/-- A history, with the answers. -/
def run (c : Conf) : St → List Op → St × List (Option Ans)
  | s, [] => (s, [])
  | s, op :: ops =>
    let r := step c s op
    let r' := run c r.1 ops
    (r'.1, r.2 :: r'.2)

/-! ## Specification -/

/-- The uploads that are open, with the bodies received, and the stored objects of each mount point. -/
structure Sp where
  ups : Str → Option (Info × List Bytes)
  objs : Path → Str → Option Bytes

/-- Bytes kept for the received bodies: each is filled up with zeros to a multiple of 4096. -/
def content (ps : List Bytes) : Bytes := (ps.map padded).flatten

/-- One step of the specification.  The answer is `none` for steps without an answer and for reading
beyond the end, which is left open. -/
def specStep (comp : Bytes → Bytes) (m : Sp) : Op → Sp × Option Ans
  | .post id name size mount stored =>
    if size = 0 then (m, some (.status 400))
    else if stored then
      ({ m with ups := Object.upd m.ups id (some (⟨name, id, size, mount⟩, [])) }, some (.ident id))
    else (m, some (.status 500))
  | .patch id body =>
    match m.ups id with
    | none => (m, some (.status 404))
    | some (ti, ps) =>
      if body = [] then (m, some (.status 400))
      else ({ m with ups := Object.upd m.ups id (some (ti, ps ++ [body])) }, some (.status 200))
  | .head id =>
    match m.ups id with
    | none => (m, some (.status 404))
    | some (ti, ps) => (m, some (.size (min (content ps).length ti.size)))
  | .get id n =>
    match m.ups id with
    | none => (m, some (.status 404))
    | some (_, ps) =>
      if n = 0 then (m, some (.status 400))
      else if ps = [] then (m, some (.status 404))
      else if n ≤ (content ps).length then (m, some (.data ((content ps).take n)))
      else (m, none)
  | .put id compress =>
    match m.ups id with
    | none => (m, some (.status 404))
    | some (ti, ps) =>
      let closed := Object.upd m.ups id none
      match m.objs ti.mount ti.name with
      | some _ => ({ m with ups := closed }, some (.status 200))
      | none =>
        if ps = [] then (m, some (.status 404))
        else
          (⟨closed, fun mp x => if mp = ti.mount ∧ x = ti.name then
              some (if compress then comp (content ps) else content ps) else m.objs mp x⟩, some (.status 200))
  | .delete id =>
    match m.ups id with
    | none => (m, some (.status 404))
    | some _ => ({ m with ups := Object.upd m.ups id none }, some (.status 200))
  | .expire id => ({ m with ups := Object.upd m.ups id none }, none)
  | .restart => ({ m with ups := fun _ => none }, none)
  | .send _ => (m, none)
  | .clean _ => (m, none)
  | .leave => (m, none)
  | .join => (m, none)

def specRun (comp : Bytes → Bytes) : Sp → List Op → Sp × List (Option Ans)
  | m, [] => (m, [])
  | m, op :: ops =>
    let r := specStep comp m op
    let r' := specRun comp r.1 ops
    (r'.1, r.2 :: r'.2)

/-- Answers agree: whatever the specification settles is answered. -/
def Agree : List (Option Ans) → List (Option Ans) → Prop
  | [], [] => True
  | a :: as, b :: bs => (∀ x, b = some x → a = some x) ∧ Agree as bs
  | _, _ => False

/-- Identifiers are new and begin with `TempInfo_`, names of objects do not. -/
def Fresh (used : List Str) : List Op → Prop
  | [] => True
  | .post id name _ _ _ :: ops =>
    id ∉ used ∧ hasPrefix id tempPrefix = true ∧ hasPrefix name tempPrefix = false ∧ Fresh (id :: used) ops
  | _ :: ops => Fresh used ops

/-- No temporary files to begin with. -/
def NoTemps (c : Conf) (files : Path → Option Bytes) : Prop :=
  ∀ m x, hasPrefix x tempPrefix = true → files (c.at m x) = none

/-- All notifications are handled. -/
def Quiet (s : St) : Prop := s.notes = [] ∧ ∀ q, q ∈ s.chans → q.queue = []

end Verif.Temp
