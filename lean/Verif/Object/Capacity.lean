import Verif.Object.Rebalance

/-!
# The recorded capacity of a data server (model)

Models the counter a data server answers with in the header `Capacity` of `GET /stat` and from which joining
and leaving servers compute how much to move: `objectserver/internal/db/object_capacity_db.go:7-25` and every
place that changes it, `usecase/service/objects_service.go:80-106,152-188,286-326`,
`usecase/service/migration_service.go:263-279,318-337` and `usecase/service/common.go:13-35`.

Simplifications: a shard has one place (one mount point) in the storage, so a file is a name and a size;
the atomic counter is an unbounded integer; what the cache and the path database answer (`Exist`) is a
parameter of each request, since marks may be stale.  The goroutines started by `Put`, `Delete` and
`CommitFile` are tasks which run at any later moment, in any order.
-/

namespace Verif.Object.Capacity

/-- The files of the storage path: names and sizes. -/
abbrev Files := List (Str × Nat)

/-- The size `os.Stat` reports, 0 for a missing file (`objects_service.go:176-180`). -/
def size : Files → Str → Nat
  | [], _ => 0
  | (m, z) :: r, n => if m = n then z else size r n

/-- `os.Stat` finds the file. -/
def has (f : Files) (n : Str) : Bool := f.any fun e => e.1 = n

/-- Create the file, or let it have another size. -/
def write : Files → Str → Nat → Files
  | [], n, z => [(n, z)]
  | (m, y) :: r, n, z => if m = n then (m, z) :: r else (m, y) :: write r n z

/-- `os.Remove`; a missing file is ignored (`objects_service.go:184`). -/
def remove : Files → Str → Files
  | [], _ => []
  | (m, y) :: r, n => if m = n then r else (m, y) :: remove r n

/-- The bytes the files of the storage path take. -/
def total (f : Files) : Nat := (f.map (·.2)).sum

/-- What a goroutine still has to do: add a number which is already known (`objects_service.go:99-104` and
`:164-169`, the latter with the opposite sign) or ask for the size of a file and add it (`:317-324`). -/
inductive Todo where
  | add (z : Int)
  | stat (n : Str)
deriving DecidableEq, Repr

/-- What a directory walk meets (`common.go:15-24`): a name, `info.Size()` and `info.IsDir()`. -/
structure Entry where
  name : Str
  bytes : Nat
  isDir : Bool
deriving DecidableEq, Repr

/-- The walk of one mount point; `broken` when it meets an error after these entries. -/
structure Walk where
  entries : List Entry
  broken : Bool
deriving DecidableEq, Repr

/-- `entity.TempKeyPrefix` (`objectserver/internal/entity/dto.go:11`). -/
def tempPrefix : Str := "TempInfo_".toList

/-- `WarmUpLocateCache` (`common.go:13-35`): names with the prefix of temporary files are skipped, everything
else is added, directories too; an error ends the warm-up with the mount points that remain. -/
def warmUp : List Walk → Nat
  | [] => 0
  | w :: ws =>
    ((w.entries.filter fun e => !hasPrefix e.name tempPrefix).map (·.bytes)).sum +
      (if w.broken then 0 else warmUp ws)

/-- The server: its files, the counter, goroutines that have not run, deletions between `os.Stat` and
`os.Remove`, and files received from another server that `FinishReceive` has not counted yet. -/
structure State where
  files : Files
  cap : Int
  todo : List Todo
  deleting : List (Str × Nat)
  received : List Str
deriving DecidableEq, Repr

/-- A server that starts with an empty storage; `initObjectCap` (`pool/instance.go:127-129`). -/
def init : State := { files := [], cap := 0, todo := [], deleting := [], received := [] }

/-- What may happen. -/
inductive Act where
  /-- `Put` of a shard: `hit` is what `Exist` answers; `raw` the bytes copied from the request (padded when
  not compressed), `onDisk` the bytes by which the file grows when it is compressed; `fails` when the copy
  ends with an error after that much. -/
  | put (n : Str) (hit compress : Bool) (raw onDisk : Nat) (fails : Bool)
  /-- `CommitFile` of a temporary file of `raw` bytes. -/
  | commit (n : Str) (compress : Bool) (raw onDisk : Nat)
  /-- `Delete` up to `os.Stat`. -/
  | delStat (n : Str) (hit : Bool)
  /-- `Delete` from `os.Remove` on, for the deletion at this position. -/
  | delRemove (i : Nat)
  /-- `ReceiveData`: a file of this size arrives from another server. -/
  | receive (n : Str) (z : Nat)
  /-- `FinishReceive`. -/
  | finish (n : Str) (z : Nat)
  /-- A goroutine runs. -/
  | run (i : Nat)
  /-- The process ends and starts again; the walks are those of `WarmUpLocateCache`. -/
  | restart (walks : List Walk)
deriving Repr

/-- The value a goroutine adds when it runs now. -/
def value (f : Files) : Todo → Int
  | .add z => z
  | .stat n => size f n

/-- `Put` (`objects_service.go:80-106`): nothing when `Exist`; otherwise the file is appended to.  Without
compression the number added is the number of bytes written; `AppendFileCompress` (`:259-276`) returns the
number of bytes it has read.  An error leaves the bytes and adds nothing. -/
def put (s : State) (n : Str) (hit compress : Bool) (raw onDisk : Nat) (fails : Bool) : State :=
  if hit then s
  else
    let grown := write s.files n (size s.files n + if compress then onDisk else raw)
    if fails then { s with files := grown }
    else { s with files := grown, todo := s.todo ++ [.add raw] }

/-- `CommitFile` (`objects_service.go:286-326`): nothing when the file exists; the branch for compressed
objects returns before the goroutine is started. -/
def commit (s : State) (n : Str) (compress : Bool) (raw onDisk : Nat) : State :=
  if has s.files n then s
  else if compress then { s with files := write s.files n onDisk }
  else { s with files := write s.files n raw, todo := s.todo ++ [.stat n] }

/-- `Delete` and `DeleteFile` up to `os.Stat` (`objects_service.go:152-158,174-183`). -/
def delStat (s : State) (n : Str) (hit : Bool) : State :=
  if !hit then s
  else if has s.files n then { s with deleting := s.deleting ++ [(n, size s.files n)] }
  else { s with todo := s.todo ++ [.add 0] }

/-- `DeleteFile` and `Delete` from `os.Remove` on (`objects_service.go:184-188,159-171`): the size is the one
of `os.Stat`, whether the file was still there or not. -/
def delRemove (s : State) (i : Nat) : State :=
  match s.deleting[i]? with
  | none => s
  | some (n, z) =>
    { s with files := remove s.files n, deleting := s.deleting.eraseIdx i, todo := s.todo ++ [.add (-z)] }

/-- `ReceiveData` with `OpenFile` (`migration_service.go:318-336`): a file of the same size counts as there;
a file of another size is removed and written anew; the counter is not touched. -/
def receive (s : State) (n : Str) (z : Nat) : State :=
  if has s.files n && size s.files n == z then s
  else { s with files := write s.files n z, received := n :: s.received }

/-- `FinishObject` up to the counter (`migration_service.go:263-279`): the file must be there with the size
announced, and then its size is added — every time. -/
def finish (s : State) (n : Str) (z : Nat) : State :=
  if has s.files n && size s.files n == z then { s with cap := s.cap + z, received := s.received.erase n }
  else s

/-- A goroutine runs. -/
def run (s : State) (i : Nat) : State :=
  match s.todo[i]? with
  | none => s
  | some t => { s with cap := s.cap + value s.files t, todo := s.todo.eraseIdx i }

/-- A new process (`app.go`, `pool/instance.go:127-129`, `common.go:13-35`): the counter starts at zero and
the warm-up adds to it. -/
def restart (s : State) (walks : List Walk) : State :=
  { files := s.files, cap := warmUp walks, todo := [], deleting := [], received := [] }

def step (s : State) : Act → State
  | .put n hit c raw d fails => put s n hit c raw d fails
  | .commit n c raw d => commit s n c raw d
  | .delStat n hit => delStat s n hit
  | .delRemove i => delRemove s i
  | .receive n z => receive s n z
  | .finish n z => finish s n z
  | .run i => run s i
  | .restart w => restart s w

def exec (s : State) (acts : List Act) : State := acts.foldl step s

end Verif.Object.Capacity
