import Verif.Object.DataServer

/-!
# Requests for one shard that a data server handles at once (C113)

`Object/Paths` (C67) treats one request after the other and leaves only the goroutines they start to
interleave.  Here the requests themselves are cut into the operations they perform on the files of one
shard: `PUT /objects/:name`, the commit of a temporary object without compression, `DELETE` and `GET`.

Modelled: src/objectserver/internal/controller/http/objects/objects_rest.go:17-63,
src/objectserver/internal/usecase/service/objects_service.go:82-187, 230-242, 286-326,
src/common/system/disk/aligend_reader.go:36-46.

Simplified: whether a shard exists is asked of the files themselves (the marks and the path database in
front of them are C67); the content cache in front of `Get` is C50; `GET` begins at offset 0; compressed
shards are left out (C87).  Trusted: the file system.  A write to a file opened with `O_APPEND` is put
behind everything in it as one piece, a file that is removed or replaced stays for those who have it
open, and a rename replaces the file in one step.
-/

namespace Verif.Object.Race

/-- What a request is answered with. -/
inductive Ans
  | ok
  | fail
  | notFound
  | content (b : Bytes)
  deriving DecidableEq

/-- How far a request has come.  `body` is what is still to be read of the body of a request: a body that
is cut off is a body that ends early, because `AlignedReader` turns the `io.ErrUnexpectedEOF` with which
`net/http` reports it into the end of the stream (aligend_reader.go:39-41); `fails`: any other error. -/
inductive Proc
  /-- `PUT`, before the question of the handler, objects_rest.go:26 -/
  | putFirst (body : Src)
  /-- `PUT`, before the question of the service, objects_service.go:83 -/
  | putSecond (body : Src)
  /-- `PUT`, before the file is opened, objects_service.go:87, 231 -/
  | putOpen (body : Src)
  /-- `PUT`, in the loop of `io.CopyBuffer`, objects_service.go:236 -/
  | putWrite (ino : Nat) (body : Src)
  /-- the commit of a temporary object on drive `d`, before line 289 -/
  | commit (d : Nat) (tmp : Bytes)
  /-- the same before line 311 -/
  | commitMove (d : Nat) (tmp : Bytes)
  /-- `DELETE`, before line 156 -/
  | delete
  /-- `DELETE`, before line 183 -/
  | deleteAt
  /-- `GET` of `size` bytes, before line 110 -/
  | get (size : Nat)
  /-- the same before line 130 -/
  | getOpen (size : Nat)
  /-- the same in the loop of line 150; `got` was sent -/
  | getRead (ino size : Nat) (got : Bytes)
  | done (a : Ans)

/-- The drives, and the lengths of the buffers that are used for writing and for reading. -/
structure Conf where
  drives : List Nat
  B : Nat
  R : Nat

/-- The file of the shard on every drive, what is in the files (also in those that have no name any
more), the number of the next file, and the requests. -/
structure St where
  dir : Nat → Option Nat
  data : Nat → Bytes
  next : Nat
  procs : Nat → Proc

def upd (f : Nat → α) (i : Nat) (v : α) : Nat → α := fun j => if j = i then v else f j

@[simp] theorem upd_same (f : Nat → α) (i : Nat) (v : α) : upd f i v i = v := by simp [upd]

theorem upd_other (f : Nat → α) {i j : Nat} (v : α) (h : j ≠ i) : upd f i v j = f j := by simp [upd, h]

def St.to (s : St) (i : Nat) (p : Proc) : St := { s with procs := upd s.procs i p }

/-- `Exist`, objects_service.go:26-47: is there a file on one of the drives? -/
def St.exist (c : Conf) (s : St) : Bool := c.drives.any fun d => (s.dir d).isSome

/-- The next operation of request `i`.  `d` is the drive that is chosen (`SelectMountPointFallback` in
`Put`) or at which the shard is found (`FindRealStoragePath` in `Get` and `Delete`).

* `putFirst`, `putSecond`: objects_rest.go:26-29, objects_service.go:83-85
* `putOpen`: lines 87-88 and 231 with `O_APPEND|O_WRONLY|O_CREATE`
* `putWrite`: one pass of `io.CopyBuffer` in line 236; what was read is written even if there was an
  error
* `commit`, `commitMove`: lines 289-291 and 311
* `delete`, `deleteAt`: lines 156-158 and 183 (a file that is gone is no error)
* `get`, `getOpen`, `getRead`: lines 110-112, 130-133 and one pass of line 150 -/
def step (c : Conf) (s : St) (i d : Nat) : St :=
  match s.procs i with
  | .putFirst b => s.to i (if s.exist c then .done .ok else .putSecond b)
  | .putSecond b => s.to i (if s.exist c then .done .ok else .putOpen b)
  | .putOpen b =>
    match s.dir d with
    | some ino => s.to i (.putWrite ino b)
    | none =>
      { dir := upd s.dir d (some s.next), data := upd s.data s.next [], next := s.next + 1,
        procs := upd s.procs i (.putWrite s.next b) }
  | .putWrite ino b =>
    { s with
      data := upd s.data ino (s.data ino ++ (padRead b c.B).1)
      procs := upd s.procs i
        (match (padRead b c.B).2.1 with
          | none => .putWrite ino (padRead b c.B).2.2
          | some .eof => .done .ok
          | some .fail => .done .fail) }
  | .commit e tmp => s.to i (if (s.dir e).isSome then .done .ok else .commitMove e tmp)
  | .commitMove e tmp =>
    { dir := upd s.dir e (some s.next), data := upd s.data s.next tmp, next := s.next + 1,
      procs := upd s.procs i (.done .ok) }
  | .delete => s.to i (if s.exist c then .deleteAt else .done .ok)
  | .deleteAt => { s with dir := upd s.dir d none, procs := upd s.procs i (.done .ok) }
  | .get n => s.to i (if s.exist c then .getOpen n else .done .notFound)
  | .getOpen n =>
    match s.dir d with
    | some ino => s.to i (.getRead ino n [])
    | none => s.to i (.done .notFound)
  | .getRead ino n got =>
    let b := ((s.data ino).drop got.length).take (min c.R (n - got.length))
    s.to i (if b = [] then .done (.content got) else .getRead ino n (got ++ b))
  | .done _ => s

/-- A schedule: which request goes on, and with which drive. -/
def run (c : Conf) : St → List (Nat × Nat) → St
  | s, [] => s
  | s, (i, d) :: l => run c (step c s i d) l

/-- The server before the requests: no shard of this name on any drive. -/
def start (reqs : Nat → Proc) : St := ⟨fun _ => none, fun _ => [], 0, reqs⟩

/-! ## Specification -/

/-- The buffers are as on a Linux system: pages, and not empty. -/
def Conf.Good (c : Conf) : Prop := 0 < c.B ∧ pageSize ∣ c.B ∧ 0 < c.R

/-- The requests concern the shard with content `x`: whoever stores it sends `x` or breaks off, temporary
objects hold `x`, and whoever reads it asks for the recorded size. -/
def Concerns (x : Bytes) : Proc → Prop
  | .putFirst b => ∃ k, b.data = x.take k
  | .commit _ tmp => tmp = padded x
  | .delete => True
  | .get n => n = x.length
  | .done .notFound => True
  | _ => False

/-- Bodies arrive whole. -/
def Whole (x : Bytes) : Proc → Prop
  | .putFirst b => b = ⟨x, false⟩
  | _ => True

def NoDelete : Proc → Prop
  | .delete => False
  | _ => True

/-- No request stores the shard in pieces. -/
def NoPut : Proc → Prop
  | .putFirst _ => False
  | _ => True

/-- The drives of a schedule and of the commits are drives of the server. -/
def OnDrives (c : Conf) (reqs : Nat → Proc) (l : List (Nat × Nat)) : Prop :=
  (∀ e ∈ l, e.2 ∈ c.drives) ∧ ∀ i e tmp, reqs i = .commit e tmp → e ∈ c.drives

/-- No `PUT` is under way. -/
def Quiet (s : St) : Prop := ∀ i ino b, s.procs i ≠ .putWrite ino b

/-- The shard is there: on some drive is a file whose first bytes are `x`. -/
def Stored (c : Conf) (x : Bytes) (s : St) : Prop :=
  ∃ d ∈ c.drives, ∃ ino, s.dir d = some ino ∧ (s.data ino).take x.length = x

/-- Storing is all or nothing: who reads the shard gets the whole shard; once a request to store it was
answered with success and no other `PUT` is under way the shard is there; and if every request to store it
failed there is no file. -/
structure AllOrNothing (c : Conf) (x : Bytes) (reqs : Nat → Proc) (s : St) : Prop where
  reads : ∀ i b, s.procs i = .done (.content b) → b = x
  stored : (∀ i, NoDelete (reqs i)) → Quiet s → (∃ i, s.procs i = .done .ok) → Stored c x s
  nothing : (∀ i a, s.procs i = .done a → a ≠ .ok) → Quiet s → ∀ d, s.dir d = none

/-- The whole property. -/
def C113_statement : Prop :=
  ∀ (c : Conf) (x : Bytes) (reqs : Nat → Proc) (l : List (Nat × Nat)), c.Good → (∀ i, Concerns x (reqs i)) →
    OnDrives c reqs l → AllOrNothing c x reqs (run c (start reqs) l)

/-- In this schedule a file is opened, for storing the shard or for reading it, only while no other request
is writing. -/
def Alone (c : Conf) : St → List (Nat × Nat) → Prop
  | _, [] => True
  | s, (i, d) :: l =>
    ((∃ b, s.procs i = .putOpen b) ∨ (∃ n, s.procs i = .getOpen n) → Quiet s) ∧ Alone c (step c s i d) l

end Verif.Object.Race
