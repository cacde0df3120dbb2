import Verif.Common.Str

/-!
# What becomes of the bodies of HTTP answers: C110

* src/apiserver/internal/usecase/webapi/object_server.go 14-221, meta_server.go 16-173, bucket_api.go 12-95;
* src/adminserver/internal/usecase/webapi/api_server.go 15-158, metadata_server.go 13-45; controller/http/object.go `Download` 45-65;
* src/common/response/resp_util.go `MessageFromJSONBody` 10-26, src/common/util/util.go `UnmarshalPtrFromIO` 167-178,
  `UnmarshalFromIO` 180-191, `CloseAndLog` 109-113;
* src/apiserver/internal/usecase/service/get_stream.go 18-83, temp_stream.go 26-63, copy_get_stream.go 45-69, rs_get_stream.go 16-139,
  rs_decoder.go `getData` 63-92; controller/http/objects_api.go `Get` 58-94;
* src/apiserver/internal/usecase/componet/auth/callback_validator.go `Verify` 25-36;
* src/objectserver/internal/usecase/service/migration_service.go `getPeersCapacity` 46-63.

A client of net/http has to close the body of every answer or read it to its end: until then the stream of the answer and the
connection (or its share of the flow-control window, as the API server speaks HTTP/2) are not given back.  An answer without content
has nothing to give back.  What the functions return is in `Api/Locate`, `Api/Streams` and others; here only the bodies are followed.
Addresses, headers and contents are left out: they decide nothing about bodies.
-/

namespace Verif.Bodies
open Verif

/-- Every body handed out so far, in order: `true` while it has to be closed. -/
abbrev Heap := List Bool

/-- How many bodies are still to be closed. -/
def live (h : Heap) : Nat := h.count true

/-- What sending a request comes to: no answer, or a status, whether the body can be read to its end, whether it is empty. -/
inductive Ans
  | refused
  | resp (status : Nat) (readable empty : Bool)
deriving DecidableEq

/-- `Body.Close`, or reading a body to its end: both give back what it holds, and doing it again does nothing. -/
def shut (i : Nat) (h : Heap) : Heap := h.set i false

/-- `Client.Do`: the body of an answer is a new one; an empty body holds nothing. -/
def send (a : Ans) (h : Heap) : Option (Nat × Nat × Bool) × Heap :=
  match a with
  | .refused => (none, h)
  | .resp st rd em => (some (h.length, st, rd), h ++ [!em])

/-- The ways in which the functions treat a body. -/
inductive Style
  | deferred   -- `defer resp.Body.Close()` after the error of `Do`
  | onError    -- `MessageFromJSONBody(resp.Body)` for another status than wanted, nothing for the wanted one
  | decode     -- the same, and `Unmarshal…FromIO(resp.Body)` or `defer resp.Body.Close()` for the wanted one
  | readAll    -- `io.ReadAll(resp.Body)`, `return` on failure, then `defer resp.Body.Close()`
  | handOver   -- `MessageFromJSONBody(resp.Body)` for another status, else the body is returned
  | raw        -- the answer is returned
  | never      -- nothing
deriving DecidableEq

/-- The functions which send a request. -/
inductive Call
  -- object_server.go
  | DeleteTmpObject | PostTmpObject | PatchTmpObject | PutTmpObject | HeadTmpObject | GetTmpObject | GetObject | HeadObject | PutObject
  | PingObject | StatObject
  -- bucket_api.go
  | GetBucket | PutBucket | PostBucket | DeleteBucket | ListBucket
  -- meta_server.go
  | GetMetadata | PostMetadata | PutMetadata | DelMetadata | ListMetadata | GetVersion | ListVersion | PostVersion | PutVersion
  | DelVersion
  -- adminserver
  | adminListVersion | adminPutObjects | adminGetObjects | adminCheckToken | adminCreateBucket | adminUpdateBucket
  | adminDeleteBucket | adminGetAPIConfig | adminListMetadata | adminListBuckets
  -- callback_validator.go, migration_service.go
  | Verify | peerStat
deriving DecidableEq

/-- How each function treats the body of its answer, and the status it asks for.
Lines: object_server.go 24, 40-44, 59, 86, 110, 139, 152, 165, 188, 201, 214; bucket_api.go 22-26, 39, 56, 73, 90;
meta_server.go 22-25, 39-42, 61-64, 77-80, 89-92, 101-104, 113-119, 132-135, 152-155, 169-172; api_server.go 27, 50, 68-71, 84, 101, 118,
135, 152; metadata_server.go 21, 38; callback_validator.go 32-35; migration_service.go 55-60. -/
def styleOf : Call → Style × Nat
  | .DeleteTmpObject => (.deferred, 200)
  | .PostTmpObject => (.readAll, 200)
  | .PatchTmpObject => (.deferred, 200)
  | .PutTmpObject => (.deferred, 200)
  | .HeadTmpObject => (.deferred, 200)
  | .GetTmpObject => (.raw, 200)
  | .GetObject => (.raw, 200)
  | .HeadObject => (.deferred, 200)
  | .PutObject => (.deferred, 200)
  | .PingObject => (.deferred, 200)
  | .StatObject => (.deferred, 200)
  | .GetBucket => (.deferred, 200)
  | .PutBucket => (.deferred, 200)
  | .PostBucket => (.deferred, 201)
  | .DeleteBucket => (.deferred, 204)
  | .ListBucket => (.deferred, 200)
  | .GetMetadata => (.decode, 200)
  | .PostMetadata => (.onError, 201)
  | .PutMetadata => (.onError, 200)
  | .DelMetadata => (.onError, 204)
  | .ListMetadata => (.decode, 200)
  | .GetVersion => (.decode, 200)
  | .ListVersion => (.decode, 200)
  | .PostVersion => (.onError, 201)
  | .PutVersion => (.onError, 200)
  | .DelVersion => (.onError, 204)
  | .adminListVersion => (.deferred, 200)
  | .adminPutObjects => (.deferred, 201)
  | .adminGetObjects => (.handOver, 200)
  | .adminCheckToken => (.deferred, 200)
  | .adminCreateBucket => (.deferred, 201)
  | .adminUpdateBucket => (.deferred, 200)
  | .adminDeleteBucket => (.deferred, 204)
  | .adminGetAPIConfig => (.deferred, 200)
  | .adminListMetadata => (.deferred, 200)
  | .adminListBuckets => (.deferred, 200)
  | .Verify => (.onError, 200)
  | .peerStat => (.never, 200)

/-- What a function does with the answer: the body it hands to its caller, with the status, and the bodies afterwards. -/
def treat (s : Style) (want : Nat) (a : Ans) (h : Heap) : Option (Nat × Nat) × Heap :=
  match send a h with
  | (none, h) => (none, h)
  | (some (i, st, rd), h) =>
    match s with
    | .deferred => (none, shut i h)
    | .onError => if st ≠ want then (none, shut i h) else (none, h)
    | .decode => (none, shut i h)
    | .readAll => if rd then (none, shut i h) else (none, h)
    | .handOver => if st ≠ want then (none, shut i h) else (some (i, st), h)
    | .raw => (some (i, st), h)
    | .never => (none, h)

/-- A call of one of the functions. -/
def call (c : Call) (a : Ans) (h : Heap) : Option (Nat × Nat) × Heap := treat (styleOf c).1 (styleOf c).2 a h

/-! ## Streams -/

/-- What is done with the reader of one shard or copy: `Read` or `ReadFull`, `Seek`, `Close`.  `a` is the answer if a request is sent,
`fin` says whether the body is read to its end. -/
inductive Op
  | read (a : Ans) (fin : Bool)
  | seek (off : Int) (fromEnd : Bool) (a : Ans) (fin : Bool)
  | close
deriving DecidableEq

/-- The readers of a download, each with its body if it has one, and all bodies. -/
structure St where
  rd : Nat → Option Nat
  heap : Heap

def setAt {α : Type} (f : Nat → α) (i : Nat) (x : α) : Nat → α := fun j => if j = i then x else f j

/-- get_stream.go:34-44, temp_stream.go:33-43 -/
def request (i : Nat) (a : Ans) (s : St) : St :=
  match call .GetObject a s.heap with
  | (none, h) => { s with heap := h }
  | (some (b, st), h) => if st ≠ 200 then { s with heap := h } else { rd := setAt s.rd i (some b), heap := h }

/-- Reading from the body a reader has. -/
def consume (i : Nat) (fin : Bool) (s : St) : St :=
  match s.rd i with
  | none => s
  | some b => if fin then { s with heap := shut b s.heap } else s

/-- get_stream.go `Read` 69-76, `Seek` 46-67, `Close` 78-83; temp_stream.go `Read` 49-56, `Close` 58-63 (its `Seek` does nothing). -/
def op (i : Nat) (o : Op) (s : St) : St :=
  match o with
  | .read a fin =>
    match s.rd i with
    | none => consume i fin (request i a s)
    | some _ => consume i fin s
  | .seek off fromEnd a fin =>
    if off < 0 then s
    else if fromEnd then s
    else
      match s.rd i with
      | none => request i a s
      | some _ => if off > 0 then consume i fin s else s
  | .close =>
    match s.rd i with
    | none => s
    | some b => { s with heap := shut b s.heap }

/-- Operations on several readers in any order: the shards are read by goroutines of their own (rs_decoder.go:79-91). -/
def run : List (Nat × Op) → St → St
  | [], s => s
  | (i, o) :: es, s => run es (op i o s)

/-- A download that begins: no reader has sent its request (get_stream.go:20-26). -/
def opened (h : Heap) : St := { rd := fun _ => none, heap := h }

/-- rs_get_stream.go:113-139: `Close` commits the writers and does nothing with the readers, which are of the type `io.Reader`. -/
def rsClose (s : St) : St := s

/-- copy_get_stream.go:59-69: after the writer the only reader is closed.  (The writer, copy_fix_stream.go:39-83, calls `PutObject`.) -/
def copyClose (s : St) : St := op 0 .close s

/-- objects_api.go:76-88 with a replicated object: `Seek` if a range is asked for, `io.Copy` unless that failed, `Close` at the end.
`io.Copy` ends at the first error: a read that gets no body. -/
def getCopy (first : Option Int) (a : Ans) (fins : List Bool) (h : Heap) : Heap :=
  let s := opened h
  let s := match first with
    | none => s
    | some f => op 0 (.seek f false a false) s
  if first ≠ none ∧ s.rd 0 = none then (copyClose s).heap
  else
    let s := match fins with
      | [] => s
      | x :: xs =>
        let s := op 0 (.read a x) s
        if s.rd 0 = none then s else run (xs.map fun y => (0, Op.read a y)) s
    (copyClose s).heap

/-! ## Callers of the other functions -/

/-- migration_service.go:46-63: the peers with their answers. -/
def getPeersCapacity (self : Str) : List (Str × Ans) → Heap → Heap
  | [], h => h
  | (ip, a) :: ps, h => if ip = self then getPeersCapacity self ps h else getPeersCapacity self ps (call .peerStat a h).2

/-- object.go:55-64 of the administration server: what `Download` returned is copied and not closed. -/
def adminDownload (a : Ans) (fin : Bool) (h : Heap) : Heap :=
  match call .adminGetObjects a h with
  | (none, h) => h
  | (some (b, _), h) => if fin then shut b h else h

/-- callback_validator.go:25-36 for one request after the other. -/
def verifyAll : List Ans → Heap → Heap
  | [], h => h
  | a :: as, h => verifyAll as (call .Verify a h).2

/-! ## Specification -/

/-- The functions whose every call gives its body back. -/
def careful : List Call :=
  [.DeleteTmpObject, .PatchTmpObject, .PutTmpObject, .HeadTmpObject, .HeadObject, .PutObject, .PingObject, .StatObject, .GetBucket,
   .PutBucket, .PostBucket, .DeleteBucket, .ListBucket, .GetMetadata, .ListMetadata, .GetVersion, .ListVersion, .adminListVersion,
   .adminPutObjects, .adminCheckToken, .adminCreateBucket, .adminUpdateBucket, .adminDeleteBucket, .adminGetAPIConfig,
   .adminListMetadata, .adminListBuckets]

/-- What one can say of a reader from outside. -/
inductive Ph
  | fresh     -- no answer with status 200 so far
  | reading   -- such an answer, with content not yet read
  | done      -- its content has been read, or the reader closed, or there was none
deriving DecidableEq

/-- A request is sent: the next phase, and whether an answer was thrown away with content. -/
def asked : Ans → Ph × Nat
  | .refused => (.fresh, 0)
  | .resp st _ em => if st = 200 then (if em then .done else .reading, 0) else (.fresh, if em then 0 else 1)

/-- Content is read up to its end, or not. -/
def ended (fin : Bool) : Ph → Ph
  | .fresh => .fresh
  | .reading => if fin then .done else .reading
  | .done => .done

/-- What an operation makes of a reader in a phase. -/
def phase (o : Op) (p : Ph) : Ph × Nat :=
  match o with
  | .read a fin => if p = .fresh then (ended fin (asked a).1, (asked a).2) else (ended fin p, 0)
  | .seek off fromEnd a fin =>
    if off < 0 ∨ fromEnd = true then (p, 0)
    else if p = .fresh then asked a
    else if off = 0 then (p, 0) else (ended fin p, 0)
  | .close => (ended true p, 0)

/-- Readers followed from outside: their phases, and the answers thrown away. -/
def follow : List (Nat × Op) → (Nat → Ph) → Nat → (Nat → Ph) × Nat
  | [], ph, n => (ph, n)
  | (i, o) :: es, ph, n => follow es (setAt ph i (phase o (ph i)).1) (n + (phase o (ph i)).2)

/-- How many of the first `k` readers still hold a body. -/
def holding (ph : Nat → Ph) (k : Nat) : Nat := (List.range k).countP fun i => ph i == .reading

end Verif.Bodies
