import Verif.Object.EndToEnd
import Verif.Object.CopyRead
import Verif.Object.RSSeek
import Verif.Api.Store

/-!
# Compressed objects (model): C87

Data servers may store files compressed with github.com/klauspost/compress/s2.  Models `GetFileCompress`,
`AppendFileCompress`, `CommitFile` (src/objectserver/internal/usecase/service/objects_service.go) and the use of
the flag by the streams of the API server (rs_get_stream.go, copy_get_stream.go, get_stream.go, big_api.go).
The library appears as a parameter that meets its documented contract.
-/

namespace Verif.Object.Compress

open Verif Verif.Object

/-- The first chunk of every stream of the library: the stream identifier (s2 documentation, "framing format"). -/
def magic : Bytes := [0xff, 0x06, 0x00, 0x00, 0x53, 0x32, 0x73, 0x54, 0x77, 0x4f]

/-- The contract of the library.  `enc`: everything written through `s2.NewWriter` until `Close`.  `dec`: what
`s2.NewReader` delivers, and whether it ends with an error. -/
structure S2 where
  enc : Bytes → Bytes
  dec : Bytes → Bytes × Bool
  round : ∀ b, dec (enc b) = (b, false)
  /-- an empty stream is the end of the stream, not an error -/
  nothing : dec [] = ([], false)
  ident : ∀ b, b ≠ [] → magic <+: enc b
  /-- a stream has to begin with the stream identifier -/
  refuse : ∀ x xs, x ≠ 0xff → dec (x :: xs) = ([], true)

/-- `GetFileCompress`, objects_service.go:245-262: the offset is one in the compressed file.  The bytes written and
whether an error is reported; the limit hides errors behind it. -/
def getFileCompress (z : S2) (f : Bytes) (off size : Nat) : Bytes × Bool :=
  let r := z.dec (f.drop off)
  if size ≤ r.1.length then (r.1.take size, false) else r

/-- `service.Get` for a file that is there, objects_service.go:109-125: one of the two functions, by the flag of the
request.  Simplified: an error behind the first bytes (a damaged file) is an error of the whole request; the code
then sends the bytes followed by the message.  Size 0 is refused by the binding. -/
def readShard (z : S2) (compress : Bool) (lost : Nat) (f : Bytes) (off size : Nat) : Option Bytes :=
  if compress then
    match getFileCompress z f off size with
    | (b, false) => some b
    | (_, true) => none
  else getFile lost f off size

/-- The file that a temporary file becomes, `CommitFile`, objects_service.go:286-326, if it was not there before:
compressed or renamed. -/
def commitAs (z : S2) (compress : Bool) (tmp : Bytes) : Bytes := if compress then z.enc tmp else tmp

/-- The file `Put` makes of a body, objects_service.go:82-106: used for the repair of copies
(copy_fix_stream.go:63). -/
def putFile (z : S2) (compress : Bool) (B : Nat) (body : Bytes) : Bytes :=
  if compress then z.enc body else storePieces B [body]

/-- `provideGetStream`, rs_get_stream.go:27-49, with the recorded flag: as `readersOf`. -/
def readersWith (z : S2) (compress : Bool) (lost : Nat → Nat) (c : RsConfig) (size : Nat) (up : Nat → Bool)
    (files : List Bytes) : List (Option Bytes) :=
  files.mapIdx fun i f => if up i then readShard z compress (lost i) f 0 (c.shardSize size) else none

/-- `NewCopyGetStream` and `GetStream`, with the recorded flag: as `copyRead`. -/
def copyReadWith (z : S2) (compress : Bool) (lost : Nat) (holds : Cluster) (up : Nat → Bool) (pick : Nat → Nat)
    (loc : List Nat) (size off : Nat) : Option Bytes :=
  match (openCopies holds up pick 0 loc).chosen with
  | none => none
  | some (i, s) =>
    match holds s i with
    | none => none
    | some f => readShard z compress lost f off size

/-- What a client gets of a sequence of reads: everything until the first error or the end. -/
def bodyOf : List (Except RdErr Bytes) → Bytes
  | .ok b :: rest => b ++ bodyOf rest
  | _ => []

/-- The flag with which a resumable upload that ran through all its PATCH requests commits its shards
(rs_resumable_stream.go:36, the token's) and the flag it records (big_api.go:183-191). -/
def resumableFlags (asked : Bool) (hash : Str) (size ds ps shard : Int) (loc : List Str) : Bool × Bool :=
  (asked, (Api.bigVersion hash size ds ps shard loc).compress)

/-- A codec that meets the contract: nothing is compressed. -/
def plainS2 : S2 where
  enc b := if b = [] then [] else magic ++ b
  dec b := if b = [] then ([], false) else if b.take 10 = magic then (b.drop 10, false) else ([], true)
  round b := by
    by_cases h : b = []
    · simp [h]
    · simp [h, magic]
  nothing := by simp
  ident b h := by simp [h]
  refuse x xs hx := by
    have : (x :: xs).take 10 ≠ magic := by
      intro h
      simp only [magic, List.take_succ_cons, List.cons.injEq] at h
      exact hx h.1
    simp only [reduceCtorEq, if_false, if_neg this]

end Verif.Object.Compress
