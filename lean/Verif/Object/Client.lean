import Verif.Api.Bind
import Verif.Api.BucketHttp
import Verif.Api.Dedup

/-!
# Requests of the API server to the data servers (model): C86

`src/apiserver/internal/usecase/webapi/object_server.go` builds the requests,
`src/objectserver/internal/controller/http` (router.go, temp/temp_rest.go, objects/objects_rest.go) reads them.
In between are `net/http`, `net/url` and gin (`Verif.Api.BucketHttp`, `Verif.Api.Bind`: trusted base).

Simplified: the host is a valid `ip:port`; the headers that `net/http` adds by itself (`Host`, `User-Agent`,
`Accept-Encoding`, `Content-Length`, `Connection`) are left out, no field of a request type is looked up under
these names; the middlewares `FilterExpired` and `FilterEmptyRequest` and the handlers are `Verif.Temp.step` and
`Verif.Object.DS.step`; a URL with a trailing slash would be redirected by gin, here it has no route.
-/

namespace Verif.Object.Client

open Verif Verif.Api.Bind Verif.Api.BucketHttp

inductive Method
  | get
  | head
  | put
  | post
  | patch
  | delete
  deriving DecidableEq

/-- What the API server wants a data server to do. -/
inductive Call
  | postTmp (name : Str) (size : Int)
  | patchTmp (id : Str)
  | headTmp (id : Str)
  | getTmp (id : Str) (size : Int)
  | putTmp (id : Str) (compress : Bool)
  | deleteTmp (id : Str)
  | getObject (name : Str) (offset size : Int) (compress : Bool)
  | headObject (name : Str)
  | putObject (name : Str) (compress : Bool)
  | deleteObject (name : Str)
  deriving DecidableEq

/-- A request as it is built: the URL behind `http://<ip>`, and the headers. -/
structure Wire where
  method : Method
  target : Str
  header : List (Str × Str) := []

def tempPre : Str := "/temp/".toList
def objPre : Str := "/objects/".toList

/-- `form.Encode()` for the only form used, object_server.go:75-77, 144-146 and 177-179. -/
def compressQuery (c : Bool) : Str := "?compress=".toList ++ Api.fmtBool c

/-- The functions of object_server.go: `PostTmpObject` 31-49, `PatchTmpObject` 51-71, `HeadTmpObject` 100-130,
`GetTmpObject` 132-140, `PutTmpObject` 73-98, `DeleteTmpObject` 14-29, `GetObject` 142-153, `HeadObject` 155-173,
`PutObject` 175-193; `objectRest` and `tempRest` 223-229.  Nothing in the repository asks for `deleteObject`. -/
def ask : Call → Wire
  | .postTmp name size => ⟨.post, tempPre ++ name, [("Size".toList, fmtInt size)]⟩
  | .patchTmp id => ⟨.patch, tempPre ++ id, []⟩
  | .headTmp id => ⟨.head, tempPre ++ id, []⟩
  | .getTmp id size => ⟨.get, tempPre ++ id, [("Size".toList, fmtInt size)]⟩
  | .putTmp id c => ⟨.put, tempPre ++ (id ++ compressQuery c), []⟩
  | .deleteTmp id => ⟨.delete, tempPre ++ id, []⟩
  | .getObject name off size c =>
    ⟨.get, objPre ++ (name ++ compressQuery c),
      [("Range".toList, "bytes=".toList ++ (fmtInt off ++ ['-'])), ("Size".toList, fmtInt size)]⟩
  | .headObject name => ⟨.head, objPre ++ name, []⟩
  | .putObject name c => ⟨.put, objPre ++ (name ++ compressQuery c), []⟩
  | .deleteObject name => ⟨.delete, objPre ++ name, []⟩

/-! ## net/http -/

/-- `url.ParseQuery`, as `URL.Query` uses it: pairs that do not decode are dropped. -/
def queryPairs (raw : Str) : List (Str × Str) :=
  (splitOn '&' raw).filterMap fun p =>
    if p = [] ∨ ';' ∈ p then none
    else
      match unescape true (cut '=' p).1, unescape true (cut '=' p).2 with
      | some k, some v => some (k, v)
      | _, _ => none

/-- All values under a name. -/
def allOf (l : List (Str × Str)) (k : Str) : Option (List Str) :=
  match (l.filter fun p => p.1 = k).map (·.2) with
  | [] => none
  | vs => some vs

/-- What the server gets of a request: the decoded path, the raw query, the headers.  `none`: the client refuses
to build it (`url.Parse`), or the server to read it. -/
def transmit (w : Wire) : Option (Str × Str) :=
  if hasCtl w.target then none
  else
    match unescape false (cut '#' w.target).2, setPath (cut '?' (cut '#' w.target).1).1 with
    | some _, some (path, raw) =>
      (setPath (escapedPath path raw)).map fun p => (p.1, (cut '?' (cut '#' w.target).1).2)
    | _, _ => none

/-! ## The data server -/

/-- gin's parameter of `pre:name` with the default settings (router.go:22: `gin.New()`): the decoded path is
matched. -/
def param (pre path : Str) : Option Str :=
  if hasPrefix path pre then
    let seg := path.drop pre.length
    if seg = [] ∨ '/' ∈ seg then none else some seg
  else none

/-- The request as the handlers see it. -/
def request (w : Wire) (name raw : Str) : Request where
  param k := if k = "name".toList then some name else none
  header := allOf w.header
  query := allOf (queryPairs raw)

/-- The body of `temp.Put`, temp_rest.go:64-71. -/
def commitType : List Field :=
  [{ name := "ID".toList, kind := .str, uri := some "name".toList },
   { name := "Compress".toList, kind := .bool, form := some "compress".toList }]

/-- The body of `objects.Put`, objects_rest.go:19-26. -/
def storeType : List Field :=
  [{ name := sName, kind := .str, uri := some "name".toList },
   { name := "Compress".toList, kind := .bool, form := some "compress".toList }]

/-- The order of `temp.Put` and `objects.Put`. -/
def storeOrder : List Source := [.uri, .query]

/-- The body of `objects.Get`, objects_rest.go:61-70. -/
def loadType : List Field :=
  [{ name := sName, kind := .str, uri := some "name".toList },
   { name := "Range".toList, kind := .str, header := some "range".toList },
   { name := "Size".toList, kind := .int 64, header := some "size".toList, rule := .required },
   { name := "Compress".toList, kind := .bool, form := some "compress".toList }]

def loadOrder : List Source := [.uri, .query, .header]

/-- The body of `temp.Get`, temp_rest.go:110-117.  Its rule `gte=1` for the size is checked in `tempGet`: it is
checked by every binding, but only the last one counts. -/
def tempGetType : List Field :=
  [{ name := sName, kind := .str, uri := some "name".toList, rule := .required },
   { name := "Size".toList, kind := .int 64, header := some "size".toList }]

/-- The identifier and the flag of `temp.Put`. -/
def tempPut (r : Request) : Option Call :=
  match bind commitType storeOrder r with
  | some [.str id, .bool c] => some (.putTmp id c)
  | _ => none

/-- The name and the flag of `objects.Put`. -/
def objectPut (r : Request) : Option Call :=
  match bind storeType storeOrder r with
  | some [.str n, .bool c] => some (.putObject n c)
  | _ => none

/-- What `objects.Get` asks `service.Get` for, objects_rest.go:60-93: the offset is the first number of the range;
without a readable range it is 0. -/
def objectGet (r : Request) : Option Call :=
  match bind loadType loadOrder r with
  | some [.str n, .str rg, .int z, .bool c] =>
    let off := match Range.convertFrom rg with
      | some ((a, _) :: _) => a
      | _ => 0
    some (.getObject n off z c)
  | _ => none

/-- See `tempGetType`. -/
def tempGet (r : Request) : Option Call :=
  match bind tempGetType [.uri, .header] r with
  | some [.str n, .int z] => if 1 ≤ z then some (.getTmp n z) else none
  | _ => none

/-- `temp.Post`, temp_rest.go:42-61. -/
def tempPost (r : Request) : Option Call := (bindTemp r).map fun p => .postTmp p.1 p.2

/-- The routes, router.go:24-34: which handler gets the request, and what it reads of it.  `none`: status 400 or
404. -/
def serve (w : Wire) : Option Call :=
  match transmit w with
  | none => none
  | some (path, raw) =>
    match param tempPre path, param objPre path with
    | some n, _ =>
      match w.method with
      | .post => tempPost (request w n raw)
      | .patch => some (.patchTmp n)
      | .delete => some (.deleteTmp n)
      | .head => some (.headTmp n)
      | .get => tempGet (request w n raw)
      | .put => tempPut (request w n raw)
    | none, some n =>
      match w.method with
      | .get => objectGet (request w n raw)
      | .head => some (.headObject n)
      | .put => objectPut (request w n raw)
      | .delete => some (.deleteObject n)
      | _ => none
    | none, none => none

/-- The header `Size` of the answer to `HEAD /temp/<id>` (temp_rest.go:86-106) as `HeadTmpObject` reads it
(object_server.go:122-129); `none`: an error. -/
def readSize (text : Str) : Option Int := if text = [] then none else parseInt 64 text

/-- The name of a shard: `fmt.Sprintf("%s.%d", hash, idx)`, rs_put_stream.go:26, rs_get_stream.go:39,
copy_put_stream.go:27, copy_get_stream.go:22. -/
def shardName (hash : Str) (i : Nat) : Str := hash ++ '.' :: fmtNat i

end Verif.Object.Client
