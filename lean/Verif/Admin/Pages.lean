import Verif.Object.Client

/-!
# Objects and buckets on the administration pages (model): C88

The pages of the administration server for objects and buckets (src/adminserver/internal/controller/http/object.go,
metadata.go) send a request to an API server (src/adminserver/internal/usecase/webapi/api_server.go), which reads it
(src/apiserver/internal/controller/http/server.go, objects_api.go, metadata_api.go, bucket_api.go).  In between are
`net/http`, `net/url` and gin (`Verif.Api.BucketHttp`, `Verif.Api.Bind`, `Verif.Object.Client`: trusted base).

Simplified: there is an API server (`SelectApiServer` panics without one) and the connection works; header values are
sent as they are (no control characters and no outer blanks); the headers that `net/http` adds by itself are left out,
no field of a request type is looked up under these names; a path with a trailing slash would be redirected by gin,
here it has no route.  What the API server does with the token is `C83`, what it does with the request `C79`.
-/

namespace Verif.Admin.Pages

open Verif Verif.Api.Bind Verif.Api.BucketHttp Verif.Object.Client

/-- The negation of `shouldEscape(c, encodePathSegment)` of net/url. -/
def segSafe (c : Char) : Bool := c.isAlphanum || "-_.~$&+:=@".toList.contains c

/-- `url.PathEscape` -/
def escapeSeg : Str → Str
  | [] => []
  | c :: r =>
    if segSafe c then c :: escapeSeg r
    else '%' :: hexDigit (c.toNat / 16) :: hexDigit (c.toNat % 16) :: escapeSeg r

/-- What a page wants from the API server. -/
inductive Page
  | upload (name bucket digest : Str)
  | download (name bucket : Str) (version : Int)
  | versions (name bucket : Str) (page size : Int)

def objectsPre : Str := "/v1/objects/".toList
def metadataPre : Str := "/v1/metadata/".toList
def versionsSuf : Str := "/versions".toList

/-- `PutObjects`, api_server.go:36-46; `GetObjects`, 57-63; `ListVersion`, 15-22.  Only `PutObjects` escapes the
name. -/
def ask (token : Str) : Page → Wire
  | .upload name bucket digest =>
    ⟨.put, objectsPre ++ escapeSeg name,
      [("Bucket".toList, bucket), ("Authorization".toList, token), ("Digest".toList, digest)]⟩
  | .download name bucket version =>
    ⟨.get, objectsPre ++ (name ++ ("?version=".toList ++ fmtInt version)),
      [("Bucket".toList, bucket), ("Authorization".toList, token)]⟩
  | .versions name bucket page size =>
    ⟨.get, metadataPre ++ (name ++ (versionsSuf ++ ("?page=".toList ++ (fmtInt page ++
        ("&page_size=".toList ++ fmtInt size))))),
      [("Bucket".toList, bucket), ("Authorization".toList, token)]⟩

/-- What the API server gets of a request: the path its routes are matched with (`UseRawPath`, server.go:28: the path
as it was sent if that is not the standard encoding of the decoded path, otherwise the decoded path), and the raw
query.  `none`: the client does not build the request, or the server does not read it (a blank in the query ends the
request line). -/
def arrive (target : Str) : Option (Str × Str) :=
  let q := (cut '?' (cut '#' target).1).2
  if ' ' ∈ q then none
  else
    match sentPath target with
    | none => none
    | some p => (setPath p).map fun x => (if x.2 ≠ [] then x.2 else x.1, q)

/-- gin's parameter of a route `pre:name<suf>`; `UnescapePathValues` is false (server.go:29). -/
def segment (pre suf path : Str) : Option Str :=
  if hasPrefix path pre ∧ hasPrefix (path.drop pre.length).reverse suf.reverse then
    let rest := path.drop pre.length
    let seg := rest.take (rest.length - suf.length)
    if seg = [] ∨ '/' ∈ seg then none else some seg
  else none

/-- What the API server understands: the request of `ObjectsController.Put`, of `ObjectsController.Get`, and of
`MetadataController.Versions`. -/
inductive Act
  | put (p : Put)
  | get (g : Get)
  | versions (name bucket : Str) (page size : Int)
  deriving DecidableEq

/-- The routes `PUT /v1/objects/:name`, `GET /v1/objects/:name` and `GET /v1/metadata/:name/versions`
(objects_api.go:23-26, metadata_api.go:22-26).  `none`: status 400 or 404. -/
def serve (w : Wire) : Option Act :=
  match arrive w.target with
  | none => none
  | some (path, raw) =>
    match w.method, segment objectsPre [] path, segment metadataPre versionsSuf path with
    | .put, some n, _ => (bindPut (request w n raw)).map .put
    | .get, some n, _ => (bindGet (request w n raw)).map .get
    | .get, none, some n => (bindVersions (request w n raw)).map fun x => .versions x.1 x.2.1 x.2.2.1 x.2.2.2
    | _, _, _ => none

/-- The body of `ObjectsController.Download` of the administration server, object.go:48-52. -/
def downloadType : List Field :=
  [{ name := sName, kind := .str, uri := some "name".toList },
   { name := sBucket, kind := .str, form := some "bucket".toList },
   { name := "Version".toList, kind := .int 64, form := some "version".toList }]

/-- `ObjectsController.Download`, object.go:47-61: the bindings are those of
src/adminserver/internal/entity/binder.go:8-15 without JSON. -/
def downloadPage (r : Request) : Option Page :=
  match bind downloadType [.uri, .query] r with
  | some [.str n, .str b, .int v] => some (.download n b v)
  | _ => none

/-! ## Buckets -/

/-- The path behind `/v1/bucket/` that the API server gets for a request built with `name`: the URLs of
`UpdateBucket`, api_server.go:107-108, and `DeleteBucket`, api_server.go:124-125. -/
def bucketSeg (name : Str) : Option Str :=
  match sentPath (apiPrefix ++ name) with
  | none => none
  | some p => some (p.drop apiPrefix.length)

/-- `MetadataController.DeleteBucket` of the administration server, metadata.go:202-210. -/
def deletePage (w : World) (name : Str) : Ans × World :=
  match bucketSeg name with
  | none => (.fail, w)
  | some seg => Api.BucketHttp.delete w seg

/-- `MetadataController.UpdateBucket` of the administration server, metadata.go:188-200.  (The `msg.Bucket` it reads
from its request and writes into the next one is the `entity.Bucket` that the API server reads.) -/
def updatePage (w : World) (b : Api.MetaRpc.EBucket) : Ans × World :=
  match bucketSeg b.name with
  | none => (.fail, w)
  | some seg => Api.BucketHttp.update w seg b

end Verif.Admin.Pages
