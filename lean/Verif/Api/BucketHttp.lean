import Verif.Api.MetaRpc
import Verif.Meta.Guard

/-!
# Bucket administration over HTTP (model)

A request `GET/PUT/DELETE /v1/bucket/<segment>` to the API server: the route and its parameter
(apiserver/internal/controller/http/server.go, bucket_api.go), the choice of a metadata server
(usecase/repo/bucket_repo.go), the request the API server sends for updates and deletions
(usecase/webapi/bucket_api.go), and its way through the metadata server
(metaserver/internal/controller/http/http.go, bucket_rest.go; middlewares in `Verif.Meta.Guard`).

`net/url` and gin are not part of the repository.  The first section models the functions of them
that decide what a path means, for bytes (characters below 256), as they are in Go 1.20 and gin 1.9:
this is part of the trusted base.
-/

namespace Verif.Api.BucketHttp

open Verif Verif.Msgp Verif.Api.MetaRpc

/-! ## net/url -/

/-- The negation of `shouldEscape(c, encodePath)`. -/
def pathSafe (c : Char) : Bool := c.isAlphanum || "-_.~$&+,/:;=@".toList.contains c

/-- The bytes that `validEncoded(s, encodePath)` lets pass. -/
def encodedOk (c : Char) : Bool := "!$&'()*+,;=:@[]%".toList.contains c || pathSafe c

def hexDigit (n : Nat) : Char := "0123456789ABCDEF".toList.getD n '0'

/-- `ishex` and `unhex`. -/
def unhex (c : Char) : Option Nat :=
  if '0' ≤ c ∧ c ≤ '9' then some (c.toNat - 48)
  else if 'a' ≤ c ∧ c ≤ 'f' then some (c.toNat - 87)
  else if 'A' ≤ c ∧ c ≤ 'F' then some (c.toNat - 55)
  else none

/-- `escape(s, encodePath)` -/
def escapePath : Str → Str
  | [] => []
  | c :: r =>
    if pathSafe c then c :: escapePath r
    else '%' :: hexDigit (c.toNat / 16) :: hexDigit (c.toNat % 16) :: escapePath r

/-- Where `unescape` is in a string: in the text, after a `%`, or after a `%` and a digit. -/
inductive Pos
  | text
  | pct
  | digit (x : Nat)

/-- The loop of `unescape`. -/
def unescapeAt (plus : Bool) : Pos → Str → Option Str
  | .text, [] => some []
  | _, [] => none
  | .text, c :: r =>
    if c = '%' then unescapeAt plus .pct r
    else (unescapeAt plus .text r).map ((if plus && c = '+' then ' ' else c) :: ·)
  | .pct, c :: r =>
    match unhex c with
    | some x => unescapeAt plus (.digit x) r
    | none => none
  | .digit x, c :: r =>
    match unhex c with
    | some y => (unescapeAt plus .text r).map (Char.ofNat (16 * x + y) :: ·)
    | none => none

/-- `unescape(s, mode)`: `plus` for `encodeQueryComponent` (then `+` stands for a space), otherwise
`encodePath` or `encodeFragment`. -/
def unescape (plus : Bool) (s : Str) : Option Str := unescapeAt plus .text s

/-- `stringContainsCTLByte` -/
def hasCtl (s : Str) : Bool := s.any fun c => c.toNat < 32 || c.toNat = 127

/-- `strings.Cut(s, sep)`, without whether `sep` occurs. -/
def cut (sep : Char) (s : Str) : Str × Str := (cutOn sep s).getD (s, [])

/-- `URL.setPath(p)`: the fields `Path` and `RawPath`. -/
def setPath (p : Str) : Option (Str × Str) :=
  match unescape false p with
  | none => none
  | some path => some (path, if escapePath path = p then [] else p)

/-- `URL.EscapedPath()`; the case `Path == "*"` does not occur here. -/
def escapedPath (path raw : Str) : Str :=
  if raw ≠ [] ∧ raw.all encodedOk = true ∧ unescape false raw = some path then raw else escapePath path

/-- The path of `http.NewRequest(method, "http://" + host + p, …)` as it is sent; `none`: the URL is
refused.  `host` is a host and a port. -/
def sentPath (p : Str) : Option Str :=
  if hasCtl p then none
  else
    match unescape false (cut '#' p).2, setPath (cut '?' (cut '#' p).1).1 with
    | some _, some (path, raw) => some (escapedPath path raw)
    | _, _ => none

/-! ## gin -/

/-- The parameter of a route `pre:name` for a request with the path `p`, with `UseRawPath = true` and
`UnescapePathValues = unesc`.  `none`: the request is malformed or has no route.  (That gin redirects
`/x/` to `/x` is not modelled; it does not concern the paths here, `C84_param`.) -/
def routeParam (unesc : Bool) (pre p : Str) : Option Str :=
  if hasCtl p then none
  else
    match setPath (cut '?' p).1 with
    | none => none
    | some (path, raw) =>
      let r := if raw ≠ [] then raw else path
      if hasPrefix r pre = false then none
      else
        let seg := r.drop pre.length
        if seg = [] ∨ '/' ∈ seg then none
        else if raw ≠ [] ∧ unesc = true then some ((unescape true seg).getD seg)
        else some seg

/-! ## The servers -/

def apiPrefix : Str := "/v1/bucket/".toList
def metaPrefix : Str := "/bucket/".toList

/-- The parameter `name` on the API server, http/server.go:28-29, bucket_api.go:18-23. -/
def apiParam (seg : Str) : Option Str := routeParam false apiPrefix (apiPrefix ++ seg)

/-- What the metadata server takes as `name` when `PutBucket` or `DeleteBucket` is called with
`name`: webapi/bucket_api.go:29-44, 63-78 (the URL), metaserver http.go:28-29, bucket_rest.go:20-28. -/
def metaParam (name : Str) : Option Str :=
  match sentPath (metaPrefix ++ name) with
  | none => none
  | some p => routeParam true metaPrefix p

/-- The cluster: which master holds a key (`KeySlotLocation`, the same table on all servers), the
state of the masters' middlewares, and their stores. -/
structure World where
  owner : Str → Option Nat
  mode : Nat → Meta.Env
  store : Nat → Meta.Store

/-- The environment of the middlewares of server `i`: it owns the keys of its slots. -/
def World.env (w : World) (i : Nat) : Meta.Env := { w.mode i with owns := fun k => w.owner k == some i }

def World.set (w : World) (i : Nat) (s : Meta.Store) : World :=
  { w with store := fun j => if j = i then s else w.store j }

/-- What the API server answers. -/
inductive Ans
  | ok
  | fail
  deriving DecidableEq, Repr

/-- The outcome of a request on a metadata server, with the log entry, if any, applied at once
(`Verif.Meta.Fsm`). -/
def settle (s : Meta.Store) : Meta.Outcome → Ans × Meta.Store
  | .direct op =>
    match Meta.step s op with
    | (.ok, s') => (.ok, s')
    | (_, s') => (.fail, s')
  | .logged c =>
    match Meta.dispatch true c s with
    | some (.resp none _, s') => (.ok, s')
    | some (_, s') => (.fail, s')
    | none => (.fail, s)
  | .refused => (.fail, s)
  | .readOnly => (.ok, s)

/-- `BucketController.Delete` → `BucketRepo.Delete` → `webapi.DeleteBucket`; bucket_api.go:56-62,
repo/bucket_repo.go:48-54, webapi/bucket_api.go:63-78.  Not modelled: failing connections, which
error status is passed on. -/
def delete (w : World) (seg : Str) : Ans × World :=
  match apiParam seg with
  | none => (.fail, w)
  | some n =>
    match w.owner n with
    | none => (.fail, w)
    | some i =>
      match metaParam n with
      | none => (.fail, w)
      | some r =>
        let o := settle (w.store i) (Meta.serve (w.env i) (.httpDeleteBucket r))
        (o.1, w.set i o.2)

/-- Whether encoding/json accepts a number for an `int32`. -/
def fits32 (i : Int) : Bool := -2147483648 ≤ i && i ≤ 2147483647

/-- The JSON of an `entity.Bucket` (apiserver entity/metadata.go:62-74) read as a `msg.Bucket`
(common/proto/msg/metadata.go:46-58): the keys are the same, but three numbers are `int32` and do not
bind when they do not fit. -/
def jsonBucket (b : EBucket) : Option Meta.Bucket :=
  if fits32 b.dataShards && fits32 b.parityShards && fits32 b.versionRemains then
    some { versioning := b.versioning, readonly := b.readonly, compress := b.compress
           storeStrategy := b.storeStrategy, dataShards := b.dataShards, parityShards := b.parityShards
           versionRemains := b.versionRemains, createTime := b.createTime, updateTime := b.updateTime
           name := b.name, policies := b.policies }
  else none

/-- `BucketController.Update` → `BucketRepo.Update` → `webapi.PutBucket`; bucket_api.go:42-54,
repo/bucket_repo.go:26-35, webapi/bucket_api.go:29-44, and bucket_rest.go:64-76.  `b` is the body the
client sent.  (The middlewares run before the body is read; a refusal is a refusal.) -/
def update (w : World) (seg : Str) (b : EBucket) : Ans × World :=
  match apiParam seg with
  | none => (.fail, w)
  | some n =>
    if n = [] then (.fail, w)
    else
      match w.owner n with
      | none => (.fail, w)
      | some i =>
        match metaParam n with
        | none => (.fail, w)
        | some r =>
          match jsonBucket { b with name := n } with
          | none => (.fail, w)
          | some d =>
            let o := settle (w.store i) (Meta.serve (w.env i) (.httpPutBucket r d))
            (o.1, w.set i o.2)

/-- `BucketController.Get` → `BucketRepo.Get` → `grpcapi.GetBucket`; bucket_api.go:64-71,
repo/bucket_repo.go:14-24.  Simplified: the replica that is asked has the master's store. -/
def get (w : World) (seg : Str) : Option EBucket :=
  match apiParam seg with
  | none => none
  | some n =>
    match w.owner n with
    | none => none
    | some i => (getBucket (w.store i) n).toOption

end Verif.Api.BucketHttp
