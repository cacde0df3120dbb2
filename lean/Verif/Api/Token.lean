import Verif.Admin.Pages

/-!
# Resume tokens (model)

A resumable upload lives in its token: `POST /v1/big/:name` answers with a path that contains everything the API
server needs to go on, and `PATCH /v1/big/:token` takes it from there (apiserver/internal/controller/http/big_api.go,
usecase/service/rs_resumable_stream.go, rs_put_stream.go, rs_encoder.go, entity/dto.go).  The API server keeps
nothing itself.

This file is about what a request may touch: which temporary files on which servers, and which versions.  The bytes
that are written, and where an upload goes on, are modelled in `Verif.Object.Resume` (C40).
-/

namespace Verif.Api.Token

open Verif Verif.Api.BucketHttp Verif.Admin.Pages

/-! ## The token -/

/-- `config.RsConfig`, config/config.go:76-81; `RewriteAsync` is left out. -/
structure Conf where
  ds : Int
  ps : Int
  bps : Int
  deriving DecidableEq

/-- `BlockSize()`, config.go:87-89; Go's `int` is unbounded here. -/
def Conf.blockSize (c : Conf) : Int := c.bps * c.ds

/-- `resumeToken`, rs_resumable_stream.go:11-20. -/
structure Tok where
  compress : Bool
  size : Int
  name : Str
  hash : Str
  bucket : Str
  servers : List Str
  ids : List Str
  conf : Option Conf
  deriving DecidableEq

/-- The characters of `base64.StdEncoding`. -/
def b64 (c : Char) : Bool := c.isAlphanum || c = '+' || c = '/' || c = '='

/-- `base64.StdEncoding` and `encoding/gob` for tokens, which are not part of the repository: what was encoded is
decoded.  Whoever knows the type of the token can encode. -/
structure Codec where
  enc : Tok → Str
  dec : Str → Option Tok
  dec_enc : ∀ t, dec (enc t) = some t
  alphabet : ∀ t, ∀ c ∈ enc t, b64 c = true
  nonempty : ∀ t, enc t ≠ []

/-- The route, big_api.go:36-37 and the group `/v1` of http/server.go. -/
def bigPre : Str := "/v1/big/".toList

/-- The header `Location` of the answer to POST, big_api.go:112, for a token that was encoded. -/
def location (tok : Str) : Str := bigPre ++ escapeSeg tok

/-- The token of a request for a path: gin's parameter (`UseRawPath`, no unescaping, http/server.go:27-28) and
`url.PathUnescape`, dto.go:62-69.  (`Head`, big_api.go:118, ignores an error of the latter.) -/
def tokenOf (path : Str) : Option Str :=
  match routeParam false bigPre path with
  | none => none
  | some seg => unescape false seg

/-! ## What happens outside the API server -/

/-- A version that is recorded, big_api.go:180-188 (PATCH; `Compress` is not set) and 69-78 (POST). -/
structure Rec where
  bucket : Str
  name : Str
  hash : Str
  size : Int
  locate : List Str
  ds : Int
  ps : Int
  compress : Bool
  deriving DecidableEq

/-- Requests to data servers about a temporary file, webapi/object_server.go, and the request to record a version. -/
inductive Eff
  | head (server id : Str)
  | write (server id : Str)
  | commit (server id : Str) (compress : Bool)
  | abort (server id : Str)
  | record (r : Rec)
  deriving DecidableEq

/-! ## PATCH -/

/-- What other servers answer during a PATCH. -/
structure Env where
  /-- `HeadTmpObject`: the size of a temporary file, `none` for an error -/
  head : Str → Str → Option Int
  /-- whether the `k`-th flush reports no error -/
  wr : Nat → Bool
  /-- the configuration `checksum`, and the digest computed then -/
  checksum : Bool
  sum : Str
  /-- `bucketRepo.Get`: whether the bucket is read-only, `none` for an error -/
  bucket : Str → Option Bool
  /-- whether recording succeeds -/
  recOk : Bool
  /-- whether all servers commit -/
  commitOk : Bool

/-- How the work on a stream ends. -/
inductive Work
  | ok
  | err
  /-- a panic in the goroutine of the request: gin answers 500 -/
  | panic
  /-- a panic in another goroutine: the process ends (`Verif.Conc.C77_done_panic`) -/
  | dead
  /-- a loop without progress -/
  | spin
  deriving DecidableEq

/-- The temporary files of a token, rs_put_stream.go:40-46. -/
def Tok.files (t : Tok) : List (Str × Str) := t.servers.zip t.ids

/-- `newExistedRSPutStream`, rs_put_stream.go:40-46, and `NewEncoder`, rs_encoder.go:19-27: `none` is a panic
(more ids than servers, no configuration, a negative capacity).  A capacity the memory does not suffice for is not
modelled. -/
def Tok.opened (t : Tok) : Option Conf :=
  match t.conf with
  | none => none
  | some c => if t.servers.length < t.ids.length ∨ c.blockSize < 0 then none else some c

/-- `Flush` with something in the cache, rs_encoder.go:59-112.  `reedsolomon.New` refuses numbers of shards below one
and zero (its upper limit is not modelled); its error was ignored, so that `Split` is called on nil.  With fewer
files than shards a goroutine indexes behind the end.  Which of the requests are sent when one fails is not modelled:
all of them may be. -/
def flush (env : Env) (t : Tok) (c : Conf) (k : Nat) : Work × List Eff :=
  if c.ds ≤ 0 ∨ c.ps < 0 then (.panic, [])
  else
    let es := (t.files.take (c.ds + c.ps).toNat).map fun f => Eff.write f.1 f.2
    if (t.ids.length : Int) < c.ds + c.ps then (.dead, es)
    else (if env.wr k then .ok else .err, es)

/-- `n` flushes, the first of them the `k`-th. -/
def flushes (env : Env) (t : Tok) (c : Conf) : Nat → Nat → Work × List Eff
  | 0, _ => (.ok, [])
  | n + 1, k =>
    if (flush env t c k).1 = .ok then
      ((flushes env t c n (k + 1)).1, (flush env t c k).2 ++ (flushes env t c n (k + 1)).2)
    else flush env t c k

/-- `io.Copy(stream, body)` with `Write`, big_api.go:161 and rs_encoder.go:39-57, for a body of `n` bytes: a flush for
every full block.  With blocks of no bytes the loop never ends. -/
def copyBody (env : Env) (t : Tok) (c : Conf) (n : Nat) : Work × List Eff :=
  if n = 0 then (.ok, [])
  else if c.blockSize = 0 then (.spin, [])
  else flushes env t c (n / c.blockSize.toNat) 0

/-- `Commit(ok)`, rs_put_stream.go:48-68, after a body of `n` bytes: the rest is flushed, then every file is committed
or removed. -/
def commit (env : Env) (t : Tok) (c : Conf) (n : Nat) (ok : Bool) : Work × List Eff :=
  let fl := if n % c.blockSize.toNat = 0 then (Work.ok, []) else flush env t c (n / c.blockSize.toNat)
  if fl.1 = .ok then
    (if ok ∧ env.commitOk = false then .err else .ok,
      fl.2 ++ t.files.map fun f => if ok then Eff.commit f.1 f.2 t.compress else Eff.abort f.1 f.2)
  else fl

/-- The answer to a PATCH. -/
inductive Ans
  | notFound
  | bad
  | failed
  | panic
  | dead
  | spin
  | range
  | more (n : Int)
  | exceeded
  | forbidden
  | done
  deriving DecidableEq

/-- The answer when the work ended like this, and otherwise `a`. -/
def Work.or (w : Work) (a e : Ans) : Ans :=
  match w with
  | .ok => a
  | .err => e
  | .panic => .panic
  | .dead => .dead
  | .spin => .spin

/-- The version recorded at the end, big_api.go:180-188. -/
def Tok.rec_ (t : Tok) (c : Conf) : Rec := ⟨t.bucket, t.name, t.hash, t.size, t.servers, c.ds, c.ps, false⟩

/-- The end of an upload: big_api.go:179-202 and `finishUpload`, 205-273.  `ShardSize` divides by the number of data
shards.  Which of the two calls records, and the removal of the oldest version, are modelled in `Verif.Api.Store`;
here recording is one step.  Whether the bucket is read-only is known there but nobody asks. -/
def finish (env : Env) (t : Tok) (c : Conf) (n : Nat) : Ans × List Eff :=
  if c.ds = 0 then (.panic, [])
  else
    let no (a : Ans) (es : List Eff) := ((commit env t c n false).1.or a a, es ++ (commit env t c n false).2)
    if env.checksum = true ∧ env.sum ≠ t.hash then no .forbidden []
    else
      match env.bucket t.bucket with
      | none => no .failed []
      | some _ =>
        if env.recOk = false then no .failed [.record (t.rec_ c)]
        else ((commit env t c n true).1.or .done .failed, .record (t.rec_ c) :: (commit env t c n true).2)

/-- `CurrentSize`, rs_resumable_stream.go:65-77, with the answer of the first server. -/
def Tok.current (t : Tok) (c : Conf) (n : Int) : Int := if n * c.ds > t.size then t.size else n * c.ds

/-- `Patch` with a decoded token, big_api.go:149-202; `n` is the length of the body. -/
def resume (env : Env) (t : Tok) (first : Int) (n : Nat) : Ans × List Eff :=
  match t.opened, t.files with
  | none, _ => (.panic, [])
  | some _, [] => (.panic, [])
  | some c, f :: _ =>
    match env.head f.1 f.2 with
    | none => (.failed, [.head f.1 f.2])
    | some m =>
      if t.current c m ≠ first then (.range, [.head f.1 f.2])
      else
        let w := copyBody env t c n
        if w.1 ≠ .ok then (w.1.or .done .failed, .head f.1 f.2 :: w.2)
        else if first + n < t.size then (.more (first + n), .head f.1 f.2 :: w.2)
        else if first + n > t.size then
          ((commit env t c n false).1.or .exceeded .exceeded, .head f.1 f.2 :: (w.2 ++ (commit env t c n false).2))
        else ((finish env t c n).1, .head f.1 f.2 :: (w.2 ++ (finish env t c n).2))

/-- `Patch`, big_api.go:138-203, with `Bind`, dto.go:62-76, and `NewRSResumablePutStreamFromToken`,
rs_resumable_stream.go:29-39.  `range`: the first byte of the header `Range`. -/
def patch (cx : Codec) (env : Env) (path : Str) (range : Option Int) (n : Nat) : Ans × List Eff :=
  match tokenOf path with
  | none => (.notFound, [])
  | some s =>
    match range, cx.dec s with
    | some first, some t => resume env t first n
    | _, _ => (.bad, [])

/-! ## POST -/

/-- A request POST, dto.go:41-48. -/
structure Post where
  bucket : Str
  name : Str
  size : Int
  compress : Bool

/-- What other servers answer during a POST, and what is computed from configuration and bucket (`MakeConf`,
`UniqueHash`, modelled in `Verif.Api.Store` and `Verif.Api.Dedup`). -/
structure PostEnv where
  /-- `bucketRepo.Get`: read-only, and compress; `none` for an error -/
  bucket : Option (Bool × Bool)
  conf : Conf
  hash : Str
  /-- `LocateObject`: the object is there already -/
  dup : Option (List Str)
  /-- `SelectDataServer` -/
  ips : List Str
  /-- the ids of the temporary files, if all servers make one -/
  ids : Option (List Str)

inductive PostAns
  | refused
  | done
  /-- 201 with this `Location` -/
  | token (loc : Str)
  deriving DecidableEq

/-- `Post`, big_api.go:41-114, and `NewRSResumablePutStream`, rs_resumable_stream.go:42-62: the answer, the version
recorded for a duplicate, and the token that was given out.  The requests that make temporary files are left out; the
servers answer with one id for each shard. -/
def post (cx : Codec) (env : PostEnv) (r : Post) : PostAns × List Eff × Option Tok :=
  match env.bucket with
  | none => (.refused, [], none)
  | some (ro, comp) =>
    if ro then (.refused, [], none)
    else
      let compress := if comp then true else r.compress
      match env.dup with
      | some l => (.done, [.record ⟨r.bucket, r.name, env.hash, r.size, l, env.conf.ds, env.conf.ps, compress⟩], none)
      | none =>
        match env.ids with
        | none => (.refused, [], none)
        | some ids =>
          if env.ips = [] ∨ (env.ips.length : Int) < env.conf.ds + env.conf.ps then (.refused, [], none)
          else
            let t : Tok := ⟨compress, r.size, r.name, env.hash, r.bucket, env.ips, ids, some env.conf⟩
            (.token (location (cx.enc t)), [], some t)

/-! ## Requests of several users -/

/-- A request of a user.  `header` is the header `bucket` of a PATCH, which only the authentication looks at. -/
inductive Req
  | post (u : Nat) (r : Post) (env : PostEnv)
  | patch (u : Nat) (header path : Str) (range : Option Int) (n : Nat) (env : Env)

/-- What has happened: the tokens given out, with the user and the path; what requests PATCH and what requests POST
did, and for whom.  The API server has no state of its own in this, so it makes no difference if it is restarted. -/
structure State where
  grants : List (Nat × Str × Tok)
  patched : List (Nat × Eff)
  posted : List (Nat × Eff)

def init : State := ⟨[], [], []⟩

/-- A request is carried out if the authentication lets it pass; it knows the user and the header `bucket`
(`Verif.Api.Auth`, C65). -/
def step (cx : Codec) (may : Nat → Str → Bool) (s : State) : Req → State
  | .post u r env =>
    if may u r.bucket = false then s
    else
      match post cx env r with
      | (.token loc, es, some t) => ⟨(u, loc, t) :: s.grants, s.patched, s.posted ++ es.map (u, ·)⟩
      | (_, es, _) => ⟨s.grants, s.patched, s.posted ++ es.map (u, ·)⟩
  | .patch u header path range n env =>
    if may u header = false then s
    else ⟨s.grants, s.patched ++ (patch cx env path range n).2.map (u, ·), s.posted⟩

def run (cx : Codec) (may : Nat → Str → Bool) (s : State) (rs : List Req) : State := rs.foldl (step cx may) s

end Verif.Api.Token
