import Verif.Admin.PagesProps

/-!
# The addresses that the web console builds (model): C118

Models the functions of src/adminserver/ui/src/api/objects.ts (download, join, leave), metadata.ts (removeBucket,
getPeers) and server-stat.ts (config), which put texts into addresses without escaping them, and the routes of the
administration server that read them (src/adminserver/internal/controller/http/object.go:20-27 and :47-83,
metadata.go:21-35, :128-142 and :202-210, server_state.go:119-124).

In between are axios, which passes an address on as it is, the browser, which reads it by the rules of the URL standard
(`browse`: trusted base), `net/url` and gin.  gin is used with its defaults (http_server.go:22): routes are matched with
the decoded path.

Simplified: texts have no control characters (browsers remove some of them) and are sequences of bytes (characters
below 256), as elsewhere; a path with a slash at its end would be redirected by gin, here it has no route; requests with
other routes than those of these functions and `GET /objects/config/:serverId` are not told apart (`none`).
-/

namespace Verif.Ui.Requests

open Verif Verif.Api.Bind Verif.Api.BucketHttp Verif.Object.Client Verif.Admin.Pages

/-- What the user chose; and what the administration server understands.  `objectConfig` is not used by the console. -/
inductive Req
  | download (name bucket : Str) (version : Int)
  | removeBucket (name : Str)
  | join (id : Str)
  | leave (id : Str)
  | peers (id : Str)
  | config (id : Str)
  | objectConfig (id : Str)
deriving DecidableEq

inductive Verb
  | get
  | post
  | delete
deriving DecidableEq

def dlPre : Str := "/api/objects/download/".toList
def joinPre : Str := "/api/objects/join/".toList
def leavePre : Str := "/api/objects/leave/".toList
def objCfgPre : Str := "/api/objects/config/".toList
def rmPre : Str := "/api/metadata/delete_bucket/".toList
def peersPath : Str := "/api/metadata/peers".toList
def cfgPath : Str := "/api/server/config".toList

/-- The addresses behind `location.hostname:backendPort` (base.js:4): objects.ts:13, :34 and :38, metadata.ts:12 and
:58, server-stat.ts:24.  (The last case does not occur.) -/
def url : Req → Verb × Str
  | .download n b v => (.get, dlPre ++ (n ++ ("?version=".toList ++ (fmtInt v ++ ("&bucket=".toList ++ b)))))
  | .removeBucket n => (.delete, rmPre ++ n)
  | .join i => (.post, joinPre ++ i)
  | .leave i => (.post, leavePre ++ i)
  | .peers i => (.get, peersPath ++ ("?serverId=".toList ++ i))
  | .config i => (.get, cfgPath ++ ("?serverId=".toList ++ i))
  | .objectConfig i => (.get, objCfgPre ++ i)

/-! ## The browser -/

/-- The characters that a browser escapes in paths and in queries.  The standard has changed them over time; these
are common to all versions. -/
structure Browser where
  pathEnc : Char → Bool
  queryEnc : Char → Bool
  path_must : ∀ c : Char, c.toNat ≤ 32 ∨ 126 < c.toNat → pathEnc c = true
  path_not : ∀ c : Char, c.isAlphanum = true ∨ c ∈ ['%', '/', '.', '_', '-'] → pathEnc c = false
  query_must : ∀ c : Char, c.toNat ≤ 32 ∨ 126 < c.toNat → queryEnc c = true
  query_not : ∀ c : Char, c.isAlphanum = true ∨ c ∈ ['%', '&', '=', '+', ';', '-'] → queryEnc c = false

/-- "percent-encode" -/
def encode (f : Char → Bool) : Str → Str
  | [] => []
  | c :: r => if f c then '%' :: hexDigit (c.toNat / 16) :: hexDigit (c.toNat % 16) :: encode f r else c :: encode f r

/-- Blanks at the end of an address are removed. -/
def trimEnd (s : Str) : Str := (s.reverse.dropWhile (· == ' ')).reverse

/-- "single-dot" and "double-dot path segment", escaped or not. -/
def isDot (s : Str) : Bool := unescape false s == some ['.']
def isDotDot (s : Str) : Bool := unescape false s == some ['.', '.']

/-- "shorten a path" for the segments of a path; `stack` holds those read so far, the last one first. -/
def dots (stack : List Str) : List Str → List Str
  | [] => stack.reverse
  | s :: rest =>
    if isDotDot s then dots (if rest = [] then [] :: stack.tail else stack.tail) rest
    else if isDot s then dots (if rest = [] then [] :: stack else stack) rest
    else dots (s :: stack) rest

/-- Segments joined by slashes, with a slash before the first. -/
def joinSegs (l : List Str) : Str := l.flatMap ('/' :: ·)

/-- A backslash is a slash. -/
def slashes (s : Str) : Str := s.map fun c => if c = '\\' then '/' else c

/-- The path and the query that are sent for an address. -/
def browse (br : Browser) (u : Str) : Str × Str :=
  let w := (cut '#' (trimEnd u)).1
  (joinSegs (dots [] (splitOn '/' ((encode br.pathEnc (slashes (cut '?' w).1)).drop 1))), encode br.queryEnc (cut '?' w).2)

/-! ## The administration server -/

/-- gin's parameter of a route `pre:name`. -/
def param (pre p : Str) : Option Str :=
  if hasPrefix p pre then
    let seg := p.drop pre.length
    if seg = [] ∨ '/' ∈ seg then none else some seg
  else none

/-- The value of `serverId` in the query; metadata.go:129-132 (where it must not be empty) and server_state.go:120. -/
def serverId (raw : Str) : Option Str := (allOf (queryPairs raw) "serverId".toList).map (·.headD [])

/-- The routes, by the decoded path; object.go:20-27, metadata.go:21-35, server_state.go:21-28. -/
def route (m : Verb) (p raw : Str) : Option Req :=
  match m with
  | .get =>
    match param dlPre p, param objCfgPre p with
    | some n, _ =>
      match downloadPage ⟨fun k => if k = "name".toList then some n else none, fun _ => none, allOf (queryPairs raw), none⟩ with
      | some (.download n b v) => some (.download n b v)
      | _ => none
    | none, some i => some (.objectConfig i)
    | none, none =>
      if p = peersPath then ((serverId raw).filter (· ≠ [])).map .peers
      else if p = cfgPath then (serverId raw).map .config
      else none
  | .post =>
    match param joinPre p, param leavePre p with
    | some i, _ => some (.join i)
    | none, some i => some (.leave i)
    | none, none => none
  | .delete => (param rmPre p).map .removeBucket

/-- What the administration server understands when the user chose `r`. -/
def understood (br : Browser) (r : Req) : Option Req :=
  let s := browse br (url r).2
  match unescape false s.1 with
  | none => none
  | some p => route (url r).1 p s.2

end Verif.Ui.Requests
