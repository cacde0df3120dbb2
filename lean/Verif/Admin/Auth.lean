import Verif.Common.Str

/-!
# Credentials of the administration server (C83)

Models src/adminserver/internal/controller/http/auth.go, the routes of metadata.go, object.go and
server_state.go beside it with the middlewares of controller/http_server.go:24-43, and what the handlers do with
the token (usecase/logic, usecase/webapi).

Simplified: a handler is reduced to whether its operation is carried out, its arguments are well formed and the
servers it talks to are up unless said otherwise; static files and CORS are left out.  A cookie that does not carry
the server's signature is the same as no cookie (`none`).  `saveOk = false` means that the session library could not
write the cookie.
-/

namespace Verif.Admin.Auth

/-- The routes below `/api`. -/
inductive Route
  | login | logout
  -- metadata.go:22-34
  | page | versions | migration | slotsDetail | peers | buckets | createBucket | updateBucket | deleteBucket
  | leaveCluster | joinLeader | metaConfig
  -- object.go:21-26
  | download | upload | join | leave | objectConfig
  -- server_state.go:22-28; `serverConfig true` names an API server, `serverConfig false` another one
  | stat | overview | etcdStat | timeline | serverConfig (api : Bool)
deriving DecidableEq

/-- Groups registered with `RequireToken`; metadata.go:22, object.go:21, server_state.go:22. -/
def Route.requires : Route → Bool
  | .login | .logout | .stat | .overview | .etcdStat | .timeline | .serverConfig _ => false
  | _ => true

/-- Handlers that hand the token to an API server, which decides: metadata.go (Versions, CreateBucket, UpdateBucket,
DeleteBucket), object.go (Download, Upload), server_state.go:131 and auth.go:55.  All others use the administration
server's own access. -/
def Route.forwards : Route → Bool
  | .login | .versions | .createBucket | .updateBucket | .deleteBucket | .download | .upload | .serverConfig true => true
  | _ => false

/-- The part of a session that is used: the value of `authTokenKey`; `none` is nil. -/
abbrev Session := Option Str

/-- `SaveToken`; auth.go:16-27.  Returns the session and the cookie to be kept by the client afterwards. -/
def saveToken (sess : Session) (header : Str) (saveOk : Bool) : Session × Session :=
  if sess = some header then (sess, sess)
  else (some header, if saveOk then some header else sess)

/-- `GetAuthToken`; auth.go:29-35. -/
def getAuthToken (sess : Session) (header : Str) : Str :=
  match sess with
  | none => header
  | some tk => tk

/-- `RequireToken`; auth.go:37-43: whether the request goes on. -/
def requireToken (sess : Session) (header : Str) : Bool := getAuthToken sess header != []

structure Req where
  /-- session in the cookie sent -/
  cookie : Session
  /-- `Authorization`, empty if absent -/
  header : Str
  route : Route
  saveOk : Bool

inductive Status
  | ok
  /-- 403 of `RequireToken` -/
  | forbidden
  /-- error of the API server -/
  | refused
deriving DecidableEq

structure Resp where
  /-- what the client's cookie holds afterwards -/
  cookie : Session
  status : Status
  /-- the operation was carried out -/
  performed : Bool

/-- The handler; `logout` (auth.go:45-50) clears the session in memory without saving it. -/
def handler (accepts : Route → Str → Bool) (sess : Session) (header : Str) (route : Route) : Status × Bool :=
  if route.forwards then
    if accepts route (getAuthToken sess header) then (.ok, true) else (.refused, false)
  else (.ok, true)

/-- A request; http_server.go:24-43.  `accepts r t`: the API server accepts token `t` for what route `r` asks. -/
def serve (accepts : Route → Str → Bool) (q : Req) : Resp :=
  let s := saveToken q.cookie q.header q.saveOk
  if q.route.requires && !requireToken s.1 q.header then ⟨s.2, .forbidden, false⟩
  else
    let h := handler accepts s.1 q.header q.route
    ⟨s.2, h.1, h.2⟩

/-- A browser sends its requests one after the other with the cookie it has: header, route, whether the cookie can
be written. -/
def browse (accepts : Route → Str → Bool) (jar : Session) : List (Str × Route × Bool) → List Resp
  | [] => []
  | (h, r, ok) :: qs =>
    let a := serve accepts ⟨jar, h, r, ok⟩
    a :: browse accepts a.cookie qs

end Verif.Admin.Auth
