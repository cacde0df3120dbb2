import Verif.Meta.Model

/-!
# Errors between the servers (model)

How an error of the metadata server travels: `response.GRPCError` in the handler, the gRPC runtime,
`proto.ResolveErr` in the API server's client, and `response.FailErr` towards the HTTP client.
-/

namespace Verif.Api.Errors

open Verif

/-- gRPC status codes (google.golang.org/grpc/codes), those the code names. -/
inductive Code
  | ok | unknown | invalidArgument | notFound | aborted | unauthenticated | permissionDenied
  | unavailable | internal
  deriving DecidableEq, Repr

/-- A Go error value: `*response.Err` (common/response/errors.go:12-35), a
`validator.ValidationErrors`, a gRPC status error, or any other error. -/
inductive GoErr
  | resp (status : Nat) (msg : Str)
  | validation (msg : Str)
  | status (c : Code) (msg : Str)
  | plain (msg : Str)
  deriving DecidableEq, Repr

/-- `err.Error()`.  (The prefix "rpc error: …" of a status error is left out.) -/
def GoErr.text : GoErr → Str
  | .resp _ m | .validation m | .status _ m | .plain m => m

/-- common/response/resp_util.go:28-30 -/
def isOk (status : Nat) : Bool := status / 100 == 2

/-- common/response/resp_util.go:32-34 -/
def isInternal (status : Nat) : Bool := status / 100 == 5

/-- common/response/response.go:140-146 `httpGrpcStatus` -/
def httpGrpcStatus : Nat → Option Code
  | 200 => some .ok
  | 400 => some .invalidArgument
  | 401 => some .unauthenticated
  | 403 => some .permissionDenied
  | 404 => some .notFound
  | _ => none

/-- common/response/response.go:148-170 `GRPCError`.  A nil result (an error with a 2xx status) is
written as the status OK; no error of the metadata server has such a status. -/
def grpcError : GoErr → GoErr
  | .validation m => .status .invalidArgument m
  | .resp s m =>
    if isOk s then .status .ok m
    else if isInternal s then .status .internal m
    else .status ((httpGrpcStatus s).getD .unknown) m
  | e => .status .internal e.text

/-- The gRPC runtime: what arrives at the client when the handler returns `e`.  An error without a
status becomes `Unknown`. -/
def wire : GoErr → Code × Str
  | .status c m => (c, m)
  | e => (.unknown, e.text)

/-- common/proto/generate.go:21-36 `ResolveErr` on a status; `none` is nil. -/
def resolveErr : Code × Str → Option GoErr
  | (.ok, _) => none
  | (.notFound, m) => some (.resp 404 m)
  | (.invalidArgument, m) => some (.resp 400 m)
  | (.aborted, m) => some (.resp 400 m)
  | (_, m) => some (.resp 500 m)

/-- common/response/response.go:109-137 `FailErr`: the HTTP status the client gets. -/
def failErr : GoErr → Nat
  | .validation _ => 400
  | .resp s _ => s
  | _ => 500

/-- metaserver/internal/usecase/errors.go:8-15; errors of bbolt and `errors.New` are plain (their
texts are not modelled). -/
def ofMeta : Meta.Err → GoErr
  | .notFound => .resp 404 "not found".toList
  | .unknownLog => .resp 500 "unknown raft log type".toList
  | .readOnly => .resp 502 "server is readonly".toList
  | .oldData => .resp 400 "data expired".toList
  | .exists => .resp 400 "data exists".toList
  | .nilData => .resp 400 "null value".toList
  | _ => .plain []

/-- The RPCs of metaserver/internal/controller/grpc/metadata_server.go with a client in
apiserver/internal/usecase/grpcapi/meta_server.go. -/
inductive Rpc
  | listVersion | getBucket | getMetadata | getVersion | saveMetadata | saveBucket | saveVersion
  | updateVersion | removeVersion
  deriving DecidableEq, Repr

/-- How the handler returns an error of the service: metadata_server.go:53 (`ListVersion`) returns
it as it is, lines 68, 78, 92, 110, 125, 140, 154, 164 go through `GRPCError`. -/
def handlerErr : Rpc → GoErr → GoErr
  | .listVersion, e => e
  | _, e => grpcError e

/-- How the client function passes the status on: grpcapi/meta_server.go:241 (`RemoveVersion`)
returns it as it is, all others call `ResolveErr` (lines 21, 53, 83, 141, 166, 185, 209, 226). -/
def clientErr : Rpc → Code × Str → Option GoErr
  | .removeVersion, (.ok, _) => none
  | .removeVersion, (c, m) => some (.status c m)
  | _, w => resolveErr w

/-- A service error as the caller in the API server sees it. -/
def seen (r : Rpc) (e : GoErr) : Option GoErr := clientErr r (wire (handlerErr r e))

/-- A body that cannot be bound: `ShouldBindMsgpack` (metadata_server.go:180-188) returns a status
error, which the handler passes through `GRPCError` (lines 107, 121, 136, 151). -/
def badBody (m : Str) : GoErr := grpcError (.status .invalidArgument m)

/-- A body that fails the validation tags. -/
def invalidBody (m : Str) : GoErr := grpcError (grpcError (.validation m))

/-- A request refused before the handler runs, metaserver/internal/controller/grpc/middleware.go:
45-136: a status error that is returned as it is. -/
inductive Refused
  | notWritable | inMigration | movedTo (peer : Str)
  deriving DecidableEq, Repr

def Refused.err : Refused → GoErr
  | .notWritable => .status .unavailable "server is not writable".toList
  | .inMigration => .status .unavailable "server in migration".toList
  | .movedTo p => .status .aborted p

/-- apiserver/internal/usecase/repo/meta_repo.go:39-47: `Insert` turns "data exists" into
`ErrMetadataExists` (apiserver/internal/usecase/errors.go:13). -/
def insertErr (e : Option GoErr) : Option GoErr :=
  match e with
  | some (.resp s m) =>
    if m = "data exists".toList then some (.resp 500 "metadata exist".toList) else some (.resp s m)
  | e => e

/-! ## Status of a response writer -/

/-- The status of a gin response: set so far, and whether the header was written. -/
structure Writer where
  code : Nat := 200
  sent : Bool := false
  deriving DecidableEq, Repr

/-- gin's `Context.Status(code)`. -/
def Writer.status (w : Writer) (c : Nat) : Writer := if w.sent then w else { w with code := c }

/-- gin's `Context.JSON(code, body)`: sets the status, then writes the body (and with it the
header). -/
def Writer.json (w : Writer) (c : Nat) : Writer := { w.status c with sent := true }

/-- common/response/gin_executor.go:34-37 `GinExecutor.JSON`: always with status 200. -/
def execJSON (w : Writer) : Writer := w.json 200

/-- common/response/response.go:97-103 `ServiceUnavailableMsg` -/
def serviceUnavailable (w : Writer) : Writer := execJSON (w.status 503)

/-- common/response/response.go:90-95 `BadRequestMsg` -/
def badRequest (w : Writer) : Writer := w.json 400

end Verif.Api.Errors
