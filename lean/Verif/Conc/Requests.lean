import Verif.Conc.Panics
import Verif.Common.Str

/-!
# Requests whose handlers panic (C101)

The metadata servers and the data servers answer HTTP and gRPC on one port (src/common/util/h2c_handler.go:25-32); this
models the choice between the two, the interceptors in front of every RPC (h2c_handler.go:34-86), and the recovery of gin
in front of every HTTP handler (src/metaserver/internal/controller/http/http.go:20-27,
src/objectserver/internal/controller/http/router.go:22-23, src/apiserver/internal/controller/http/server.go:25-26,
src/adminserver/internal/controller/http_server.go:22).

Trusted: grpc-go runs each handler in a goroutine of its own without a `recover`; gin's recovery ends the panic of a handler
and answers 500 (library code).

Simplified: a handler is a function on a shared state; requests are taken one after the other.  An HTTP answer is its
status; gin's recovery answers 500 even where the handler had written a status before.  The answer to an RPC is its error.
-/

namespace Verif.Conc.Requests
open Verif Verif.Conc.Panics

variable {σ : Type}

/-! ## Model -/

/-- A request, with what the handler of its path or method would do. -/
structure Req (σ : Type) where
  protoMajor : Nat
  contentType : Str
  /-- The gin handler: the status it answers. -/
  http : M σ Nat
  /-- The gRPC handler: the error it returns, none for nil. -/
  rpc : M σ (Option String)

/-- What the client gets; none is a connection that breaks. -/
inductive Answer | status (n : Nat) | rpcOk | rpcErr (msg : String)
deriving DecidableEq, Repr

/-- `strings.HasPrefix` -/
def hasPrefix (s p : Str) : Bool := p.isPrefixOf s

/-- `H2Server.ServeHTTP`; h2c_handler.go:25-32: the request goes to the gRPC server. -/
def toGrpc (r : Req σ) : Bool := r.protoMajor == 2 && hasPrefix r.contentType "application/grpc".toList

/-- `UnaryLoggerInterceptor`, `StreamLoggerInterceptor`; h2c_handler.go:42-66: the result is passed on as it is. -/
def logged (log : Option String → σ → σ) (handler : M σ (Option String)) : M σ (Option String) :=
  andThen (call handler) fun err => andThen (Panics.modify (log err)) fun _ => ret err

/-- `UnaryServerRecoveryInterceptor`, `StreamServerRecoveryInterceptor`; h2c_handler.go:69-86.  The second component of the
state is the named result `err`. -/
def recovered (lg : Logger (σ × Option String)) (handler : M σ (Option String)) : M (σ × Option String) Unit :=
  guarded lg (some fun _ => Panics.modify fun s => (s.1, some "panic")) fun p s => match call handler p s.1 with
    | (.ok err, p', s') => (.ok (), p', (s', err))
    | (.error e, p', s') => (.error e, p', (s', s.2))

/-- A server: what it answered so far. -/
structure Server (σ : Type) where
  state : σ
  up : Bool
  answers : List (Option Answer)

/-- A request to a server; the interceptors in the order of h2c_handler.go:34-40. -/
def serve (lg : Logger (σ × Option String)) (log : Option String → σ → σ) (v : Server σ) (r : Req σ) : Server σ :=
  if ¬ v.up then { v with answers := v.answers ++ [none] }
  else if toGrpc r then
    match goroutine (recovered lg (logged log r.rpc)) (v.state, none) with
    | (.ok (), (s', none)) => ⟨s', true, v.answers ++ [some .rpcOk]⟩
    | (.ok (), (s', some m)) => ⟨s', true, v.answers ++ [some (.rpcErr m)]⟩
    | (.error _, (s', _)) => ⟨s', false, v.answers ++ [none]⟩
  else match r.http none v.state with
    | (.ok n, _, s') => ⟨s', true, v.answers ++ [some (.status n)]⟩
    | (.error _, _, s') => ⟨s', true, v.answers ++ [some (.status 500)]⟩

def run (lg : Logger (σ × Option String)) (log : Option String → σ → σ) (v : Server σ) (rs : List (Req σ)) : Server σ :=
  rs.foldl (serve lg log) v

/-- The logger of recover.go:10 with what it notes. -/
def realLogger (note : String → σ → σ) : Logger (σ × Option String) := panicf fun m s => (note m s.1, s.2)

/-! ## Specification -/

/-- Does the handler that gets the request Panics.panic, in this state? -/
def panics (r : Req σ) (s : σ) : Bool :=
  if toGrpc r then (match r.rpc none s with | (.error _, _, _) => true | _ => false)
  else (match r.http none s with | (.error _, _, _) => true | _ => false)

/-- What the handler answers if it does not panic. -/
def own (r : Req σ) (s : σ) : Option Answer :=
  if toGrpc r then (match r.rpc none s with
    | (.ok none, _, _) => some .rpcOk
    | (.ok (some m), _, _) => some (.rpcErr m)
    | _ => none)
  else (match r.http none s with
    | (.ok n, _, _) => some (.status n)
    | _ => none)

/-- The answer of a failed request: an internal error. -/
def Failed (a : Option Answer) : Prop := a = some (.status 500) ∨ a = some (.rpcErr "panic")

/-- **C101** in full: whatever a handler does, the server stays up and answers, with what the handler answers or with an
internal error. -/
def C101_statement : Prop :=
  ∀ (σ : Type) (note : String → σ → σ) (log : Option String → σ → σ) (v : Server σ) (r : Req σ), v.up = true →
    (serve (realLogger note) log v r).up = true ∧
    ∃ a, (serve (realLogger note) log v r).answers = v.answers ++ [a] ∧
      (panics r v.state = false → a = own r v.state) ∧ (panics r v.state = true → Failed a)

/-! ## Proofs -/

theorem logged_eq (log : Option String → σ → σ) (h : M σ (Option String)) (p : Option String) (s : σ) :
    logged log h p s = match h none s with
      | (.ok e, _, s') => (.ok e, p, log e s')
      | (.error x, _, s') => (.error x, p, s') := by
  unfold logged andThen call Panics.modify ret
  rcases h none s with ⟨r, _, s'⟩
  cases r <;> rfl

/-- **C101** Which server gets a request: gRPC exactly the requests with HTTP/2 and a content type that begins with
"application/grpc". -/
theorem C101_routing (r : Req σ) :
    toGrpc r = true ↔ r.protoMajor = 2 ∧ ∃ rest, r.contentType = "application/grpc".toList ++ rest := by
  unfold toGrpc hasPrefix
  rw [Bool.and_eq_true, beq_iff_eq, List.isPrefixOf_iff_prefix]
  constructor
  · rintro ⟨a, t, b⟩; exact ⟨a, t, b.symm⟩
  · rintro ⟨a, t, b⟩; exact ⟨a, t, b.symm⟩

/-- The three outcomes of an RPC. -/
theorem recovered_eq (note : String → σ → σ) (log : Option String → σ → σ) (h : M σ (Option String)) (s : σ) :
    goroutine (recovered (realLogger note) (logged log h)) (s, none) =
      match h none s with
      | (.ok err, _, s') => (.ok (), (log err s', err))
      | (.error e, _, s') => (.error e, (note e s', some "panic")) := by
  unfold goroutine recovered guarded withDefers
  simp only [call, logged_eq]
  rcases h none s with ⟨r, q, s'⟩
  cases r <;> simp [runDeferred, recoverFn, andThen, recover, ret, call, Panics.modify, printStacks, realLogger, panicf, Panics.panic]

/-- **C101** holds for every request whose handler does not Panics.panic, and for every HTTP request. -/
theorem C101_partial (note : String → σ → σ) (log : Option String → σ → σ) (v : Server σ) (r : Req σ) (hv : v.up = true)
    (hr : panics r v.state = false ∨ toGrpc r = false) :
    (serve (realLogger note) log v r).up = true ∧
    ∃ a, (serve (realLogger note) log v r).answers = v.answers ++ [a] ∧
      (panics r v.state = false → a = own r v.state) ∧ (panics r v.state = true → Failed a) := by
  unfold serve
  simp only [hv, not_true_eq_false, if_false]
  cases hg : toGrpc r
  · simp only [Bool.false_eq_true, if_false]
    unfold panics own Failed
    simp only [hg, Bool.false_eq_true, if_false]
    rcases r.http none v.state with ⟨x, q, s'⟩
    cases x with
    | error e => exact ⟨rfl, _, rfl, by simp, by simp⟩
    | ok n => exact ⟨rfl, _, rfl, by simp, by simp⟩
  · simp only [if_true]
    rw [recovered_eq]
    have hr : panics r v.state = false := by simpa [hg] using hr
    unfold panics own at *
    simp only [hg, if_true] at *
    rcases hx : r.rpc none v.state with ⟨x, q, s'⟩
    rw [hx] at hr
    cases x with
    | error e => simp at hr
    | ok err => cases err <;> exact ⟨rfl, _, rfl, by simp, by simp⟩

/-- **C101** An RPC whose handler panics is not answered and ends the process: no request is answered any more, although the
interceptor has noted an internal error for it. -/
theorem C101_rpc_panic (note : String → σ → σ) (log : Option String → σ → σ) (v : Server σ) (r : Req σ) (rs : List (Req σ))
    (hg : toGrpc r = true) (hp : panics r v.state = true) (hv : v.up = true) :
    (run (realLogger note) log v (r :: rs)).up = false ∧
    (run (realLogger note) log v (r :: rs)).answers = v.answers ++ List.replicate (rs.length + 1) none := by
  have h1 : ∃ s', serve (realLogger note) log v r = ⟨s', false, v.answers ++ [none]⟩ := by
    unfold serve
    simp only [hv, not_true_eq_false, if_false, hg, if_true]
    rw [recovered_eq]
    unfold panics at hp
    simp only [hg, if_true] at hp
    rcases hx : r.rpc none v.state with ⟨x, q, s'⟩
    rw [hx] at hp
    cases x with
    | error e => exact ⟨_, rfl⟩
    | ok err => simp at hp
  have down : ∀ (rs : List (Req σ)) (v : Server σ), v.up = false →
      (run (realLogger note) log v rs).up = false ∧
      (run (realLogger note) log v rs).answers = v.answers ++ List.replicate rs.length none := by
    intro rs
    induction rs with
    | nil => intro v hv; exact ⟨hv, by simp [run]⟩
    | cons x xs ih =>
      intro v hv
      have : serve (realLogger note) log v x = { v with answers := v.answers ++ [none] } := by
        unfold serve; simp [hv]
      rw [run, List.foldl_cons, this]
      have := ih { v with answers := v.answers ++ [none] } hv
      rw [run] at this
      refine ⟨this.1, ?_⟩
      rw [this.2]
      simp [List.replicate_succ]
  obtain ⟨s', h1⟩ := h1
  rw [run, List.foldl_cons, h1]
  have := down rs ⟨s', false, v.answers ++ [none]⟩ rfl
  rw [run] at this
  refine ⟨this.1, ?_⟩
  rw [this.2]
  simp [List.replicate_succ]

/-- An RPC that panics when the state is 0, answers otherwise, and an HTTP request that panics. -/
def sampleRpc : Req Nat := ⟨2, "application/grpc+proto".toList, ret 200, fun p n => if n = 0 then Panics.panic "nil pointer" p n else ret none p n⟩
def sampleHttp : Req Nat := ⟨1, "application/json".toList, fun p n => Panics.panic "index out of range" p (n + 1), ret none⟩

example : (run (realLogger fun _ s => s) (fun _ s => s) ⟨1, true, []⟩ [sampleHttp, sampleRpc]).answers =
    [some (.status 500), some .rpcOk] := by decide

example : (run (realLogger fun _ s => s) (fun _ s => s) ⟨0, true, []⟩ [sampleRpc, sampleHttp, sampleHttp]).answers =
    [none, none, none] := by decide

/-- **C101** in full is false. -/
theorem C101_statement_fails : ¬ C101_statement := by
  intro h
  have := (h Nat (fun _ s => s) (fun _ s => s) ⟨0, true, []⟩ sampleRpc rfl).1
  exact absurd this (by decide)

/-- **C101** It is the logger: with one that returns from `Panicf`, an RPC whose handler panics is answered with the internal
error, and the server stays up. -/
theorem C101_cause (note : String → σ → σ) (log : Option String → σ → σ) (v : Server σ) (r : Req σ)
    (hg : toGrpc r = true) (hp : panics r v.state = true) (hv : v.up = true) :
    (serve (fun m => Panics.modify fun s => (note m s.1, s.2)) log v r).up = true ∧
    (serve (fun m => Panics.modify fun s => (note m s.1, s.2)) log v r).answers = v.answers ++ [some (.rpcErr "panic")] := by
  have he : ∀ (h : M σ (Option String)) (s : σ), goroutine (recovered (fun m => Panics.modify fun s => (note m s.1, s.2)) (logged log h)) (s, none) =
      match h none s with
      | (.ok err, _, s') => (.ok (), (log err s', err))
      | (.error e, _, s') => (.ok (), (note e s', some "panic")) := by
    intro h s
    unfold goroutine recovered guarded withDefers
    simp only [call, logged_eq]
    rcases h none s with ⟨r, q, s'⟩
    cases r <;> simp [runDeferred, recoverFn, andThen, recover, ret, call, Panics.modify, printStacks]
  unfold serve
  simp only [hv, not_true_eq_false, if_false, hg, if_true]
  rw [he]
  unfold panics at hp
  simp only [hg, if_true] at hp
  rcases hx : r.rpc none v.state with ⟨x, q, s'⟩
  rw [hx] at hp
  cases x with
  | error e => exact ⟨rfl, rfl⟩
  | ok err => simp at hp

example : toGrpc sampleRpc = true ∧ panics sampleRpc 0 = true ∧ panics sampleRpc 1 = false ∧ toGrpc sampleHttp = false := by decide

end Verif.Conc.Requests
