import Verif.Api.Errors

/-!
# The client learns what went wrong (C74)
-/

namespace Verif.Api.Errors

open Verif

/-- Specification: the HTTP status a client should get for an error of the metadata server: 404 for
missing data, 400 for requests that conflict with the stored data, 500 for anything else. -/
def expected : Meta.Err → Nat
  | .notFound => 404
  | .exists | .oldData | .nilData => 400
  | _ => 500

/-- Full statement: every RPC reports every error of the service with its status. -/
def C74_statement : Prop :=
  ∀ (r : Rpc) (e : Meta.Err), (seen r (ofMeta e)).map failErr = some (expected e)

/-- **C74** partial: reading a bucket, an object or a version and saving any of them (and updating a
version) report every error of the service with its status, and the text of a client error
unchanged.  Missing: listing and removing versions (`C74_statement_fails`). -/
theorem C74_status_partial (r : Rpc) (h1 : r ≠ .listVersion) (h2 : r ≠ .removeVersion) (e : Meta.Err) :
    (seen r (ofMeta e)).map failErr = some (expected e) ∧
    (expected e ≠ 500 → (seen r (ofMeta e)).map GoErr.text = some (ofMeta e).text) := by
  cases r <;> first | exact absurd rfl h1 | exact absurd rfl h2 | (cases e <;> exact ⟨rfl, by decide⟩)

/-- A missing version is a 404 with its text; an error of the database is a 500. -/
example : seen .getVersion (ofMeta .notFound) = some (.resp 404 "not found".toList) ∧
    (seen .saveVersion (ofMeta .keyTooLarge)).map failErr = some 500 := by decide

/-- **C74** Listing the versions of a missing object is answered with 500, removing a missing
version as well. -/
theorem C74_statement_fails : ¬ C74_statement ∧
    (seen .listVersion (ofMeta .notFound)).map failErr = some 500 ∧
    (seen .removeVersion (ofMeta .notFound)).map failErr = some 500 := by
  refine ⟨fun h => ?_, by decide, by decide⟩
  have := h .listVersion .notFound
  revert this
  decide

theorem grpcError_code (e : GoErr) (h : ∀ s m, e = .resp s m → isOk s = false) :
    (wire (grpcError e)).1 ≠ .ok := by
  cases e with
  | resp s m =>
    have hs := h s m rfl
    simp only [grpcError, hs, Bool.false_eq_true, ↓reduceIte]
    split
    · simp [wire]
    · simp only [wire]
      unfold httpGrpcStatus
      split <;> simp [isOk] at hs ⊢
  | _ => simp [grpcError, wire]

theorem wire_code (e : GoErr) (h : ∀ m, e ≠ .status .ok m) : (wire e).1 ≠ .ok := by
  cases e with
  | status c m => rintro rfl; exact h m rfl
  | _ => simp [wire]

/-- **C74** No error is lost: whatever error without a 2xx status the service returns, the caller in
the API server gets an error, and the HTTP client a status that is not 2xx. -/
theorem C74_never_lost (r : Rpc) (e : GoErr) (h : ∀ s m, e = .resp s m → isOk s = false)
    (h' : ∀ m, e ≠ .status .ok m) :
    ∃ e', seen r e = some e' ∧ isOk (failErr e') = false := by
  have hw : (wire (handlerErr r e)).1 ≠ .ok := by
    cases r <;> first | exact wire_code e h' | exact grpcError_code e h
  unfold seen
  revert hw
  generalize wire (handlerErr r e) = w
  obtain ⟨c, m⟩ := w
  intro hw
  cases c <;> first
    | exact absurd rfl hw
    | (cases r <;> exact ⟨_, rfl, by simp [failErr, isOk]⟩)

example : seen .saveBucket (.plain []) = some (.resp 500 []) := by decide

/-- **C74** What becomes of a status in general: 400 and 404 survive, every other one becomes
500. -/
theorem C74_status_table (r : Rpc) (h1 : r ≠ .listVersion) (h2 : r ≠ .removeVersion) (s : Nat) (m : Str)
    (hs : isOk s = false) :
    seen r (.resp s m) = some (.resp (if s = 400 ∨ s = 404 then s else 500) m) := by
  have hr : seen r (.resp s m) = resolveErr (wire (grpcError (.resp s m))) := by
    cases r <;> first | exact absurd rfl h1 | exact absurd rfl h2 | rfl
  rw [hr]
  by_cases hi : isInternal s
  · have hn : ¬ (s = 400 ∨ s = 404) := by rintro (rfl | rfl) <;> revert hi <;> decide
    simp [grpcError, hs, hi, wire, resolveErr, hn]
  · simp only [grpcError, hs, hi, Bool.false_eq_true, ↓reduceIte, wire]
    unfold httpGrpcStatus
    split
    · simp [isOk] at hs
    all_goals first | rfl | skip
    rename_i h200 h400 h401 h403 h404
    rw [if_neg (by rintro (rfl | rfl) <;> simp_all)]
    rfl

/-- **C74** On the wire: a status from 500 to 599 is `Internal`, the four with a code of their own keep it,
any other that is not 2xx is `Unknown`; the text is kept. -/
theorem C74_wire_code (s : Nat) (m : Str) (hs : s < 200 ∨ 300 ≤ s) :
    wire (grpcError (.resp s m)) =
      (if 500 ≤ s ∧ s < 600 then .internal else if s = 400 then .invalidArgument
        else if s = 401 then .unauthenticated else if s = 403 then .permissionDenied
        else if s = 404 then .notFound else .unknown, m) := by
  have h1 : isOk s = false := by simp only [isOk, beq_eq_false_iff_ne]; omega
  simp only [grpcError, h1, Bool.false_eq_true, if_false]
  by_cases h5 : 500 ≤ s ∧ s < 600
  · have : isInternal s = true := by simp only [isInternal, beq_iff_eq]; omega
    rw [if_pos this, if_pos h5]; rfl
  · have : isInternal s = false := by simp only [isInternal, beq_eq_false_iff_ne]; omega
    rw [this, if_neg h5]
    simp only [Bool.false_eq_true, if_false]
    unfold httpGrpcStatus
    split
    · omega
    · rfl
    · rfl
    · rfl
    · rfl
    · rename_i a b c d e
      rw [if_neg (by simpa using b), if_neg (by simpa using c), if_neg (by simpa using d), if_neg (by simpa using e)]
      rfl

example : (wire (grpcError (.resp 503 []))).1 = .internal ∧ (wire (grpcError (.resp 409 []))).1 = .unknown := by
  decide

/-- Statuses that are lost: forbidden, unauthenticated, conflict, bad gateway. -/
example : [403, 401, 409, 502].map (fun s => (seen .getMetadata (.resp s [])).map failErr) =
    [some 500, some 500, some 500, some 500] := by decide

/-- **C74** A malformed or invalid body, which is the caller's fault, is reported as an internal
error, because the status error of `ShouldBindMsgpack` passes through `GRPCError` again. -/
theorem C74_bad_body (r : Rpc) (m : Str) (h2 : r ≠ .removeVersion) :
    (clientErr r (wire (badBody m))).map failErr = some 500 ∧
    (clientErr r (wire (invalidBody m))).map failErr = some 500 := by
  cases r <;> first | exact absurd rfl h2 | exact ⟨rfl, rfl⟩

/-- **C74** A server in migration or without a leader, which is temporary, is reported as 500, a
request for a moved slot as 400. -/
theorem C74_refused (r : Rpc) (h2 : r ≠ .removeVersion) (x : Refused) :
    (clientErr r (wire x.err)).map failErr = some (match x with | .movedTo _ => 400 | _ => 500) := by
  cases r <;> first | exact absurd rfl h2 | (cases x <;> rfl)

/-- **C74** An object that already exists is reported by `Insert` with the error its caller tests
for, and no other answer is. -/
theorem C74_insert_exists (e : Meta.Err) :
    insertErr (seen .saveMetadata (ofMeta e)) = some (.resp 500 "metadata exist".toList) ↔ e = .exists := by
  cases e <;> decide

/-- **C74** Every other answer to `Insert` reaches its caller as it is; in particular no failure becomes a
success. -/
theorem C74_insert_other (e : Option GoErr) (h : ∀ s, e ≠ some (.resp s "data exists".toList)) :
    insertErr e = e := by
  unfold insertErr
  split
  · rename_i s m
    rw [if_neg]
    intro hm
    exact h s (by rw [hm])
  · rfl

example : insertErr (some (.resp 404 "x".toList)) = some (.resp 404 "x".toList) ∧ insertErr none = none := by
  decide

/-- **C74** `ServiceUnavailableMsg` answers with status 200. -/
theorem C74_unavailable_is_200 (w : Writer) (h : w.sent = false) : (serviceUnavailable w).code = 200 := by
  simp [serviceUnavailable, execJSON, Writer.json, Writer.status, h]

example : serviceUnavailable {} = ⟨200, true⟩ ∧ badRequest {} = ⟨400, true⟩ := by decide

end Verif.Api.Errors
