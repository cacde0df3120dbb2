import Verif.Common.Str

/-!
# Authentication of API requests: C43, C65

src/apiserver/internal/usecase/componet/auth/*.go and the mounting of the middleware,
src/apiserver/internal/controller/http/server.go:19-43.
-/

namespace Verif.Api

open Verif

/-- What the middleware reads of a request: the route (`c.FullPath()`), the header `Host`, the headers
`Bucket` and `Region` (empty: absent), the parameter `name`, the query parameter `version` as `util.ToInt`
reads it, the method, and the basic-auth user and password if there are any. -/
structure Req where
  fullPath : Str
  host : Str
  bucket : Str
  region : Str
  name : Str
  version : Int
  method : Str
  basic : Option (Str × Str)
  deriving DecidableEq

/-- `response.Error`: status and message; errors of other packages have status 0 here. -/
structure AErr where
  status : Nat
  msg : Str
  deriving DecidableEq

/-- `Verification.Middleware`, interfaces.go:12-15: the answer and the error. -/
abbrev Check := Req → Bool × Option AErr

/-- The two context keys of auth_middleware.go:11-12; `none`: not set. -/
structure Ctx where
  key : Option Bool
  err : Option AErr
  deriving DecidableEq

/-- `PreAuthenticate`, auth_middleware.go:14-32. -/
def preAuthenticate (enable : Bool) (white : List Str) (r : Req) (c : Ctx) : Ctx :=
  if !enable then { c with key := some true }
  else if white.any (hasPrefix r.fullPath) then { c with key := some true }
  else ⟨some false, some ⟨403, ['w', 'h', 'i', 't', 'e']⟩⟩

/-- `AuthenticateWrap`, auth_middleware.go:34-47. -/
def authenticateWrap (v : Check) (r : Req) (c : Ctx) : Ctx :=
  if c.key = some true then c
  else match v r with
    | (_, some e) => { c with err := some e }
    | (ok, none) => { c with key := some ok }

/-- The result of the chain: the handler of the route runs, or the request is answered with an error, or the
type assertion in auth_middleware.go:52 panics. -/
inductive AuthResult
  | pass
  | reject (e : AErr)
  | panic
  deriving DecidableEq

/-- `AfterAuthenticate`, auth_middleware.go:49-54. -/
def afterAuthenticate (c : Ctx) : AuthResult :=
  if c.key = some true then .pass
  else match c.err with
    | some e => .reject e
    | none => .panic

/-- `AuthenticationMiddleware`, auth_middleware.go:56-62: the chain on a fresh context.  None of the handlers
before the last one aborts. -/
def authMiddleware (enable : Bool) (white : List Str) (checks : List Check) (r : Req) : AuthResult :=
  afterAuthenticate (checks.foldl (fun c v => authenticateWrap v r c) (preAuthenticate enable white r ⟨none, none⟩))

/-- `credential.AdminCredential`. -/
structure Cred where
  username : Str
  password : Str
  deriving DecidableEq

/-- The question sent to the callback URL (`credential.CallbackToken`, callback_validator.go:49-56).
Simplification: the additional parameters of callback_validator.go:57-63 are left out. -/
structure Question where
  bucket : Str
  region : Str
  fileName : Str
  version : Int
  method : Str
  deriving DecidableEq

/-- `CallbackValidator.Middleware`, callback_validator.go:38-66; `ask` is `Verify` (callback_validator.go:25-36):
`none` if the callback answers with status 200. -/
def callbackBucket (r : Req) : Option Str :=
  match cutOn '.' r.host with
  | some (c :: b, _) => some (c :: b)
  | _ => if r.bucket = [] then none else some r.bucket

/-- See `callbackBucket`. -/
def callbackQuestion (r : Req) (b : Str) : Question := ⟨b, r.region, r.name, r.version, r.method⟩

/-- See `callbackBucket`. -/
def callbackCheck (enable : Bool) (ask : Question → Option AErr) : Check := fun r =>
  if !enable then (false, none)
  else match callbackBucket r with
    | none => (false, some ⟨400, ['b', 'u', 'c', 'k', 'e', 't']⟩)
    | some b =>
      match ask (callbackQuestion r b) with
      | none => (true, none)
      | some e => (false, some e)

/-- What reading the credential from etcd gives: an error, nothing, a value that does not decode, or a
credential (password_validator.go:54-65). -/
inductive Stored
  | failed (e : AErr)
  | nothing
  | garbage (e : AErr)
  | cred (c : Cred)
  deriving DecidableEq

/-- `PasswordValidator.Verify`, password_validator.go:54-71. -/
def passwordVerify (s : Stored) (u p : Str) : Option AErr :=
  match s with
  | .failed e => some e
  | .nothing => some ⟨0, ['n', 'o', 'n', 'e']⟩
  | .garbage e => some e
  | .cred c => if u ≠ c.username ∨ p ≠ c.password then some ⟨401, ['w', 'r', 'o', 'n', 'g']⟩ else none

/-- `PasswordValidator.Middleware`, password_validator.go:73-79. -/
def passwordCheck (enable : Bool) (s : Stored) : Check := fun r =>
  match r.basic, enable with
  | some (u, p), true =>
    match passwordVerify s u p with
    | none => (true, none)
    | some e => (false, some e)
  | _, _ => (false, none)

/-- `auth.Config`, auth_config.go:3-20, with what the outside world answers. -/
structure AuthCfg where
  enable : Bool
  white : List Str
  callback : Bool
  ask : Question → Option AErr
  password : Bool
  stored : Stored

/-- The middleware of the API server, server.go:20-23. -/
def apiAuth (c : AuthCfg) (r : Req) : AuthResult :=
  authMiddleware c.enable c.white [callbackCheck c.callback c.ask, passwordCheck c.password c.stored] r

/-! ## C43 -/

theorem wrap_fold (r : Req) (checks : List Check) (c : Ctx) :
    ((checks.foldl (fun c v => authenticateWrap v r c) c).key = some true ↔
      c.key = some true ∨ ∃ v ∈ checks, v r = (true, none)) ∧
    (c.err.isSome → (checks.foldl (fun c v => authenticateWrap v r c) c).err.isSome) := by
  induction checks generalizing c with
  | nil => simp
  | cons v vs ih =>
    rw [List.foldl_cons]
    obtain ⟨h1, h2⟩ := ih (authenticateWrap v r c)
    have hk : (authenticateWrap v r c).key = some true ↔ c.key = some true ∨ v r = (true, none) := by
      unfold authenticateWrap
      by_cases hc : c.key = some true
      · simp [hc]
      · rw [if_neg hc]
        rcases hv : v r with ⟨ok, _ | e⟩
        · simp [hc]
        · simp [hc]
    have he : c.err.isSome → (authenticateWrap v r c).err.isSome := by
      intro h
      unfold authenticateWrap
      by_cases hc : c.key = some true
      · simpa [hc] using h
      · rw [if_neg hc]
        rcases hv : v r with ⟨ok, _ | e⟩
        · exact h
        · rfl
    refine ⟨?_, fun h => h2 (he h)⟩
    rw [h1, hk]
    simp only [List.mem_cons, exists_eq_or_imp]
    rw [or_assoc]

/-- **C43**: with any list of checks, a request passes exactly if authentication is off, its route begins
with a prefix of the white list, or some check accepts it without an error. -/
theorem C43_any_checks (enable : Bool) (white : List Str) (checks : List Check) (r : Req) :
    authMiddleware enable white checks r = .pass ↔
      enable = false ∨ (∃ w ∈ white, ∃ t, r.fullPath = w ++ t) ∨ ∃ v ∈ checks, v r = (true, none) := by
  have hpre : (preAuthenticate enable white r ⟨none, none⟩).key = some true ↔
      enable = false ∨ ∃ w ∈ white, ∃ t, r.fullPath = w ++ t := by
    unfold preAuthenticate
    cases enable
    · simp
    · simp only [Bool.not_true, Bool.false_eq_true, if_false, Bool.true_eq_false, false_or]
      have : white.any (hasPrefix r.fullPath) = true ↔ ∃ w ∈ white, ∃ t, r.fullPath = w ++ t := by
        rw [List.any_eq_true]
        constructor
        · rintro ⟨w, h1, h2⟩; exact ⟨w, h1, (hasPrefix_iff _ _).1 h2⟩
        · rintro ⟨w, h1, h2⟩; exact ⟨w, h1, (hasPrefix_iff _ _).2 h2⟩
      rw [← this]
      cases white.any (hasPrefix r.fullPath) <;> simp
  obtain ⟨h1, _⟩ := wrap_fold r checks (preAuthenticate enable white r ⟨none, none⟩)
  unfold authMiddleware afterAuthenticate
  rw [← or_assoc, ← hpre, ← h1]
  constructor
  · intro h
    split at h
    · assumption
    · split at h <;> cases h
  · intro h; rw [if_pos h]

/-- **C43**: a request that does not pass is answered with an error; the middleware does not panic. -/
theorem C43_rejected_with_error (enable : Bool) (white : List Str) (checks : List Check) (r : Req) :
    authMiddleware enable white checks r = .pass ∨ ∃ e, authMiddleware enable white checks r = .reject e := by
  obtain ⟨h1, h2⟩ := wrap_fold r checks (preAuthenticate enable white r ⟨none, none⟩)
  unfold authMiddleware afterAuthenticate
  by_cases h : (checks.foldl (fun c v => authenticateWrap v r c) (preAuthenticate enable white r ⟨none, none⟩)).key
      = some true
  · left; rw [if_pos h]
  · right
    rw [if_neg h]
    have hp : (preAuthenticate enable white r ⟨none, none⟩).err.isSome := by
      have hk : ¬ (preAuthenticate enable white r ⟨none, none⟩).key = some true := fun hk => h (h1.2 (Or.inl hk))
      unfold preAuthenticate at hk ⊢
      split
      · rename_i he; rw [if_pos he] at hk; exact absurd rfl hk
      · rename_i he
        rw [if_neg he] at hk
        split
        · rename_i hw; rw [if_pos hw] at hk; exact absurd rfl hk
        · rfl
    obtain ⟨e, he⟩ := Option.isSome_iff_exists.1 (h2 hp)
    exact ⟨e, by rw [he]⟩

/-- The callback accepts a request. -/
def CallbackAccepts (c : AuthCfg) (r : Req) : Prop :=
  c.callback = true ∧ ∃ b, callbackBucket r = some b ∧ c.ask ⟨b, r.region, r.name, r.version, r.method⟩ = none

/-- The request carries the stored user and password. -/
def PasswordAccepts (c : AuthCfg) (r : Req) : Prop :=
  c.password = true ∧ ∃ u p, r.basic = some (u, p) ∧ c.stored = .cred ⟨u, p⟩

/-- **C43**: a request reaches the API exactly if authentication is off, its route is white-listed, the
callback accepts it, or it carries the stored user and password. -/
theorem C43_api (c : AuthCfg) (r : Req) :
    apiAuth c r = .pass ↔
      c.enable = false ∨ (∃ w ∈ c.white, ∃ t, r.fullPath = w ++ t) ∨ CallbackAccepts c r ∨ PasswordAccepts c r := by
  unfold apiAuth
  rw [C43_any_checks]
  have h1 : callbackCheck c.callback c.ask r = (true, none) ↔ CallbackAccepts c r := by
    unfold callbackCheck CallbackAccepts callbackQuestion
    cases c.callback
    · simp
    · cases callbackBucket r with
      | none => simp
      | some b =>
        simp only [Bool.not_true, Bool.false_eq_true, if_false, true_and, Option.some.injEq, exists_eq_left']
        cases c.ask ⟨b, r.region, r.name, r.version, r.method⟩ <;> simp
  have h2 : passwordCheck c.password c.stored r = (true, none) ↔ PasswordAccepts c r := by
    unfold passwordCheck PasswordAccepts
    cases c.password
    · simp
    · rcases r.basic with _ | ⟨u, p⟩
      · simp
      · simp only [true_and, Option.some.injEq, Prod.mk.injEq]
        rcases c.stored with e | _ | e | cr
        · simp [passwordVerify]
        · simp [passwordVerify]
        · simp [passwordVerify]
        · obtain ⟨cu, cp⟩ := cr
          simp only [passwordVerify, Stored.cred.injEq, Cred.mk.injEq]
          by_cases hu : u = cu
          · by_cases hp : p = cp
            · subst hu hp; simp
            · subst hu
              simp only [ne_eq, not_true, false_or, hp, not_false_iff, if_true]
              constructor
              · intro h; cases h
              · rintro ⟨_, _, ⟨rfl, rfl⟩, _, h⟩; exact absurd h.symm hp
          · simp only [ne_eq, hu, not_false_iff, true_or, if_true]
            constructor
            · intro h; cases h
            · rintro ⟨_, _, ⟨rfl, rfl⟩, h, _⟩; exact absurd h.symm hu
  simp only [List.mem_cons, List.not_mem_nil, or_false, exists_eq_or_imp, exists_eq_left, h1, h2]

/-- A request for an object of the bucket `b`, with user and password. -/
def exAuthReq : Req :=
  ⟨['/', 'v', '1'], ['h'], ['b'], [], ['x'], 0, ['G', 'E', 'T'], some (['u'], ['p'])⟩

/-- Password authentication only. -/
def exAuth : AuthCfg := ⟨true, [], false, fun _ => none, true, .cred ⟨['u'], ['p']⟩⟩

example : apiAuth exAuth exAuthReq = .pass := by decide
example : apiAuth exAuth { exAuthReq with basic := some (['u'], ['q']) } = .reject ⟨401, ['w', 'r', 'o', 'n', 'g']⟩ := by
  decide
example : apiAuth exAuth { exAuthReq with basic := none } = .reject ⟨403, ['w', 'h', 'i', 't', 'e']⟩ := by decide

/-! ## The stored credential -/

/-- `PasswordValidator.init`, password_validator.go:29-52, with enabled password authentication: what etcd
contains (`none`: nothing) before and after; `readFails`: the `Get` fails.  Simplification: the `Put` succeeds. -/
def initCredential (readFails : Bool) (username password : Str) (stored : Option Cred) : Option Cred :=
  if readFails then some ⟨username, password⟩
  else if stored.isSome || username = [] || password = [] then stored
  else some ⟨username, password⟩

/-- **C43**: if etcd answers, starting an API server keeps a stored credential, and stores the configured one
only if it has a user and a password. -/
theorem C43_init_partial (u p : Str) (stored : Option Cred) :
    (stored.isSome → initCredential false u p stored = stored) ∧
    (∀ c, initCredential false u p none = some c → c = ⟨u, p⟩ ∧ u ≠ [] ∧ p ≠ []) := by
  constructor
  · intro h; simp [initCredential, h]
  · intro c h
    unfold initCredential at h
    simp only [Bool.false_eq_true, if_false, Option.isSome_none, Bool.false_or] at h
    split at h
    · cases h
    · rename_i hc
      simp only [Bool.or_eq_true, decide_eq_true_eq, not_or] at hc
      cases h
      exact ⟨rfl, hc.1, hc.2⟩

example : initCredential false ['u'] ['p'] none = some ⟨['u'], ['p']⟩ := by decide

/-- Missing in `C43_init_partial`: if the read fails, a stored credential is overwritten, and without a
configured user and password the empty ones are stored and then accepted. -/
theorem C43_init_read_failure (c : Cred) (r : Req) (cfg : AuthCfg) (hp : cfg.password = true)
    (hs : ∃ c', initCredential true [] [] (some c) = some c' ∧ cfg.stored = .cred c')
    (hr : r.basic = some ([], [])) : apiAuth cfg r = .pass := by
  obtain ⟨c', h1, h2⟩ := hs
  cases h1
  exact (C43_api cfg r).2 (Or.inr (Or.inr (Or.inr ⟨hp, [], [], hr, h2⟩)))

example : apiAuth ⟨true, [], false, fun _ => none, true, .cred ⟨[], []⟩⟩ { exAuthReq with basic := some ([], []) } = .pass :=
  by decide

/-! ## C65 -/

/-- The bucket an object or metadata request acts on: the header `bucket`, which is required
(src/apiserver/internal/entity/dto.go:22-48, metadata_api.go:31, 50).  Simplification: a query parameter
`Bucket` would replace it; see `Verif.Api.Bind` (C85). -/
def actsOn (r : Req) : Option Str := if r.bucket = [] then none else some r.bucket

/-- **C65**, partial: if the header `Host` has no dot (or begins with one), the callback is asked about the
bucket, the object and the method the request acts on. -/
theorem C65_same_bucket_partial (c : AuthCfg) (r : Req) (henable : c.enable = true) (hw : c.white = [])
    (hnp : c.password = false) (hh : '.' ∉ r.host ∨ ∃ t, r.host = '.' :: t) (h : apiAuth c r = .pass) :
    ∃ b, actsOn r = some b ∧ c.ask ⟨b, r.region, r.name, r.version, r.method⟩ = none := by
  rcases (C43_api c r).1 h with h | h | h | h
  · rw [henable] at h; cases h
  · rw [hw] at h; simp at h
  · obtain ⟨_, b, hb, ha⟩ := h
    refine ⟨b, ?_, ha⟩
    unfold callbackBucket at hb
    unfold actsOn
    rcases hh with hh | ⟨t, hh⟩
    · rw [cutOn_none.2 hh] at hb; exact hb
    · rw [hh] at hb
      simpa [cutOn] using hb
  · exact absurd (hnp.symm.trans h.1) (by decide)

/-- Callback authentication that allows the bucket `a` only. -/
def exCallback : AuthCfg :=
  ⟨true, [], true, fun q => if q.bucket = ['a'] then none else some ⟨403, []⟩, false, .nothing⟩

example : apiAuth exCallback { exAuthReq with bucket := ['a'] } = .pass := by decide
example : apiAuth exCallback exAuthReq = .reject ⟨403, []⟩ := by decide

/-- **C65** does not hold in general: the callback is asked about the first label of the header `Host`,
while the request acts on the header `bucket`.  A client that may use the bucket `a` reaches the bucket `b`. -/
theorem C65_host_bypasses_callback :
    apiAuth exCallback { exAuthReq with host := ['a', '.', 'h'] } = .pass ∧
    actsOn { exAuthReq with host := ['a', '.', 'h'] } = some ['b'] ∧
    exCallback.ask ⟨['b'], [], ['x'], 0, ['G', 'E', 'T']⟩ = some ⟨403, []⟩ := by decide

/-- In general: whatever bucket `a` (without a dot) the callback allows, every bucket can be acted on. -/
theorem C65_any_bucket (c : AuthCfg) (hcb : c.callback = true) (a b : Str) (hb : b ≠ [])
    (ha : a ≠ []) (hd : '.' ∉ a) (r : Req)
    (hok : c.ask ⟨a, r.region, r.name, r.version, r.method⟩ = none) :
    ∃ r', actsOn r' = some b ∧ apiAuth c r' = .pass ∧ r'.name = r.name ∧ r'.method = r.method := by
  refine ⟨{ r with host := a ++ ['.'], bucket := b }, by simp [actsOn, hb], ?_, rfl, rfl⟩
  refine (C43_api c _).2 (Or.inr (Or.inr (Or.inl ⟨hcb, a, ?_, hok⟩)))
  unfold callbackBucket
  show (match cutOn '.' (a ++ '.' :: []) with
    | some (c :: b, _) => some (c :: b)
    | _ => if b = [] then none else some b) = some a
  rw [cutOn_append hd]
  cases a with
  | nil => exact absurd rfl ha
  | cons x xs => rfl

end Verif.Api
