import Verif.Admin.AuthProps
import Verif.Api.Auth

/-!
# Signing in at the web console (C117)

Models src/adminserver/ui/src/store/index.ts:4-28 and :61-64, api/auth.ts, the request interceptor of api/base.js:8-15,
components/LoginDialog.vue:56-77 and App.vue:8 and :23-29.  The requests go through the administration server
(`Verif.Admin.Auth`, C83) to the API server (`Verif.Api.apiAuth`, C43).

Simplified: a request is answered before the next thing is done; the browser can keep the cookie; the API server is
there.  js-base64 and Go's `encoding/base64` are the parameter `Base64`; the header is read as
`http.Request.BasicAuth` does.
-/

namespace Verif.Ui.Session

open Verif.Admin.Auth (Route)

/-- `Base64.encode` of js-base64 and `base64.StdEncoding.DecodeString`, which are not part of the repository: what was
encoded is decoded, the encoding of something is not empty and has no blanks. -/
structure Base64 where
  enc : Str → Str
  dec : Str → Option Str
  dec_enc : ∀ s, dec (enc s) = some s
  nonempty : ∀ s, s ≠ [] → enc s ≠ []
  noBlank : ∀ s, ' ' ∉ enc s

/-- The part of the store that is about the user; store/index.ts:5 and :9. -/
structure Store where
  basicAuth : Str
  user : Str

/-- `clearAuth`; store/index.ts:16-19. -/
def clearAuth (_ : Store) : Store := ⟨[], []⟩

/-- `setAuth`; store/index.ts:21-28. -/
def setAuth (b : Base64) (username password : Str) : Store :=
  if username = [] ∧ password = [] then ⟨[], username⟩
  else ⟨b.enc (username ++ ':' :: password), username⟩

/-- The beginning of the header, `Basic` and a blank. -/
def basicPre : Str := ['B', 'a', 's', 'i', 'c', ' ']

/-- The header `Authorization` as it is sent; base.js:10.  Browsers remove blanks at the end of a header. -/
def header (s : Store) : Str := if s.basicAuth = [] then ['B', 'a', 's', 'i', 'c'] else basicPre ++ s.basicAuth

/-- `http.Request.BasicAuth` of Go's library.  Simplified: the scheme is compared exactly. -/
def parseBasic (b : Base64) (h : Str) : Option (Str × Str) :=
  if basicPre.isPrefixOf h then (b.dec (h.drop 6)).bind (cutOn ':') else none

/-- What the API server says of a token: its middleware (C43) for the request `req r` of the administration server,
apart from the credentials. -/
def accepts (b : Base64) (cfg : Api.AuthCfg) (req : Route → Api.Req) (r : Route) (token : Str) : Bool :=
  Api.apiAuth cfg { req r with basic := parseBasic b token } = .pass

/-- The console in a browser: the store (kept in `localStorage`, store/index.ts:61-64), whether the dialog is open
(App.vue:8), the cookie of the administration server. -/
structure St where
  store : Store
  dialog : Bool
  jar : Admin.Auth.Session

/-- A request of the console. -/
def send (acc : Route → Str → Bool) (s : St) (r : Route) : Admin.Auth.Resp := Admin.Auth.serve acc ⟨s.jar, header s.store, r, true⟩

inductive Ev
  /-- `doLogin` with what was typed; LoginDialog.vue:69-77 -/
  | login (username password : Str)
  /-- `loginOut`; App.vue:23-29 -/
  | logout
  /-- the page is loaded again; App.vue:8 -/
  | reload
  /-- any other request -/
  | request (r : Route)

def step (b : Base64) (acc : Route → Str → Bool) (s : St) : Ev → St
  | .login _ password =>
    let s1 := { s with store := setAuth b password password }
    let a := send acc s1 .login
    if a.status = .ok then { s1 with dialog := false, jar := a.cookie }
    else { s1 with store := clearAuth s1.store, jar := a.cookie }
  | .logout =>
    let s1 := { s with store := clearAuth s.store }
    { s1 with dialog := true, jar := (send acc s1 .logout).cookie }
  | .reload => { s with dialog := s.store.basicAuth = [] }
  | .request r => { s with jar := (send acc s r).cookie }

def run (b : Base64) (acc : Route → Str → Bool) (s : St) (es : List Ev) : St := es.foldl (step b acc) s

/-! ## Specification -/

/-- A user name without a colon, as the scheme `Basic` demands. -/
def GoodName (u : Str) : Prop := ':' ∉ u

/-- The API server asks for one user name and password and nothing else. -/
def Locked (cfg : Api.AuthCfg) (u p : Str) : Prop :=
  cfg.enable = true ∧ cfg.white = [] ∧ cfg.callback = false ∧ cfg.password = true ∧ cfg.stored = .cred ⟨u, p⟩

/-- **C117**: who types the user name and password of the cluster is signed in. -/
def C117_statement : Prop :=
  ∀ (b : Base64) (cfg : Api.AuthCfg) (req : Route → Api.Req) (s : St) (u p : Str), Locked cfg u p → GoodName u → u ≠ [] → p ≠ [] →
    (step b (accepts b cfg req) s (.login u p)).dialog = false

/-! ## Theorems -/

theorem send_login (acc : Route → Str → Bool) (s : St) : (send acc s .login).status = .ok ↔ acc .login (header s.store) = true := by
  have := Admin.Auth.C83_login acc ⟨s.jar, header s.store, .login, true⟩ rfl
  exact this

theorem parse_header (b : Base64) (x : Str) (u : Str) (hx : x ≠ []) : parseBasic b (header ⟨b.enc x, u⟩) = cutOn ':' x := by
  unfold header
  rw [if_neg (b.nonempty x hx)]
  unfold parseBasic
  have h1 : basicPre.isPrefixOf (basicPre ++ b.enc x) = true := by simp
  rw [if_pos h1]
  have h2 : (basicPre ++ b.enc x).drop 6 = b.enc x := List.drop_left' rfl
  rw [h2, b.dec_enc]
  rfl

theorem parse_none (b : Base64) (u : Str) : parseBasic b (header ⟨[], u⟩) = none := rfl

/-- **C117** The store and the header are right: what `setAuth` was given is what the API server reads. -/
theorem C117_header (b : Base64) (u p : Str) (hu : GoodName u) (hne : u ≠ [] ∨ p ≠ []) :
    parseBasic b (header (setAuth b u p)) = some (u, p) := by
  unfold setAuth
  rw [if_neg (by rintro ⟨h1, h2⟩; rcases hne with h | h <;> contradiction), parse_header b _ _ (by simp)]
  exact cutOn_append hu

/-- An encoding for the examples: every character is written as its code, so many `A`s and a `B`. -/
def unary (n : Nat) : Str := List.replicate n 'A' ++ ['B']

def unaryDec : Nat → Str → Option Str
  | _, [] => some []
  | n, c :: cs => if c = 'A' then unaryDec (n + 1) cs else (unaryDec 0 cs).map (Char.ofNat n :: ·)

theorem unaryDec_unary (n k : Nat) (r : Str) : unaryDec k (unary n ++ r) = (unaryDec 0 r).map (Char.ofNat (k + n) :: ·) := by
  induction n generalizing k with
  | zero => simp [unary, unaryDec]
  | succ n ih =>
    have := ih (k + 1)
    simp only [unary, List.replicate_succ, List.cons_append, unaryDec, if_true] at this ⊢
    rw [this, show k + 1 + n = k + (n + 1) by omega]

def sampleB64 : Base64 where
  enc s := s.flatMap fun c => unary c.toNat
  dec := unaryDec 0
  dec_enc s := by
    induction s with
    | nil => rfl
    | cons c s ih => rw [List.flatMap_cons, unaryDec_unary, ih]; simp
  nonempty s h := by
    cases s with
    | nil => exact absurd rfl h
    | cons c s => simp [unary]
  noBlank s := by simp [unary]

example : GoodName ['a', 'd'] ∧ (['a', 'd'] : Str) ≠ [] := by unfold GoodName; decide

/-- **C117** What is typed as user name plays no part. -/
theorem C117_name_ignored (b : Base64) (acc : Route → Str → Bool) (s : St) (u u' p : Str) :
    step b acc s (.login u p) = step b acc s (.login u' p) := rfl

theorem accepts_iff (b : Base64) (cfg : Api.AuthCfg) (req : Route → Api.Req) (r : Route) (t u p : Str) (hl : Locked cfg u p) :
    accepts b cfg req r t = true ↔ parseBasic b t = some (u, p) := by
  obtain ⟨h1, h2, h3, h4, h5⟩ := hl
  unfold accepts
  rw [decide_eq_true_iff, Api.C43_api]
  unfold Api.CallbackAccepts Api.PasswordAccepts
  rw [h1, h2, h3, h4, h5]
  simp only [Bool.true_eq_false, List.not_mem_nil, false_and, exists_false, Bool.false_eq_true, false_or, true_and,
    Api.Stored.cred.injEq, Api.Cred.mk.injEq]
  constructor
  · rintro ⟨u', p', h, rfl, rfl⟩; exact h
  · intro h; exact ⟨u, p, h, rfl, rfl⟩

/-- **C117** When the dialog closes: exactly if the text `password:password`, cut at its first colon, is the credential of
the cluster. -/
theorem C117_login_iff (b : Base64) (cfg : Api.AuthCfg) (req : Route → Api.Req) (s : St) (u p n x : Str) (hl : Locked cfg u p)
    (hd : s.dialog = true) (hx : x ≠ []) :
    (step b (accepts b cfg req) s (.login n x)).dialog = false ↔ cutOn ':' (x ++ ':' :: x) = some (u, p) := by
  have key : (send (accepts b cfg req) { s with store := setAuth b x x } .login).status = .ok ↔ cutOn ':' (x ++ ':' :: x) = some (u, p) := by
    rw [send_login, accepts_iff b cfg req .login _ u p hl]
    show parseBasic b (header (setAuth b x x)) = _ ↔ _
    unfold setAuth
    rw [if_neg (by rintro ⟨h, _⟩; exact hx h), parse_header b _ _ (by simp)]
  show (if (send (accepts b cfg req) { s with store := setAuth b x x } .login).status = .ok then _ else _ : St).dialog = false ↔ _
  rw [← key]
  split
  · next h => exact ⟨fun _ => h, fun _ => rfl⟩
  · next h => exact ⟨fun g => absurd (hd.symm.trans g) (by decide), fun g => absurd g h⟩

/-- A cluster with user `ad` and password `pw`. -/
def sampleCfg (u p : Str) : Api.AuthCfg := ⟨true, [], false, fun _ => none, true, .cred ⟨u, p⟩⟩

example : Locked (sampleCfg ['a', 'd'] ['p', 'w']) ['a', 'd'] ['p', 'w'] := ⟨rfl, rfl, rfl, rfl, rfl⟩

/-- **C117** A cluster whose user name is its password can be signed in at, under whatever name.  Missing from the full
statement: every other cluster. -/
theorem C117_same_partial (b : Base64) (cfg : Api.AuthCfg) (req : Route → Api.Req) (s : St) (p n : Str) (hl : Locked cfg p p)
    (hp : GoodName p) (hne : p ≠ []) : (step b (accepts b cfg req) s (.login n p)).dialog = false := by
  have key : (send (accepts b cfg req) { s with store := setAuth b p p } .login).status = .ok := by
    rw [send_login, accepts_iff b cfg req .login _ p p hl]
    exact C117_header b p p hp (.inl hne)
  show (if (send (accepts b cfg req) { s with store := setAuth b p p } .login).status = .ok then _ else _ : St).dialog = false
  rw [if_pos key]

example : Locked (sampleCfg ['a'] ['a']) ['a'] ['a'] ∧ GoodName ['a'] ∧ (['a'] : Str) ≠ [] :=
  ⟨⟨rfl, rfl, rfl, rfl, rfl⟩, by unfold GoodName; decide, by decide⟩

/-- **C117** Refuted: if the user name is not the password (and the password has no colon), nothing that can be typed opens
the console. -/
theorem C117_locked_out (b : Base64) (cfg : Api.AuthCfg) (req : Route → Api.Req) (s : St) (u p n x : Str) (hl : Locked cfg u p)
    (hd : s.dialog = true) (hne : u ≠ p) (hp : ':' ∉ p) :
    (step b (accepts b cfg req) s (.login n x)).dialog = true ∧
    (step b (accepts b cfg req) s (.login n x)).store = ⟨[], []⟩ := by
  have key : ¬ (send (accepts b cfg req) { s with store := setAuth b x x } .login).status = .ok := by
    rw [send_login, accepts_iff b cfg req .login _ u p hl]
    show ¬ parseBasic b (header (setAuth b x x)) = _
    unfold setAuth
    by_cases hx : x = []
    · rw [if_pos ⟨hx, hx⟩, parse_none]; simp
    · rw [if_neg (by rintro ⟨h, _⟩; exact hx h), parse_header b _ _ (by simp)]
      intro hc
      by_cases hcol : ':' ∈ x
      · obtain ⟨h1, h2⟩ := cutOn_some hc
        apply hp
        -- the last colon is in what follows the first
        have hm : u ++ ':' :: p = x ++ ':' :: x := h1.symm
        have hlen : u.length < x.length := by
          apply Nat.lt_of_not_le
          intro hle
          have hu : x <+: u := by
            have : x <+: u ++ ':' :: p := by rw [hm]; exact List.prefix_append _ _
            exact List.prefix_of_prefix_length_le this (List.prefix_append _ _) hle
          exact h2 (hu.subset hcol)
        have hd2 := congrArg (List.drop (u.length + 1)) hm
        have e1 : (u ++ ':' :: p).drop (u.length + 1) = p := by
          rw [List.append_cons, List.drop_left' (by simp)]
        rw [e1, List.drop_append, show u.length + 1 - x.length = 0 by omega] at hd2
        rw [hd2]
        simp
      · rw [cutOn_append hcol] at hc
        cases hc
        exact hne rfl
  have e : step b (accepts b cfg req) s (.login n x) = { s with store := ⟨[], []⟩, jar := (send (accepts b cfg req) { s with store := setAuth b x x } .login).cookie } := by
    show (if (send (accepts b cfg req) { s with store := setAuth b x x } .login).status = .ok then _ else _ : St) = _
    rw [if_neg key]
    rfl
  rw [e]
  exact ⟨hd, rfl⟩

/-- A request of the examples. -/
def sampleReq : Route → Api.Req := fun _ => Api.exAuthReq

/-- Not vacuous. -/
example : Locked (sampleCfg ['a', 'd'] ['p', 'w']) ['a', 'd'] ['p', 'w'] ∧ (['a', 'd'] : Str) ≠ ['p', 'w'] ∧ ':' ∉ (['p', 'w'] : Str) :=
  ⟨⟨rfl, rfl, rfl, rfl, rfl⟩, by decide, by decide⟩

theorem C117_statement_fails : ¬ C117_statement := by
  intro h
  have h1 := h sampleB64 (sampleCfg ['a', 'd'] ['p', 'w']) sampleReq ⟨⟨[], []⟩, true, none⟩ ['a', 'd'] ['p', 'w']
    ⟨rfl, rfl, rfl, rfl, rfl⟩ (by unfold GoodName; decide) (by decide) (by decide)
  have h2 := (C117_locked_out sampleB64 (sampleCfg ['a', 'd'] ['p', 'w']) sampleReq ⟨⟨[], []⟩, true, none⟩ ['a', 'd'] ['p', 'w']
    ['a', 'd'] ['p', 'w'] ⟨rfl, rfl, rfl, rfl, rfl⟩ rfl (by decide) (by decide)).1
  rw [h1] at h2
  exact absurd h2 (by decide)

/-- **C117** Refuted: whoever is signed in sees the password in the place of the user name; it is kept in the browser's
storage as such (store/index.ts:63). -/
theorem C117_password_shown (b : Base64) (acc : Route → Str → Bool) (s : St) (u p : Str) (hd : s.dialog = true)
    (h : (step b acc s (.login u p)).dialog = false) : (step b acc s (.login u p)).store.user = p := by
  have e : step b acc s (.login u p) = if (send acc { s with store := setAuth b p p } .login).status = .ok
      then { s with store := setAuth b p p, dialog := false, jar := (send acc { s with store := setAuth b p p } .login).cookie }
      else { s with store := ⟨[], []⟩, jar := (send acc { s with store := setAuth b p p } .login).cookie } := rfl
  rw [e] at h ⊢
  split at h
  · next hok =>
    rw [if_pos hok]
    show (setAuth b p p).user = p
    unfold setAuth
    split <;> rfl
  · exact absurd (hd.symm.trans h) (by decide)

/-- Not vacuous: everyone is let in. -/
example : (step sampleB64 (fun _ _ => true) ⟨⟨[], []⟩, true, none⟩ (.login ['u'] ['p'])).dialog = false := by decide

/-- The dialog is open, or the store holds credentials that were accepted when they were typed. -/
def Kept (b : Base64) (acc : Route → Str → Bool) (s : St) : Prop :=
  s.store.basicAuth = [] ∨ ∃ x, s.store.basicAuth = b.enc (x ++ ':' :: x) ∧ acc .login (header s.store) = true

/-- **C117** The store never holds credentials that were refused, in any run; after signing out it holds none, the dialog is
open, and it stays open over a reload. -/
theorem C117_kept (b : Base64) (acc : Route → Str → Bool) (es : List Ev) : ∀ s : St, Kept b acc s → Kept b acc (run b acc s es) := by
  induction es with
  | nil => exact fun s h => h
  | cons e es ih =>
    intro s h
    refine ih _ ?_
    cases e with
    | login u p =>
      have e : step b acc s (.login u p) = if (send acc { s with store := setAuth b p p } .login).status = .ok
          then { s with store := setAuth b p p, dialog := false, jar := (send acc { s with store := setAuth b p p } .login).cookie }
          else { s with store := ⟨[], []⟩, jar := (send acc { s with store := setAuth b p p } .login).cookie } := rfl
      rw [e]
      split
      · next hok =>
        rw [send_login] at hok
        unfold Kept
        by_cases hp : p = []
        · left; show (setAuth b p p).basicAuth = []; unfold setAuth; rw [if_pos ⟨hp, hp⟩]
        · right
          refine ⟨p, ?_, hok⟩
          show (setAuth b p p).basicAuth = _
          unfold setAuth
          rw [if_neg (by rintro ⟨g, _⟩; exact hp g)]
      · exact .inl rfl
    | logout => exact .inl rfl
    | reload => exact h
    | request r => exact h

example (b : Base64) (acc : Route → Str → Bool) : Kept b acc ⟨⟨[], "Anonymous".toList⟩, true, none⟩ := .inl rfl

/-- **C117** After signing out no credential is sent, and the dialog is open, also after a reload. -/
theorem C117_signed_out (b : Base64) (acc : Route → Str → Bool) (s : St) :
    (run b acc s [.logout, .reload]).dialog = true ∧ parseBasic b (header (run b acc s [.logout, .reload]).store) = none :=
  ⟨rfl, rfl⟩

/-- **C117** Signing out opens the dialog at once. -/
theorem C117_logout_dialog (b : Base64) (acc : Route → Str → Bool) (s : St) : (step b acc s .logout).dialog = true := rfl

/-- **C117** Refuted: signing out puts the word `Basic` into the cookie, where the administration server finds a token. -/
theorem C117_logout_cookie (b : Base64) (acc : Route → Str → Bool) (s : St) :
    (step b acc s .logout).jar = some ['B', 'a', 's', 'i', 'c'] :=
  Admin.Auth.C83_logout_keeps acc ⟨s.jar, ['B', 'a', 's', 'i', 'c'], .logout, true⟩ rfl rfl

/-- **C117** After a reload the dialog is open exactly if no credential is kept: who is signed in stays so. -/
theorem C117_reload (b : Base64) (acc : Route → Str → Bool) (s : St) :
    (step b acc s .reload).dialog = true ↔ s.store.basicAuth = [] := by
  show decide (s.store.basicAuth = []) = true ↔ _
  exact decide_eq_true_iff

/-- **C117** Who signed in successfully is not asked again when the page is loaded again. -/
theorem C117_login_reload (b : Base64) (acc : Route → Str → Bool) (s : St) (u p : Str) (hp : p ≠ [])
    (h : (send acc { s with store := setAuth b p p } .login).status = .ok) :
    (run b acc s [.login u p, .reload]).dialog = false := by
  have e : step b acc s (.login u p) = { s with store := setAuth b p p, dialog := false, jar := (send acc { s with store := setAuth b p p } .login).cookie } := if_pos h
  show (step b acc (step b acc s (.login u p)) .reload).dialog = false
  rw [e]
  show decide ((setAuth b p p).basicAuth = []) = false
  unfold setAuth
  rw [if_neg (by rintro ⟨g, _⟩; exact hp g)]
  exact decide_eq_false (b.nonempty _ (by simp))

/-- **C117** Refuted: who has signed out still sends the word `Basic` as token, and the administration server carries out
every operation that it does not leave to the API server. -/
theorem C117_signed_out_served (b : Base64) (acc : Route → Str → Bool) (s : St) (r : Route) (hr : r.forwards = false) :
    (send acc (step b acc s .logout) r).performed = true := by
  have hh : header (step b acc s .logout).store = ['B', 'a', 's', 'i', 'c'] := rfl
  have hu : r ∉ Admin.Auth.specUser := fun h => by rw [(Admin.Auth.forwards_iff r).2 h] at hr; cases hr
  have := Admin.Auth.C83_any_token acc ⟨(step b acc s .logout).jar, ['B', 'a', 's', 'i', 'c'], r, true⟩ hu (by simp)
  unfold send
  rw [hh]
  exact this

example : Route.migration.forwards = false ∧ Route.join.forwards = false := ⟨rfl, rfl⟩

end Verif.Ui.Session
