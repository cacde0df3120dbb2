import Verif.Admin.Auth

/-!
# Properties of the credentials of the administration server (C83)
-/

namespace Verif.Admin.Auth

/-! ## Specification -/

/-- Operations that change the cluster or show its contents. -/
def Sensitive (r : Route) : Prop := r ≠ .login ∧ r ≠ .logout

/-- The operations on metadata and objects, by their paths. -/
def specGuarded : List Route :=
  [.page, .versions, .migration, .slotsDetail, .peers, .buckets, .createBucket, .updateBucket, .deleteBucket,
    .leaveCluster, .joinLeader, .metaConfig, .download, .upload, .join, .leave, .objectConfig]

/-- The operations on behalf of a user: their objects, versions and buckets, and what an API server tells about itself. -/
def specUser : List Route :=
  [.login, .versions, .createBucket, .updateBucket, .deleteBucket, .download, .upload, .serverConfig true]

/-- A token is good if the API server accepts it at login. -/
def Good (accepts : Route → Str → Bool) (t : Str) : Prop := accepts .login t = true

/-- Full statement, first part: whoever makes the administration server do something has shown a good token, in this
request or with the session of its cookie. -/
def C83_guarded : Prop :=
  ∀ (accepts : Route → Str → Bool) (q : Req), (∀ r t, accepts r t = true → Good accepts t) → Sensitive q.route →
    (serve accepts q).performed = true → Good accepts q.header ∨ ∃ t, q.cookie = some t ∧ Good accepts t

/-- Second part: a session lasts from login to logout.  After a login that succeeded, requests without the header are
served. -/
def C83_session : Prop :=
  ∀ (accepts : Route → Str → Bool) (jar : Session) (t : Str) (r : Route), (∀ r, accepts r t = true) → r ∈ specGuarded →
    ∀ resp ∈ browse accepts jar [(t, .login, true), ([], r, true)], resp.status = .ok

/-- Third part: after logout the cookie holds no token. -/
def C83_logout : Prop :=
  ∀ (accepts : Route → Str → Bool) (q : Req), q.route = .logout → q.saveOk = true →
    (serve accepts q).cookie = none ∨ (serve accepts q).cookie = some []

/-! ## Theorems -/

theorem requires_iff (r : Route) : r.requires = true ↔ r ∈ specGuarded := by
  cases r <;> simp [Route.requires, specGuarded]

theorem forwards_iff (r : Route) : r.forwards = true ↔ r ∈ specUser := by
  cases r <;> (try rename_i b; cases b) <;> simp [Route.forwards, specUser]

theorem saveToken_session (s : Session) (h : Str) (ok : Bool) : (saveToken s h ok).1 = some h := by
  unfold saveToken
  split
  · assumption
  · rfl

/-- **C83** Whatever the cookie says, the token in use is the one in the header of the same request: nobody acts with
the token of another request. -/
theorem C83_own_token (s : Session) (h : Str) (ok : Bool) : getAuthToken (saveToken s h ok).1 h = h := by
  rw [saveToken_session]; rfl

/-- **C83** What is left to the API server is done only if that accepts the token in the header of the request.
Missing from the full statement: the operations that are not left to it (`C83_guarded_fails`). -/
theorem C83_forwarded_partial (accepts : Route → Str → Bool) (q : Req) (hu : q.route ∈ specUser)
    (hp : (serve accepts q).performed = true) : accepts q.route q.header = true := by
  have hf := (forwards_iff _).2 hu
  unfold serve at hp
  dsimp only at hp
  split at hp
  · cases hp
  · unfold handler at hp
    rw [if_pos hf, C83_own_token] at hp
    split at hp
    · assumption
    · cases hp

/-- **C83** … and it is done if that accepts the token. -/
theorem C83_forwarded_served (accepts : Route → Str → Bool) (q : Req) (hu : q.route ∈ specUser)
    (ha : accepts q.route q.header = true) (hh : q.header ≠ []) :
    (serve accepts q).performed = true ∧ (serve accepts q).status = .ok := by
  have hf := (forwards_iff _).2 hu
  unfold serve handler
  simp only [requireToken, C83_own_token, hf, ha, if_true]
  rw [if_neg (by simp [hh])]
  trivial

/-- **C83** Without a token in the header nothing of the guarded groups is done, whatever the cookie holds. -/
theorem C83_header_needed (accepts : Route → Str → Bool) (q : Req) (hg : q.route ∈ specGuarded)
    (hh : q.header = []) : (serve accepts q).performed = false ∧ (serve accepts q).status = .forbidden := by
  have hr := (requires_iff _).2 hg
  unfold serve
  simp only [requireToken, C83_own_token, hr, hh, Bool.true_and, bne_self_eq_false, Bool.not_false, if_true]
  trivial

/-- **C83** Login succeeds exactly if the API server accepts the token of the header. -/
theorem C83_login (accepts : Route → Str → Bool) (q : Req) (hr : q.route = .login) :
    (serve accepts q).status = .ok ↔ accepts .login q.header = true := by
  unfold serve handler
  simp only [hr, Route.requires, Bool.false_and, Bool.false_eq_true, if_false, Route.forwards, if_true, C83_own_token]
  cases accepts .login q.header <;> simp

/-- **C83, refuted: any token will do** Every guarded operation that is not left to the API server is carried out for
every header that is not empty, even if no token is good. -/
theorem C83_any_token (accepts : Route → Str → Bool) (q : Req) (hu : q.route ∉ specUser) (hh : q.header ≠ []) :
    (serve accepts q).performed = true := by
  have hf : q.route.forwards = false := by
    rw [← Bool.not_eq_true, forwards_iff]; exact hu
  unfold serve handler
  simp only [requireToken, C83_own_token, hf]
  rw [if_neg (by simp [hh])]
  rfl

/-- **C83, refuted: no token at all** The pages about the servers, and the configuration of metadata and data servers,
are open. -/
theorem C83_open (accepts : Route → Str → Bool) (q : Req) (hg : q.route ∉ specGuarded)
    (hu : q.route ∉ specUser) : (serve accepts q).performed = true := by
  have hr : q.route.requires = false := by
    rw [← Bool.not_eq_true, requires_iff]; exact hg
  have hf : q.route.forwards = false := by
    rw [← Bool.not_eq_true, forwards_iff]; exact hu
  unfold serve handler
  simp only [hr, hf, Bool.false_and, Bool.false_eq_true, if_false]

/-- **C83, refuted** A slot migration is started with a token nobody accepts. -/
theorem C83_guarded_fails : ¬ C83_guarded := by
  intro h
  have := h (fun _ _ => false) ⟨none, ['x'], .migration, true⟩ (fun _ _ h => by cases h) ⟨by decide, by decide⟩ (by decide)
  rcases this with h | ⟨t, h, _⟩
  · cases h
  · cases h

/-- **C83, refuted for sessions** Right after a login the next request without the header is refused, for every guarded
route: it has overwritten the session. -/
theorem C83_session_useless (accepts : Route → Str → Bool) (jar : Session) (t : Str) (r : Route)
    (hr : r ∈ specGuarded) :
    ((browse accepts jar [(t, .login, true), ([], r, true)]).map (·.status))[1]? = some .forbidden := by
  have := (C83_header_needed accepts
    ⟨(serve accepts ⟨jar, t, .login, true⟩).cookie, [], r, true⟩ hr rfl).2
  simp only [browse, List.map_cons, List.map_nil, this]
  rfl

theorem C83_session_fails : ¬ C83_session := by
  intro h
  have := h (fun _ _ => true) none ['x'] .page (fun _ => rfl) (by decide) _
    (List.mem_cons_of_mem _ List.mem_cons_self)
  exact absurd this (by decide)

/-- The cookie always holds the header of the last request that could write it. -/
theorem serve_cookie (accepts : Route → Str → Bool) (q : Req) (ok : q.saveOk = true) :
    (serve accepts q).cookie = some q.header := by
  have hs : (saveToken q.cookie q.header q.saveOk).2 = some q.header := by
    unfold saveToken
    split
    · assumption
    · rfl
  unfold serve
  dsimp only
  split <;> exact hs

/-- **C83, refuted for logout** Logout leaves the token in the cookie. -/
theorem C83_logout_keeps (accepts : Route → Str → Bool) (q : Req) (_hr : q.route = .logout) (ok : q.saveOk = true) :
    (serve accepts q).cookie = some q.header := serve_cookie accepts q ok

theorem C83_logout_fails : ¬ C83_logout := by
  intro h
  rcases h (fun _ _ => true) ⟨some ['x'], ['x'], .logout, true⟩ rfl rfl with h | h <;> exact absurd h (by decide)

/-- **C83** Over a whole history: each guarded request of a browser is answered by its own header alone; earlier
requests make no difference. -/
theorem C83_history (accepts : Route → Str → Bool) (qs : List (Str × Route × Bool)) (jar : Session) :
    (browse accepts jar qs).map (fun a => (a.status, a.performed)) =
      qs.map fun q => ((serve accepts ⟨none, q.1, q.2.1, true⟩).status, (serve accepts ⟨none, q.1, q.2.1, true⟩).performed) := by
  induction qs generalizing jar with
  | nil => rfl
  | cons q qs ih =>
    obtain ⟨h, r, ok⟩ := q
    simp only [browse, List.map_cons, ih, List.cons.injEq, and_true]
    simp only [serve, handler, requireToken, saveToken_session]
    split <;> rfl

/-! ## Cases -/

/-- The API server accepts one token. -/
def exAccepts : Route → Str → Bool := fun _ t => t == "good".toList

example : ((serve exAccepts ⟨none, "good".toList, .createBucket, true⟩).status,
    (serve exAccepts ⟨some "good".toList, "bad".toList, .createBucket, true⟩).status,
    (serve exAccepts ⟨some "good".toList, [], .createBucket, true⟩).status,
    (serve exAccepts ⟨none, "bad".toList, .migration, true⟩).status,
    (serve exAccepts ⟨none, [], .serverConfig false, true⟩).status,
    (serve exAccepts ⟨none, [], .serverConfig true, true⟩).status) =
    (.ok, .refused, .forbidden, .ok, .ok, .refused) := by decide

/-- The hypotheses of `C83_forwarded_partial`, `C83_forwarded_served`, `C83_any_token` and `C83_open`. -/
example : Route.upload ∈ specUser ∧ (serve exAccepts ⟨none, "good".toList, .upload, false⟩).performed = true ∧
    Route.leaveCluster ∉ specUser ∧ Route.leaveCluster ∈ specGuarded ∧
    Route.overview ∉ specGuarded ∧ Route.overview ∉ specUser := by decide

/-- A history: login, a page, a page without the header, logout. -/
example : (browse exAccepts none [("good".toList, .login, true), ("bad".toList, .page, true), ([], .page, true),
    ("good".toList, .logout, true)]).map (fun a => (a.status, a.cookie)) =
    [(.ok, some "good".toList), (.ok, some "bad".toList), (.forbidden, some []), (.ok, some "good".toList)] := by decide

end Verif.Admin.Auth
