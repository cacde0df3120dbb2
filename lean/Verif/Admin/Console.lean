import Verif.Api.BucketHttp

/-!
# The web console of the administration server

* adminserver/resource/embed.go:21-63, configjs.go:13-40: the files of the console, which are part of the program, and the file
  `config.js`, which is made from the configuration.
* adminserver/internal/controller/http_server.go:21-57: what is a file, what is a request of the API, what is sent to the start page.

Written out from libraries: `static.Serve` of gin-contrib, `http.FileServer` and `io.CopyN` as far as they are used.  Parameters:
the embedded files, the routes of the API (all below `/api`).  The session and the headers of CORS are in `Admin/Auth` or not modelled.
-/

namespace Verif.Console
open Verif Verif.Api.BucketHttp

/-- Bytes of a file. -/
abbrev Bytes := List Char

/-- What is embedded, by path with leading `/`; and the port of the configuration. -/
structure Site where
  file : Str → Option Bytes
  dir : Str → Bool
  port : Str

/-- `strings.HasSuffix` -/
def hasSuffix (s p : Str) : Bool := hasPrefix s.reverse p.reverse

/-- configjs.go:27-30: the content of `config.js`. -/
def configText (s : Site) : Bytes := "window.backendPort = ".toList ++ s.port

/-- An open file: its content, and for `config.js` the content of the embedded file below it. -/
inductive Opened
  | dir
  | plain (c : Bytes)
  | config (c : Bytes) (below : Bytes)
deriving DecidableEq

/-- embed.go:21-27 `Open`; none is an error. -/
def Site.open_ (s : Site) (p : Str) : Option Opened :=
  match s.file p with
  | some c => if hasSuffix p "config.js".toList then some (.config (configText s) c) else some (.plain c)
  | none => if s.dir p then some .dir else none

/-- embed.go:33-35 (and `http.FileServer`): the root stands for the start page. -/
def target (p : Str) : Str := if p = "/".toList then "/index.html".toList else p

/-- embed.go:29-52 `Exists` -/
def Site.exists_ (s : Site) (p : Str) : Bool :=
  if hasPrefix p "/api".toList then false
  else match s.open_ (target p) with
    | none => false
    | some .dir => false
    | some _ => true

/-- The answer to a request. -/
inductive Out
  /-- the content of a file -/
  | content (f : Opened)
  /-- moved to `./` -/
  | toDir
  /-- a route of the API handles it -/
  | api
  | notFound
  | redirect (loc : Str)
deriving DecidableEq

/-- Library `http.FileServer` for a path that exists: the name of the start page is moved to its directory, the root is the start
page. -/
def fileServer (s : Site) (p : Str) : Out :=
  if hasSuffix p "/index.html".toList then .toDir
  else match s.open_ (target p) with
    | some f => .content f
    | none => .notFound

/-- http_server.go:44-54: no route. -/
def noRoute (p query : Str) : Out :=
  if hasPrefix p "/api".toList then .notFound
  else if p = "/favicon.ico".toList then .notFound
  else .redirect ("/?redirect=".toList ++ p ++ '&' :: query)

/-- http_server.go:21-57: files first, then the routes, then the rest. -/
def handle (s : Site) (route : Str → Bool) (p query : Str) : Out :=
  if s.exists_ p then fileServer s p
  else if route p then .api
  else noRoute p query

/-- Library `io.CopyN` through a buffer of `buf` bytes from configjs.go:37-40 `Read`, which always copies from the beginning; `n` bytes
are wanted, the first number bounds the calls. -/
def copyN (buf : Nat) (c : Bytes) : Nat → Nat → Bytes
  | 0, _ => []
  | _ + 1, 0 => []
  | f + 1, n + 1 =>
    let got := c.take (min buf (n + 1))
    if got = [] then [] else got ++ copyN buf c f (n + 1 - got.length)

/-- Library `http.ServeContent`: `n` bytes from `start`; none is status 416.  For `config.js` the position is set in the embedded file
(configjs.go:22-25 embeds it), but `Read` does not use it. -/
def serveRange (buf : Nat) (f : Opened) (start n : Nat) : Option Bytes :=
  match f with
  | .dir => none
  | .plain c => some ((c.drop start).take n)
  | .config c below => if start > below.length then none else some (copyN buf c n n)

/-! ## Specification -/

/-- What a client makes of the query of a location: up to `#`, separated by `&`, name and value separated by `=`. -/
def params (q : Str) : List (Str × Str) := (splitOn '&' (cut '#' q).1).map (cut '=')

/-- The page a client was sent to the start page for. -/
def wantedPage (loc : Str) : Option Str :=
  match cutOn '?' loc with
  | none => none
  | some (_, q) => ((params q).find? fun e => e.1 = "redirect".toList).bind fun e => unescape true e.2

/-- The path of a location. -/
def locPath (loc : Str) : Str := (cut '?' loc).1

/-! ## C108 -/

theorem hasPrefix_append (a b : Str) : hasPrefix (a ++ b) a = true := by rw [hasPrefix_iff]; exact ⟨b, rfl⟩

/-- **C108** No file, whatever it is called, hides the API: a request below `/api` is handled by its route, or is not found. -/
theorem C108_api (s : Site) (route : Str → Bool) (t query : Str) :
    handle s route ("/api".toList ++ t) query = if route ("/api".toList ++ t) then .api else .notFound := by
  unfold handle Site.exists_ noRoute
  rw [if_pos (hasPrefix_append _ _), if_pos (hasPrefix_append _ _)]
  rfl

example : handle ⟨fun p => if p = "/api/login".toList then some "x".toList else none, fun _ => false, "80".toList⟩
    (fun p => p = "/api/login".toList) "/api/login".toList [] = .api := by decide

theorem handle_opened (s : Site) (route : Str → Bool) (p query : Str) (f : Opened) (ha : hasPrefix p "/api".toList = false)
    (hi : hasSuffix p "/index.html".toList = false) (h : s.open_ (target p) = some f) (hf : f ≠ .dir) :
    handle s route p query = .content f := by
  have he : s.exists_ p = true := by
    unfold Site.exists_
    rw [ha, h]
    cases f with
    | dir => exact absurd rfl hf
    | plain c => rfl
    | config c b => rfl
  unfold handle fileServer
  rw [he, hi, h]
  rfl

theorem open_file (s : Site) (p : Str) (c : Bytes) (h : s.file p = some c) :
    s.open_ p = some (if hasSuffix p "config.js".toList then .config (configText s) c else .plain c) := by
  unfold Site.open_
  rw [h]
  cases hasSuffix p "config.js".toList <;> rfl

/-- **C108** Every embedded file is answered with its content, to everybody, and the root with the start page. -/
theorem C108_file (s : Site) (route : Str → Bool) (p query : Str) (c : Bytes) (ha : hasPrefix p "/api".toList = false)
    (hi : hasSuffix p "/index.html".toList = false) (hc : hasSuffix p "config.js".toList = false) (hr : p ≠ "/".toList)
    (h : s.file p = some c) : handle s route p query = .content (.plain c) := by
  have ht : target p = p := if_neg hr
  refine handle_opened s route p query _ ha hi ?_ (by intro e; cases e)
  rw [ht, open_file s p c h, hc]
  rfl

theorem C108_start (s : Site) (route : Str → Bool) (query : Str) (c : Bytes) (h : s.file "/index.html".toList = some c) :
    handle s route "/".toList query = .content (.plain c) := by
  have ht : target "/".toList = "/index.html".toList := if_pos rfl
  refine handle_opened s route _ query _ (by decide) (by decide) ?_ (by intro e; cases e)
  rw [ht, open_file s _ c h, show hasSuffix "/index.html".toList "config.js".toList = false by decide]
  rfl

/-- **C108** FINDING.  Not only `/config.js`: every embedded file whose name ends so is replaced by the port. -/
theorem C108_replaced (s : Site) (route : Str → Bool) (p query : Str) (c : Bytes) (ha : hasPrefix p "/api".toList = false)
    (hi : hasSuffix p "/index.html".toList = false) (hc : hasSuffix p "config.js".toList = true) (hr : p ≠ "/".toList)
    (h : s.file p = some c) : handle s route p query = .content (.config (configText s) c) := by
  have ht : target p = p := if_neg hr
  refine handle_opened s route p query _ ha hi ?_ (by intro e; cases e)
  rw [ht, open_file s p c h, hc]
  rfl

example : hasSuffix "/assets/myconfig.js".toList "config.js".toList = true ∧ hasPrefix "/assets/myconfig.js".toList "/api".toList = false ∧
    hasSuffix "/assets/myconfig.js".toList "/index.html".toList = false := by decide

/-- The site for the examples. -/
def site : Site where
  file := fun p =>
    if p = "/index.html".toList then some "<html>".toList
    else if p = "/assets/a.js".toList then some "1".toList
    else if p = "/config.js".toList then some "//".toList
    else none
  dir := fun p => p = "/assets".toList
  port := "80".toList

example : handle site (fun _ => false) "/assets/a.js".toList [] = .content (.plain "1".toList) ∧
    handle site (fun _ => false) "/".toList [] = .content (.plain "<html>".toList) ∧
    handle site (fun _ => false) "/index.html".toList [] = .toDir ∧
    handle site (fun _ => false) "/assets".toList [] = .redirect "/?redirect=/assets&".toList ∧
    handle site (fun _ => false) "/config.js".toList [] = .content (.config "window.backendPort = 80".toList "//".toList) := by decide

/-- **C108** Nothing but embedded files and the content made from the port is ever given out, and only under their names. -/
theorem C108_only (s : Site) (route : Str → Bool) (p query : Str) (f : Opened) (h : handle s route p query = .content f) :
    hasPrefix p "/api".toList = false ∧ ∃ c, s.file (target p) = some c ∧
      (f = .plain c ∨ f = .config (configText s) c) := by
  unfold handle at h
  cases he : s.exists_ p with
  | false =>
    rw [he] at h
    exfalso
    cases hr : route p with
    | true => rw [hr] at h; cases h
    | false =>
      rw [hr] at h
      simp only [Bool.false_eq_true, if_false] at h
      unfold noRoute at h
      split at h
      · cases h
      · split at h <;> cases h
  | true =>
    rw [he] at h
    unfold Site.exists_ at he
    cases ha : hasPrefix p "/api".toList with
    | true => rw [ha] at he; cases he
    | false =>
      refine ⟨rfl, ?_⟩
      rw [ha] at he
      simp only [Bool.false_eq_true, if_false] at he
      simp only [if_true] at h
      unfold fileServer at h
      generalize target p = t at h he ⊢
      cases hi : hasSuffix p "/index.html".toList with
      | true => rw [hi] at h; cases h
      | false =>
        rw [hi] at h
        simp only [Bool.false_eq_true, if_false] at h
        cases hf : s.file t with
        | none =>
          exfalso
          unfold Site.open_ at he
          rw [hf] at he
          cases hd : s.dir t with
          | true => simp [hd] at he
          | false => simp [hd] at he
        | some c =>
          rw [open_file s t c hf] at h
          refine ⟨c, rfl, ?_⟩
          simp only [Out.content.injEq] at h
          cases hc : hasSuffix t "config.js".toList with
          | true => rw [hc] at h; exact .inr h.symm
          | false => rw [hc] at h; exact .inl h.symm

/-! ### Pages of the console -/

theorem params_append (a b : Str) (h1 : '&' ∉ a) (h2 : '#' ∉ a) : params (a ++ '&' :: b) = cut '=' a :: params b := by
  unfold params
  have e : (cut '#' (a ++ '&' :: b)).1 = a ++ '&' :: (cut '#' b).1 := by
    unfold cut
    cases hb : cutOn '#' b with
    | none =>
      have := cutOn_none.1 hb
      have : cutOn '#' (a ++ '&' :: b) = none := cutOn_none.2 (by simp [h2, this])
      rw [this]; rfl
    | some q =>
      obtain ⟨x, y⟩ := q
      obtain ⟨hx, hn⟩ := cutOn_some hb
      have : cutOn '#' (a ++ '&' :: b) = some (a ++ '&' :: x, y) := by
        rw [hx]
        have := cutOn_append (sep := '#') (a := a ++ '&' :: x) (b := y) (by simp [h2, hn])
        simpa using this
      rw [this]; rfl
  rw [e, splitOn_append h1, List.map_cons]

theorem unescape_plain (s : Str) (h1 : '%' ∉ s) (h2 : '+' ∉ s) : unescape true s = some s := by
  unfold unescape
  induction s with
  | nil => rfl
  | cons c s ih =>
    simp only [List.mem_cons, not_or] at h1 h2
    unfold unescapeAt
    rw [if_neg (fun e => h1.1 e.symm), ih h1.2 h2.2]
    simp [show c ≠ '+' from fun e => h2.1 e.symm]

/-- **C108** A page that is not a file is answered by one redirection to the start page.  The client finds there the page it wanted
and all the parameters it gave, if the path has none of the
characters `&`, `#`, `%` and `+`. -/
theorem C108_page_partial (s : Site) (route : Str → Bool) (p query : Str) (he : s.exists_ p = false) (hr : route p = false)
    (ha : hasPrefix p "/api".toList = false) (hf : p ≠ "/favicon.ico".toList)
    (hc : '&' ∉ p ∧ '#' ∉ p ∧ '%' ∉ p ∧ '+' ∉ p) :
    ∃ loc, handle s route p query = .redirect loc ∧ locPath loc = "/".toList ∧ wantedPage loc = some p ∧
      ∃ q, loc = "/?".toList ++ q ∧ params q = ("redirect".toList, p) :: params query := by
  have hcut : cut '=' ("redirect=".toList ++ p) = ("redirect".toList, p) := by
    unfold cut
    have := cutOn_append (sep := '=') (a := "redirect".toList) (b := p) (by decide)
    have e : "redirect=".toList ++ p = "redirect".toList ++ '=' :: p := by rfl
    rw [e, this]; rfl
  have hp : params ("redirect=".toList ++ p ++ '&' :: query) = ("redirect".toList, p) :: params query := by
    rw [params_append _ _ (by simp [hc.1]) (by simp [hc.2.1]), hcut]
  have e : "/?redirect=".toList ++ p ++ '&' :: query = "/".toList ++ '?' :: ("redirect=".toList ++ p ++ '&' :: query) := by rfl
  refine ⟨"/?redirect=".toList ++ p ++ '&' :: query, ?_, ?_, ?_, "redirect=".toList ++ p ++ '&' :: query, rfl, hp⟩
  · unfold handle noRoute
    rw [he, hr, ha, if_neg hf]
    rfl
  · rw [e]
    unfold locPath cut
    rw [cutOn_append (by decide)]; rfl
  · rw [e]
    unfold wantedPage
    rw [cutOn_append (by decide)]
    simp only [hp]
    rw [List.find?_cons_of_pos (by simp)]
    exact unescape_plain p hc.2.2.1 hc.2.2.2

example : handle site (fun _ => false) "/objects/list".toList "a=1".toList = .redirect "/?redirect=/objects/list&a=1".toList ∧
    wantedPage "/?redirect=/objects/list&a=1".toList = some "/objects/list".toList := by decide

/-- **C108** The redirection ends at the start page: there is no second one, if the start page is embedded. -/
theorem C108_one_redirect (s : Site) (route : Str → Bool) (p query loc : Str) (c : Bytes) (h : s.file "/index.html".toList = some c)
    (hl : handle s route p query = .redirect loc) : ∀ q, handle s route (locPath loc) q = .content (.plain c) := by
  have : locPath loc = "/".toList := by
    unfold handle at hl
    split at hl
    · unfold fileServer at hl
      split at hl
      · cases hl
      · split at hl <;> cases hl
    · split at hl
      · cases hl
      · unfold noRoute at hl
        split at hl
        · cases hl
        · split at hl
          · cases hl
          · simp only [Out.redirect.injEq] at hl
            rw [← hl]
            have e : "/?redirect=".toList ++ p ++ '&' :: query = "/".toList ++ '?' :: ("redirect=".toList ++ p ++ '&' :: query) := by rfl
            rw [e]
            unfold locPath cut
            rw [cutOn_append (by decide)]; rfl
  intro q
  rw [this]
  exact C108_start s route q c h

/-- **C108** FINDING.  If the program was built without the console, a browser is sent in circles: the root is redirected to itself,
each time with a longer query. -/
theorem C108_circle (s : Site) (route : Str → Bool) (query : Str) (h : s.file "/index.html".toList = none)
    (hd : s.dir "/index.html".toList = false) (hr : route "/".toList = false) :
    handle s route "/".toList query = .redirect ("/?redirect=/&".toList ++ query) := by
  have ht : target "/".toList = "/index.html".toList := if_pos rfl
  have ho : s.open_ "/index.html".toList = none := by
    unfold Site.open_
    rw [h, hd]; rfl
  have he : s.exists_ "/".toList = false := by
    unfold Site.exists_
    rw [ht, ho, show hasPrefix "/".toList "/api".toList = false by decide]; rfl
  unfold handle
  rw [he, hr]
  rfl

/-- The property for the pages: the client finds the page it wanted. -/
def C108_statement : Prop :=
  ∀ (s : Site) (route : Str → Bool) (p query loc : Str), handle s route p query = .redirect loc → wantedPage loc = some p

/-- **C108** FINDING.  The path is put into the query without being escaped, so a path with `&` or `%` comes back as another one. -/
theorem C108_unescaped :
    wantedPage "/?redirect=/b&w/x&".toList = some "/b".toList ∧
    handle site (fun _ => false) "/b&w/x".toList [] = .redirect "/?redirect=/b&w/x&".toList ∧
    handle site (fun _ => false) "/a%41".toList [] = .redirect "/?redirect=/a%41&".toList ∧
    wantedPage "/?redirect=/a%41&".toList = some "/aA".toList := by decide

theorem C108_statement_fails : ¬ C108_statement := by
  intro h
  have := h site (fun _ => false) "/b&w/x".toList [] _ C108_unescaped.2.1
  rw [C108_unescaped.1] at this
  revert this
  decide

/-- **C108** FINDING.  Whatever begins with `/api` is taken for the API, also a file of the console: it is never answered. -/
theorem C108_shadowed (s : Site) (route : Str → Bool) (query : Str) (h : route "/apidocs.html".toList = false) :
    handle s route "/apidocs.html".toList query = .notFound := by
  have := C108_api s route "docs.html".toList query
  have e : "/api".toList ++ "docs.html".toList = "/apidocs.html".toList := by rfl
  rw [e] at this
  rw [this, h]; rfl

/-! ### `config.js` -/

theorem copyN_one (buf : Nat) (c : Bytes) (n : Nat) (hn : n ≤ c.length) (hb : n ≤ buf) : ∀ f, n ≤ f → copyN buf c f n = c.take n := by
  intro f hf
  cases f with
  | zero =>
    have : n = 0 := by omega
    subst this; rfl
  | succ f =>
    cases n with
    | zero => rfl
    | succ n =>
      unfold copyN
      have e : min buf (n + 1) = n + 1 := by omega
      simp only [e]
      have hl : (c.take (n + 1)).length = n + 1 := by rw [List.length_take]; omega
      have hne : c.take (n + 1) ≠ [] := by intro h; rw [h] at hl; cases hl
      rw [if_neg hne, hl]
      have : copyN buf c f (n + 1 - (n + 1)) = [] := by
        rw [Nat.sub_self]; cases f <;> rfl
      rw [this, List.append_nil]

/-- **C108** `config.js` is given out with the port of the configuration, complete, if it fits into the buffer; and so is the first
part of it. -/
theorem C108_config (buf : Nat) (s : Site) (below : Bytes) (n : Nat) (hn : n ≤ (configText s).length) (hb : (configText s).length ≤ buf) :
    serveRange buf (.config (configText s) below) 0 n = some ((configText s).take n) := by
  unfold serveRange
  simp only [Nat.not_lt_zero, gt_iff_lt, if_false]
  rw [copyN_one _ _ _ hn (by omega) _ (Nat.le_refl n)]

example : serveRange 32768 (.config (configText site) "//".toList) 0 23 = some "window.backendPort = 80".toList := by decide

/-- **C108** A part of any other file is the part asked for: the `i`-th byte of the answer is byte `start + i` of the file, and the
answer ends where the part or the file does. -/
theorem C108_plain_range (buf : Nat) (c : Bytes) (start n : Nat) :
    ∃ a, serveRange buf (.plain c) start n = some a ∧ (∀ i < n, a[i]? = c[start + i]?) ∧ a.length = min n (c.length - start) := by
  refine ⟨_, rfl, ?_, ?_⟩
  · intro i hi
    rw [List.getElem?_take, if_pos hi, List.getElem?_drop]
  · simp

example : serveRange 32768 (.plain "abcdef".toList) 2 3 = some "cde".toList := by decide

/-- **C108** FINDING.  A later part of `config.js` is answered with its beginning. -/
theorem C108_config_range : serveRange 32768 (.config (configText site) "// place holder".toList) 7 4 = some "wind".toList ∧
    ((configText site).drop 7).take 4 = "back".toList ∧
    serveRange 32768 (.config (configText site) "//".toList) 7 4 = none := by decide

end Verif.Console
