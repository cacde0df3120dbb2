import Verif.Common.Str

/-!
# Downloads that fail on the way (C141)

Models how the bytes of an object and an error in the middle of them get to a client: the handlers `Get` of the data servers
(src/objectserver/internal/controller/http/objects/objects_rest.go:58-97 with `GetFile`, service/objects_service.go:149-151), `Get` of the API servers
(src/apiserver/internal/controller/http/objects_api.go:75-93) over `GetStream.request` and `Read` (src/apiserver/internal/usecase/service/get_stream.go:33-44,
68-75), and `Download` of the administration server (src/adminserver/internal/controller/http/object.go:45-66) over `GetObjects`
(src/adminserver/internal/usecase/webapi/api_server.go:57-72), with `FailErr` and `OkHeader` (src/common/response/response.go:26-32, 107-137).

Written out from the libraries: the writer of gin (the status and the headers are those at the first `Write`, or at the end if there is none; later
ones have no effect), its recovery (status 500 if nothing was sent, otherwise the answer just ends), `io.Copy` (pieces that are not empty are written,
the first error ends it), and net/http: an answer that ends with its handler is whole, and the other side sees an error if the connection ends before.

Simplified: the object is one stream, whichever servers it is made of (replicated objects are one file of one data server; decoding is C33, C34); writing to
the client does not fail (then nobody reads the answer); ranges are C36; what the stream did before its first byte is C38.
-/

namespace Verif.Cut

open Verif

abbrev Bytes := List UInt8

/-! ## Model: answers -/

/-- What a handler does with its `gin.Context`. -/
inductive Act
  | status (n : Nat)
  | header (k v : Str)
  | write (b : Bytes)

structure Writer where
  status : Nat := 200
  headers : List (Str × Str) := []
  /-- status and headers that were sent -/
  sent : Option (Nat × List (Str × Str)) := none
  body : Bytes := []

def Writer.act (w : Writer) : Act → Writer
  | .status n => { w with status := n }
  | .header k v => { w with headers := w.headers ++ [(k, v)] }
  | .write b => { w with sent := some (w.sent.getD (w.status, w.headers)), body := w.body ++ b }

def Writer.acts (w : Writer) (as : List Act) : Writer := as.foldl Writer.act w

/-- What the client gets.  `whole`: the answer did not end early. -/
structure Answer where
  status : Nat
  headers : List (Str × Str)
  body : Bytes
  whole : Bool
  deriving DecidableEq

def Writer.answer (w : Writer) (whole : Bool) : Answer :=
  ⟨(w.sent.getD (w.status, w.headers)).1, (w.sent.getD (w.status, w.headers)).2, w.body, whole⟩

/-- How a stream ends. -/
inductive End
  | eof | err | panic
  deriving DecidableEq

structure Stream where
  pieces : List Bytes
  «end» : End

/-- `io.Copy`: the writes. -/
def copies (pieces : List Bytes) : List Act := (pieces.filter (!·.isEmpty)).map .write

/-- `FailErr`, response.go:107-137, for an error that is answered with status `n`; `msg` is the JSON text. -/
def failErr (n : Nat) (msg : Bytes) : List Act := [.status n, .header "Content-Type".toList "application/json; charset=utf-8".toList, .write msg]

/-- `AbortWithStatus(500)` of the recovery. -/
def recovered : List Act := [.status 500]

/-! ## Model: handlers -/

/-- `Get` of a data server, objects_rest.go:83-97, once the file is open. -/
def dataGet (msg : Bytes) (f : Stream) : Answer :=
  ((({} : Writer).acts (copies f.pieces)).acts
    (match f.end with | .eof => [.status 200] | .err => failErr 500 msg | .panic => recovered)).answer true

/-- The headers of objects_api.go:90-93. -/
def okHeaders (n : Nat) : List Act := [.header "Accept-Ranges".toList "bytes".toList, .header "Content-Length".toList (toString n).toList, .status 200]

/-- `Get` of an API server from line 85 on. -/
def apiGet (s : Stream) : Answer :=
  ((({} : Writer).acts (copies s.pieces)).acts
    (match s.end with | .eof => okHeaders s.pieces.flatten.length | .err => [] | .panic => recovered)).answer true

/-- `Download` of the administration server, object.go:55-65.  `none`: `GetObjects` gave an error, answered with status `n`. -/
def download (n : Nat) (msg : Bytes) : Option Stream → Answer
  | none => (({} : Writer).acts (failErr n msg)).answer true
  | some s => ((({} : Writer).acts (copies s.pieces)).acts
    (match s.end with | .eof => [.status 200] | .err => failErr 500 msg | .panic => recovered)).answer true

/-- What `GetStream.Read` delivers of the answer of a data server, in any pieces: the body, or a part of it and then an error because the connection
ended, or an error at once (get_stream.go:34-40: the server cannot be reached, or its status is not 200). -/
inductive Reads (a : Answer) : Stream → Prop
  | all {ps} (h : a.status = 200) (hw : a.whole = true) (hb : ps.flatten = a.body) : Reads a ⟨ps, .eof⟩
  | part {ps} (h : a.status = 200) (hb : ps.flatten <+: a.body) : Reads a ⟨ps, .err⟩
  | refused (h : a.status ≠ 200) : Reads a ⟨[], .err⟩
  | gone : Reads a ⟨[], .err⟩

/-- The same for `GetObjects`, which looks at the status before it returns. -/
inductive Fetches (a : Answer) : Option Stream → Prop
  | all {ps} (h : a.status = 200) (hw : a.whole = true) (hb : ps.flatten = a.body) : Fetches a (some ⟨ps, .eof⟩)
  | part {ps} (h : a.status = 200) (hb : ps.flatten <+: a.body) : Fetches a (some ⟨ps, .err⟩)
  | refused (h : a.status ≠ 200) : Fetches a none
  | gone : Fetches a none

/-! ## A repair, not in the code -/

/-- A handler that answers 500 if nothing was sent, and otherwise ends the connection (`panic(http.ErrAbortHandler)` past the recovery). -/
def careful (n : Nat) (msg : Bytes) (s : Stream) : Answer :=
  let w := ({} : Writer).acts (copies s.pieces)
  match s.end with
  | .eof => w.answer true
  | _ => if w.sent.isNone then (w.acts (failErr n msg)).answer true else w.answer false

/-! ## Specification -/

/-- A client takes an answer for the object if its status is 200 and it did not end early. -/
def Accepted (a : Answer) : Prop := a.status = 200 ∧ a.whole = true

/-- A file of the content: any pieces of it, to the end or until something fails. -/
def OfContent (content : Bytes) (f : Stream) : Prop :=
  f.pieces.flatten <+: content ∧ (f.end = .eof → f.pieces.flatten = content)

/-- **C141** Whatever fails while an object is read from the drive, sent to the API server and sent to the client: an answer that the client takes for the
object is the object. -/
def Statement : Prop := ∀ (content msg : Bytes) (f s : Stream), OfContent content f → Reads (dataGet msg f) s → Accepted (apiGet s) →
  (apiGet s).body = content

/-- The same through the administration server. -/
def ConsoleStatement : Prop := ∀ (content msg msg' : Bytes) (n : Nat) (f s : Stream) (t : Option Stream), OfContent content f →
  Reads (dataGet msg f) s → Fetches (apiGet s) t → Accepted (download n msg' t) → (download n msg' t).body = content

/-! ## Lemmas -/

theorem acts_append (w : Writer) (as bs : List Act) : w.acts (as ++ bs) = (w.acts as).acts bs := List.foldl_append

theorem body_copies (ps : List Bytes) : ∀ w : Writer, (w.acts (copies ps)).body = w.body ++ ps.flatten ∧
    (w.acts (copies ps)).status = w.status ∧ (w.acts (copies ps)).headers = w.headers := by
  induction ps with
  | nil => intro w; simp [copies, Writer.acts]
  | cons p ps ih =>
    intro w
    cases p with
    | nil =>
      have : copies ([] :: ps) = copies ps := rfl
      rw [this]
      simpa using ih w
    | cons b p =>
      have : w.acts (copies ((b :: p) :: ps)) = (w.act (.write (b :: p))).acts (copies ps) := rfl
      rw [this]
      have := ih (w.act (.write (b :: p)))
      obtain ⟨h1, h2, h3⟩ := this
      exact ⟨by rw [h1]; simp [Writer.act], h2, h3⟩

theorem sent_copies (ps : List Bytes) : ∀ w : Writer,
    (w.acts (copies ps)).sent = if ps.flatten = [] then w.sent else some (w.sent.getD (w.status, w.headers)) := by
  induction ps with
  | nil => intro w; simp [copies, Writer.acts]
  | cons p ps ih =>
    intro w
    cases p with
    | nil =>
      have : copies ([] :: ps) = copies ps := rfl
      rw [this, ih w]
      simp
    | cons b p =>
      have : w.acts (copies ((b :: p) :: ps)) = (w.act (.write (b :: p))).acts (copies ps) := rfl
      rw [this, ih]
      simp [Writer.act]

/-- The writer after a copy. -/
theorem copied (ps : List Bytes) : ({} : Writer).acts (copies ps) =
    { status := 200, headers := [], sent := if ps.flatten = [] then none else some (200, []), body := ps.flatten } := by
  have h1 := body_copies ps {}
  have h2 := sent_copies ps {}
  cases h : ({} : Writer).acts (copies ps) with
  | mk a b c d =>
    rw [h] at h1 h2
    simp only at h1 h2
    obtain ⟨h3, h4, h5⟩ := h1
    subst h3 h4 h5 h2
    simp

/-! ## Theorems -/

/-- **C141** Once the first byte was sent, an API server answers 200 and ends the answer in order, whether the stream ended, failed or panicked: no client
can tell a part from the whole. -/
theorem C141_blind (ps : List Bytes) (h : ps.flatten ≠ []) (e : End) : apiGet ⟨ps, e⟩ = ⟨200, [], ps.flatten, true⟩ := by
  unfold apiGet
  dsimp only
  rw [copied, if_neg h]
  cases e <;> simp [Writer.acts, Writer.act, Writer.answer, okHeaders, recovered]

/-- **C141** The answer to a read that failed is the answer to a read of another object, whose content is the part. -/
theorem C141_other_object (ps qs : List Bytes) (h : ps.flatten ≠ []) (e : End) (hq : qs.flatten = ps.flatten) :
    apiGet ⟨ps, e⟩ = apiGet ⟨qs, .eof⟩ := by
  rw [C141_blind ps h, C141_blind qs (by rw [hq]; exact h), hq]

/-- **C141** A stream that fails before its first byte, as when the data server refuses the request or cannot be reached any more, is answered with 200 and
nothing.  (A panic is answered with 500.) -/
theorem C141_nothing (ps : List Bytes) (h : ps.flatten = []) : apiGet ⟨ps, .err⟩ = ⟨200, [], [], true⟩ ∧
    (apiGet ⟨ps, .panic⟩).status = 500 := by
  unfold apiGet
  dsimp only
  rw [copied, if_pos h, h]
  simp [Writer.acts, Writer.act, Writer.answer, recovered]

/-- **C141** The length and `Accept-Ranges` are never sent with an object that is not empty: they are set after the body. -/
theorem C141_headers (s : Stream) (h : s.pieces.flatten ≠ []) : (apiGet s).headers = [] := by
  rw [show s = ⟨s.pieces, s.end⟩ from rfl, C141_blind _ h]

/-- **C141** A data server that cannot read on adds the text of the error to what it sent, with status 200. -/
theorem C141_text (msg : Bytes) (ps : List Bytes) (h : ps.flatten ≠ []) : dataGet msg ⟨ps, .err⟩ = ⟨200, [], ps.flatten ++ msg, true⟩ := by
  unfold dataGet
  dsimp only
  rw [copied, if_neg h]
  simp [Writer.acts, Writer.act, Writer.answer, failErr]

/-- **C141** An error before the first byte is answered with 500. -/
theorem C141_early (msg : Bytes) (ps : List Bytes) (h : ps.flatten = []) (e : End) (he : e ≠ .eof) : (dataGet msg ⟨ps, e⟩).status = 500 := by
  unfold dataGet
  dsimp only
  rw [copied, if_pos h]
  cases e <;> simp_all [Writer.acts, Writer.act, Writer.answer, failErr, recovered]

/-- **C141** A drive that fails in the middle: the client of the API server gets the beginning and then the text of the error, as the object. -/
theorem C141_drive (msg : Bytes) (ps qs : List Bytes) (h : ps.flatten ≠ []) (hq : qs.flatten = ps.flatten ++ msg) :
    Reads (dataGet msg ⟨ps, .err⟩) ⟨qs, .eof⟩ ∧ apiGet ⟨qs, .eof⟩ = ⟨200, [], ps.flatten ++ msg, true⟩ := by
  rw [C141_text msg ps h]
  refine ⟨.all rfl rfl hq, ?_⟩
  rw [C141_blind qs (by rw [hq]; simp [h]), hq]

theorem data_ok (msg : Bytes) (f : Stream) (h : f.end = .eof) : dataGet msg f = ⟨200, [], f.pieces.flatten, true⟩ := by
  unfold dataGet
  rw [copied, h]
  split <;> simp [Writer.acts, Writer.act, Writer.answer]

theorem api_ok (s : Stream) (h : s.end = .eof) : (apiGet s).status = 200 ∧ (apiGet s).body = s.pieces.flatten ∧ (apiGet s).whole = true := by
  unfold apiGet
  rw [copied, h]
  split <;> simp [Writer.acts, Writer.act, Writer.answer, okHeaders]

/-- **C141, partial** While nothing fails the client gets the object, with 200, for every division into pieces on the way.  Missing: failures
(`C141_statement_fails`). -/
theorem C141_object_partial (content msg : Bytes) (f s : Stream) (hf : OfContent content f) (he : f.end = .eof) (hr : Reads (dataGet msg f) s)
    (hs : s.end = .eof) : Accepted (apiGet s) ∧ (apiGet s).body = content := by
  rw [data_ok msg f he] at hr
  cases hr with
  | all h hw hb =>
    obtain ⟨a1, a2, a3⟩ := api_ok _ hs
    exact ⟨⟨a1, a3⟩, a2.trans (hb.trans (hf.2 he))⟩
  | part h hb => cases hs
  | refused h => cases hs
  | gone => cases hs

/-- **C141, partial** The same through the administration server. -/
theorem C141_console_partial (content msg msg' : Bytes) (n : Nat) (f s t : Stream) (hf : OfContent content f) (he : f.end = .eof)
    (hr : Reads (dataGet msg f) s) (hs : s.end = .eof) (ht : Fetches (apiGet s) (some t)) (hte : t.end = .eof) :
    Accepted (download n msg' (some t)) ∧ (download n msg' (some t)).body = content := by
  have h1 := (C141_object_partial content msg f s hf he hr hs).2
  cases ht with
  | all h hw hb =>
    unfold download
    dsimp only
    rw [copied]
    rw [h1] at hb
    rw [hb]
    unfold Accepted
    split <;> simp [Writer.acts, Writer.act, Writer.answer]
  | part h hb => cases hte

/-- **C141** What the client of an API server takes for an object, for all failures: bytes that the data server has sent, from the
beginning on. -/
theorem C141_at_worst (a : Answer) (s : Stream) (hr : Reads a s) : (apiGet s).body <+: a.body := by
  have hb : (apiGet s).body = s.pieces.flatten := by
    unfold apiGet
    rw [copied]
    cases s.end <;> simp [Writer.acts, Writer.act, Writer.answer, okHeaders, recovered]
  rw [hb]
  cases hr with
  | all h hw hp => simp only [hp]; exact List.prefix_refl _
  | part h hp => exact hp
  | refused h => exact List.nil_prefix
  | gone => exact List.nil_prefix

/-- **C141** The administration server adds the text of an error as well. -/
theorem C141_console_text (n : Nat) (msg : Bytes) (ps : List Bytes) (h : ps.flatten ≠ []) :
    download n msg (some ⟨ps, .err⟩) = ⟨200, [], ps.flatten ++ msg, true⟩ := by
  unfold download
  dsimp only
  rw [copied, if_neg h]
  simp [Writer.acts, Writer.act, Writer.answer, failErr]

/-- **C141** An API server that refuses is reported, with its status. -/
theorem C141_console_refused (a : Answer) (n : Nat) (msg : Bytes) (t : Option Stream) (ht : Fetches a t) (h : a.status ≠ 200) :
    t = none ∧ (download n msg t).status = n := by
  cases ht with
  | all h' => exact absurd h' h
  | part h' => exact absurd h' h
  | refused => exact ⟨rfl, rfl⟩
  | gone => exact ⟨rfl, rfl⟩

theorem C141_statement_fails : ¬ Statement := by
  intro h
  have := h [1, 2] [] ⟨[[1], [2]], .eof⟩ ⟨[[1]], .err⟩ ⟨List.prefix_refl _, fun _ => rfl⟩ (.part rfl ⟨[2], rfl⟩) ⟨rfl, rfl⟩
  revert this
  decide

theorem C141_console_statement_fails : ¬ ConsoleStatement := by
  intro h
  have := h [1, 2] [] [9] 500 ⟨[[1], [2]], .eof⟩ ⟨[[1, 2]], .eof⟩ (some ⟨[[1]], .err⟩) ⟨List.prefix_refl _, fun _ => rfl⟩ (.all rfl rfl rfl)
    (.part rfl ⟨[2], rfl⟩) ⟨rfl, rfl⟩
  revert this
  decide

/-- One careful hop. -/
theorem careful_ok {n : Nat} (hn : n ≠ 200) {content msg : Bytes} {s : Stream} (hs : OfContent content s) (ha : Accepted (careful n msg s)) :
    (careful n msg s).body = content := by
  obtain ⟨hp, he⟩ := hs
  unfold careful at ha ⊢
  dsimp only at ha ⊢
  rw [copied] at ha ⊢
  cases hend : s.end with
  | eof => rw [hend] at he; simpa [Writer.answer] using he rfl
  | err | panic =>
    rw [hend] at ha
    by_cases hf : s.pieces.flatten = [] <;>
      simp [hf, Accepted, Writer.answer, Writer.acts, Writer.act, failErr, hn] at ha

theorem careful_prefix {n : Nat} (hn : n ≠ 200) {content msg : Bytes} {s : Stream} (hs : OfContent content s)
    (h : (careful n msg s).status = 200) : (careful n msg s).body <+: content := by
  obtain ⟨hp, he⟩ := hs
  unfold careful at h ⊢
  dsimp only at h ⊢
  rw [copied] at h ⊢
  cases hend : s.end with
  | eof => simpa [Writer.answer] using hp
  | err | panic =>
    rw [hend] at h
    by_cases hf : s.pieces.flatten = []
    · simp [hf, Writer.answer, Writer.acts, Writer.act, failErr, hn] at h
    · simpa [hf, Writer.answer] using hp

theorem reads_careful {n : Nat} (hn : n ≠ 200) {content msg : Bytes} {f s : Stream} (hf : OfContent content f) (hr : Reads (careful n msg f) s) :
    OfContent content s := by
  cases hr with
  | all h hw hb =>
    have := careful_ok hn hf ⟨h, hw⟩
    rw [this] at hb
    exact ⟨by simp only [hb]; exact List.prefix_refl _, fun _ => hb⟩
  | part h hb => exact ⟨hb.trans (careful_prefix hn hf h), fun h => by cases h⟩
  | refused h => exact ⟨List.nil_prefix, fun h => by cases h⟩
  | gone => exact ⟨List.nil_prefix, fun h => by cases h⟩

/-- **C141** With handlers that end the connection after an error in the middle, and answer with an error before the first byte, the statement holds for
every failure of every hop. -/
theorem C141_repair (content msg msg' : Bytes) (n n' : Nat) (hn : n ≠ 200) (hn' : n' ≠ 200) (f s : Stream) (hf : OfContent content f)
    (hr : Reads (careful n msg f) s) (ha : Accepted (careful n' msg' s)) : (careful n' msg' s).body = content :=
  careful_ok hn' (reads_careful hn hf hr) ha

/-- **C141** And it keeps what works: a read without failure is accepted. -/
theorem C141_repair_works (content msg : Bytes) (n : Nat) (s : Stream) (hs : OfContent content s) (he : s.end = .eof) :
    Accepted (careful n msg s) ∧ (careful n msg s).body = content := by
  unfold careful Accepted
  dsimp only
  rw [copied, he]
  dsimp only
  have := hs.2 he
  split <;> simp [Writer.answer, this]

/-! ## Non-vacuity -/

/-- A drive that fails after two pieces. -/
example : dataGet [9] ⟨[[1], [], [2]], .err⟩ = ⟨200, [], [1, 2, 9], true⟩ ∧ apiGet ⟨[[1, 2], [9]], .eof⟩ = ⟨200, [], [1, 2, 9], true⟩ := by decide

/-- An empty stream has its headers, the others do not. -/
example : (apiGet ⟨[], .eof⟩).headers.length = 2 ∧ (apiGet ⟨[[1]], .eof⟩).headers = [] := by decide

/-- The hypotheses of `C141_object_partial` and `C141_console_partial`. -/
example : OfContent [1, 2] ⟨[[1], [2]], .eof⟩ ∧ Reads (dataGet [9] ⟨[[1], [2]], .eof⟩) ⟨[[1, 2]], .eof⟩ ∧
    Fetches (apiGet ⟨[[1, 2]], .eof⟩) (some ⟨[[1], [2]], .eof⟩) :=
  ⟨⟨List.prefix_refl _, fun _ => rfl⟩, .all rfl rfl rfl, .all rfl rfl rfl⟩

/-- A repaired server in the middle of a failure. -/
example : careful 500 [9] ⟨[[1]], .err⟩ = ⟨200, [], [1], false⟩ ∧ (careful 500 [9] ⟨[], .err⟩).status = 500 := by decide

end Verif.Cut
