/-!
# What a failed upload or download leaves behind: C111

* src/apiserver/internal/usecase/service/object_service.go: `StoreObject` 158-184, `streamToDataServer` 196-232;
* rs_put_stream.go 14-38, 48-68; copy_put_stream.go 19-43, 45-62, 85-93, 95-113; put_stream.go 21-68; rs_encoder.go 29-37, 59-112;
* rs_get_stream.go `provideGetStream` 27-49, `NewRSGetStream` 51-72;
* src/common/util/done_group.go `WaitDone` 95-109, `WaitUntilError` 119-126.

`Conc/DoneGroup` (C54) shows that `WaitUntilError` may return nil although a task failed, when everything was ready at once; this is the
flag `lost` of the waits below.  What is written and read is in `Object/Pipeline` and others; here only what remains is followed: on the
data servers a temporary file or a stored shard, in the API server a goroutine.
-/

namespace Verif.Remains

/-! ## Uploads -/

/-- What a data server has of a shard or copy. -/
inductive Fate
  | nothing
  | temp      -- a temporary file: it is removed when its lifetime ends (`Object/Temp`)
  | stored    -- a stored file: nothing removes it
deriving DecidableEq, Repr

/-- What the requests to the data server of one shard come to.  `made`: the temporary file was made although the answer to `POST` was
no success (or did not arrive). -/
structure Srv where
  post : Bool
  made : Bool
  put : Bool
  del : Bool
deriving DecidableEq

/-- An upload: the servers; whether the error of a wait is lost; whether the content was written and had the digest it should have;
whether a part of it is in the cache at the end, and whether that part is written; whether the metadata is saved. -/
structure Upload where
  srvs : List Srv
  openLost : Bool
  good : Bool
  cached : Bool
  flushed : Bool
  commitLost : Bool
  meta_ : Bool

/-- put_stream.go:22-29: what is on the server after `POST`. -/
def afterPost (s : Srv) : Fate := if s.post || s.made then .temp else .nothing

/-- rs_put_stream.go:20-36, copy_put_stream.go:21-41: a `PutStream` per server, none where `POST` failed.  On an error the streams that
were made are dropped. -/
def openStream (u : Upload) : Bool × List Fate := (!(u.srvs.any fun s => !s.post) || u.openLost, u.srvs.map afterPost)

/-- rs_put_stream.go:49-51, copy_put_stream.go:96-98: `Commit` flushes first and returns if that fails; a missing stream fails as well
(the panic of its goroutine is reported by `Done`). -/
def flush (u : Upload) : Bool := !u.cached || u.flushed

/-- put_stream.go:53-68 with `ok = false`: `DELETE`, in a goroutine whose error is logged. -/
def rollback (s : Srv) : Fate := if s.post then (if s.del then .nothing else .temp) else afterPost s

/-- put_stream.go:53-68 with `ok = true`: `PUT`. -/
def commit (s : Srv) : Fate := if s.post then (if s.put then .stored else .temp) else afterPost s

/-- object_service.go:158-184: whether `StoreObject` succeeds, and what the servers have when all goroutines have ended.  The deferred
`stream.Close()` (line 202) sends nothing: put_stream.go:37-40. -/
def store (u : Upload) : Bool × List Fate :=
  let (ok, fs) := openStream u
  if !ok then (false, fs)
  else if !u.good then
    -- object_service.go:209-215, 218-224
    if flush u then (false, u.srvs.map rollback) else (false, fs)
  else if flush u then
    -- object_service.go:227-231
    if (u.srvs.any fun s => !(s.post && s.put)) && !u.commitLost then (false, u.srvs.map commit)
    else (u.meta_, u.srvs.map commit)
  else (false, fs)

/-! ## Waiting for a group -/

/-- The goroutine of `WaitDone`: in `Wait`, at `ch <- struct{}{}`, or ended. -/
inductive Helper | inWait | atSend | ended
deriving DecidableEq

/-- The caller of `WaitUntilError`. -/
inductive Main | selecting | gotNil | gotErr
deriving DecidableEq

structure Wait where
  tasks : Nat
  err : Bool      -- an error is in the channel, or its receiver has it
  helper : Helper
  main : Main
deriving DecidableEq

inductive WStep : Wait → Wait → Prop
  /-- a task ends without error -/
  | fine (w) (n) (h : w.tasks = n + 1) : WStep w { w with tasks := n }
  /-- a task reports an error (done_group.go:73-78) and ends -/
  | fails (w) (n) (h : w.tasks = n + 1) : WStep w { w with tasks := n, err := true }
  /-- a task reports an error and goes on -/
  | reports (w) (n) (h : w.tasks = n + 1) (he : w.err = false) : WStep w { w with err := true }
  /-- done_group.go:105: `Wait` returns -/
  | waited (w) (h : w.tasks = 0) (hh : w.helper = .inWait) : WStep w { w with helper := .atSend }
  /-- done_group.go:121: the helper's message is received -/
  | nil (w) (hm : w.main = .selecting) (hh : w.helper = .atSend) : WStep w { w with helper := .ended, main := .gotNil }
  /-- done_group.go:123 -/
  | err (w) (hm : w.main = .selecting) (he : w.err = true) : WStep w { w with main := .gotErr }

inductive WReach (n : Nat) : Wait → Prop
  | start : WReach n ⟨n, false, .inWait, .selecting⟩
  | step {w w'} : WReach n w → WStep w w' → WReach n w'

/-! ## Opening a download -/

/-- A shard of the object to be read: it is not there (or its server does not answer), and the `POST` for its replacement succeeds. -/
structure Shard where
  lost : Bool
  post : Bool
deriving DecidableEq

/-- rs_get_stream.go:27-72: the goroutines that have still to send or are sending, the channel of capacity 1, what the loop of line 56 has
taken, whether it still runs, and the uploads it has begun. -/
structure Open where
  senders : List Shard
  buf : Option Shard
  taken : List Shard
  looping : Bool
  uploads : Nat

inductive OStep : Open → Open → Prop
  /-- lines 40, 42: a sender puts its result into the channel and ends -/
  | send (s) (xs ys) (x) (h : s.senders = xs ++ x :: ys) (hb : s.buf = none) : OStep s { s with senders := xs ++ ys, buf := some x }
  /-- lines 56, 66-68: a shard that is there -/
  | found (s) (x) (hl : s.looping = true) (hb : s.buf = some x) (hx : x.lost = false) :
      OStep s { s with buf := none, taken := s.taken ++ [x] }
  /-- lines 57-65: a lost shard, whose replacement begins -/
  | replaced (s) (x) (hl : s.looping = true) (hb : s.buf = some x) (hx : x.lost = true) (hp : x.post = true) :
      OStep s { s with buf := none, taken := s.taken ++ [x], uploads := s.uploads + 1 }
  /-- lines 60-63: a lost shard, and no replacement: `NewRSGetStream` returns the error -/
  | failed (s) (x) (hl : s.looping = true) (hb : s.buf = some x) (hx : x.lost = true) (hp : x.post = false) :
      OStep s { s with buf := none, taken := s.taken ++ [x], looping := false }

inductive OReach (all : List Shard) : Open → Prop
  | start : OReach all ⟨all, none, [], true, 0⟩
  | step {s s'} : OReach all s → OStep s s' → OReach all s'

/-- Nothing more will happen. -/
def Stuck {α : Type} (R : α → α → Prop) (s : α) : Prop := ∀ s', ¬ R s s'

end Verif.Remains
