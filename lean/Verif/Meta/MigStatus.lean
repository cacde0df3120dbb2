import Verif.Common.Str

/-!
# The migration state of a metadata server: C31

`HashSlotDB` (src/metaserver/internal/usecase/db/hashslot_db.go) and the goroutines of
`HashSlotService` (src/metaserver/internal/usecase/service/hashslot_service.go) that use it, as a
machine of interleaved threads.  Each thread is the list of the instructions it still has to carry
out; any thread may take the next step, new requests may arrive at any time.

Simplified:

* Loads and stores are sequentially consistent.  (In the code only `status` is atomic; the fields
  `migratingHost`, `migratingSlots` and `startReceive` are written and read without
  synchronisation.)
* The methods of `HashSlotDB` come in two versions: as one instruction (`readyTo`, `finishTo`,
  `save`, …) and, for the races, as the separate steps of their Go statements (`casTo`, `setMig`,
  …).
* Calls to other servers and to etcd appear through what they decide: whether a handler gets to the
  next instruction.  Transfers between the servers are modelled in `Verif.Meta.Migration`.
-/

namespace Verif.MigStatus

open Verif

/-! ## Model -/

/-- `StatusNormal`, `StatusMigrateTo`, `StatusMigrateFrom`, `StatusClosed`, db/hashslot_db.go:21-26. -/
inductive Status
  | normal | sending | receiving | closed
  deriving DecidableEq, Repr

/-- What can be observed of a server: the start and the end of its migration states, and what it
publishes in etcd (with the status at that moment). -/
inductive Ev
  | began (st : Status) (slots : List Str)
  | ended (st : Status)
  | published (slots : List Str) (st : Status)
  deriving DecidableEq, Repr

/-- The memory of a server: the fields of `HashSlotDB` (db/hashslot_db.go:43-51) and
`HashSlotService.startReceive` (service/hashslot_service.go:35).  Ghost state: the events, newest
first. -/
structure Shared where
  status : Status
  host : Str                 -- migratingHost
  slots : List Str           -- migratingSlots
  recv : Option Nat          -- startReceive: the channel it closes, `none` for `func() {}`
  shut : List Nat            -- the channels that are closed
  next : Nat                 -- number of the next channel made
  log : List Ev
  deriving DecidableEq, Repr

/-- `NewHashSlotDB`, db/hashslot_db.go:53-62, and `NewHashSlotService`,
service/hashslot_service.go:38-46. -/
def Shared.start : Shared := ⟨.normal, [], [], none, [], 0, []⟩

/-- Instructions of the threads. -/
inductive Ins
  -- methods of `HashSlotDB`, uninterrupted
  | readyTo (h : Str) (s : List Str)     -- ReadyMigrateTo, hashslot_db.go:127-135; on failure the handler returns
  | finishTo                             -- FinishMigrateTo, hashslot_db.go:137-145; its error is only logged
  | readyFrom (h : Str) (s : List Str)   -- ReadyMigrateFrom, hashslot_db.go:117-125; on failure the handler returns
  | finishFrom                           -- FinishMigrateFrom, hashslot_db.go:147-155; its error is only logged
  | save (v : List Str)                  -- Save, hashslot_db.go:174-187
  | closeDb                              -- one round of the loop of Close, hashslot_db.go:214-227
  -- statements of `HashSlotService`
  | checkTo (h : Str)                    -- hashslot_service.go:227-229
  | checkFrom                            -- hashslot_service.go:168-170
  | arm                                  -- hashslot_service.go:144-157: make the channel, set startReceive, start the timer
  | timer (c : Nat)                      -- hashslot_service.go:149-157: wait for the channel or the timeout
  | startRecv                            -- h.startReceive(), hashslot_service.go:145-148, 162, 194
  -- the same methods statement by statement
  | casTo (s : List Str) | casFrom (s : List Str)  -- lines 128, 118
  | setMig (h : Str) (s : List Str)      -- lines 119-120, 129-130
  | casToNormal | casFromNormal          -- lines 138, 148
  | clearMig                             -- lines 139-140, 149-150
  | loadNormal                           -- line 175
  | put (v : List Str)                   -- line 185
  deriving DecidableEq, Repr

/-- What an instruction does: the memory after it, the rest of the thread (`rest` are the
instructions behind it) and the threads it starts. -/
def exec (m : Shared) (rest : List Ins) : Ins → Shared × List Ins × List (List Ins)
  | .readyTo h s =>
    if m.status = .normal then
      ({ m with status := .sending, host := h, slots := s, log := .began .sending s :: m.log }, rest, [])
    else (m, [], [])
  | .readyFrom h s =>
    if m.status = .normal then
      ({ m with status := .receiving, host := h, slots := s, log := .began .receiving s :: m.log }, rest, [])
    else (m, [], [])
  | .finishTo =>
    if m.status = .sending then
      ({ m with status := .normal, host := [], slots := [], log := .ended .sending :: m.log }, rest, [])
    else (m, rest, [])
  | .finishFrom =>
    if m.status = .receiving then
      ({ m with status := .normal, host := [], slots := [], log := .ended .receiving :: m.log }, rest, [])
    else (m, rest, [])
  | .save v =>
    if m.status = .normal then ({ m with log := .published v m.status :: m.log }, rest, [])
    else (m, rest, [])
  | .closeDb => if m.status = .normal then ({ m with status := .closed }, rest, []) else (m, [], [])
  | .checkTo h => if m.status = .sending ∧ m.host = h then (m, rest, []) else (m, [], [])
  | .checkFrom => if m.status = .receiving then (m, rest, []) else (m, [], [])
  | .arm => ({ m with recv := some m.next, next := m.next + 1 }, rest, [[.timer m.next]])
  | .timer c =>
    if c ∈ m.shut then (m, rest, [])
    else if m.status = .receiving then
      ({ m with status := .normal, host := [], slots := [], log := .ended .receiving :: m.log }, rest, [])
    else (m, rest, [])
  | .startRecv =>
    match m.recv with
    | some c => ({ m with recv := none, shut := c :: m.shut }, rest, [])
    | none => (m, rest, [])
  | .casTo s =>
    if m.status = .normal then ({ m with status := .sending, log := .began .sending s :: m.log }, rest, [])
    else (m, [], [])
  | .casFrom s =>
    if m.status = .normal then ({ m with status := .receiving, log := .began .receiving s :: m.log }, rest, [])
    else (m, [], [])
  | .setMig h s => ({ m with host := h, slots := s }, rest, [])
  | .casToNormal =>
    if m.status = .sending then ({ m with status := .normal, log := .ended .sending :: m.log }, rest, [])
    else (m, rest.drop 1, [])
  | .casFromNormal =>
    if m.status = .receiving then ({ m with status := .normal, log := .ended .receiving :: m.log }, rest, [])
    else (m, rest.drop 1, [])
  | .clearMig => ({ m with host := [], slots := [] }, rest, [])
  | .loadNormal => if m.status = .normal then (m, rest, []) else (m, rest.drop 1, [])
  | .put v => ({ m with log := .published v m.status :: m.log }, rest, [])

/-- A server with its running threads. -/
structure Cfg where
  mem : Shared
  threads : List (List Ins)
  deriving DecidableEq, Repr

def Cfg.start : Cfg := ⟨.start, []⟩

/-- Thread `i` takes a step; a thread without instructions has ended and takes none. -/
def stepAt (c : Cfg) (i : Nat) : Option Cfg :=
  match c.threads[i]? with
  | some (ins :: rest) =>
    let r := exec c.mem rest ins
    some ⟨r.1, c.threads.set i r.2.1 ++ r.2.2⟩
  | _ => none

/-- The states a server can get into when its requests run the programs `P`. -/
inductive Reach (P : List Ins → Prop) : Cfg → Prop
  | start : Reach P .start
  | request {c : Cfg} {prog : List Ins} : Reach P c → P prog → Reach P ⟨c.mem, c.threads ++ [prog]⟩
  | step {c c' : Cfg} {i : Nat} : Reach P c → stepAt c i = some c' → Reach P c'

/-- A run of the threads, without new requests. -/
def runs (c : Cfg) : List Nat → Option Cfg
  | [] => some c
  | i :: is => (stepAt c i).bind fun c' => runs c' is

/-- The programs of the server's handlers.

* `send h s none`: `StartMigration` (controller/grpc/hashslot_server.go:29-37): `PrepareMigrationTo`
  after the answer of the other server (service/hashslot_service.go:119-120), then `AutoMigrate`
  (226-271) that fails: only the deferred `FinishMigrateTo` (230).
* `send h s (some v)`: the same with success: `FinishMigrateTo` (251), publication of the remaining
  slots `v` (262) and the deferred `FinishMigrateTo` (230).
* `prepare h s`: `PrepareMigrationFrom` (124-159).
* `stream n none`: `StreamingReceive` (controller/grpc/hashslot_server.go:39-69) with `n` items that
  ends with an error: `ReceiveItem` (193-222) calls `startReceive` for every item, `FinishReceiveItem`
  (161-191) once more.
* `stream n (some v)`: the same ended by the sender; publishes `v` (186).
* `leader v`: `OnLeaderChanged` (48-69).
* `close`: `pool.Close`, usecase/pool/pool.go:102 (every round of its loop is a new request). -/
inductive Handler
  | send (h : Str) (s : List Str) (o : Option (List Str))
  | prepare (h : Str) (s : List Str)
  | stream (n : Nat) (o : Option (List Str))
  | leader (v : List Str)
  | close
  deriving DecidableEq, Repr

def Handler.prog : Handler → List Ins
  | .send h s none => [.readyTo h s, .checkTo h, .finishTo]
  | .send h s (some v) => [.readyTo h s, .checkTo h, .finishTo, .save v, .finishTo]
  | .prepare h s => [.readyFrom h s, .arm]
  | .stream n none => List.replicate n .startRecv ++ [.startRecv, .checkFrom, .finishFrom]
  | .stream n (some v) => List.replicate n .startRecv ++ [.startRecv, .checkFrom, .finishFrom, .save v]
  | .leader v => [.save v]
  | .close => [.closeDb]

/-- The server as it is, with the methods of `HashSlotDB` uninterrupted. -/
def Handlers (p : List Ins) : Prop := ∃ h : Handler, p = h.prog

/-! ## Specification -/

/-- Number of migrations begun / ended. -/
def began (l : List Ev) : Nat := (l.filter fun e => match e with | .began _ _ => true | _ => false).length
def ended (l : List Ev) : Nat := (l.filter fun e => match e with | .ended _ => true | _ => false).length

def Status.busy : Status → Bool
  | .sending | .receiving => true
  | _ => false

/-- The server has nothing left to do: every handler and every timer has ended. -/
def Quiet (c : Cfg) : Prop := ∀ t ∈ c.threads, t = []

/-! ## At most one migration at a time -/

/-- Every instruction keeps the count of active migrations. -/
theorem exec_count (m : Shared) (rest : List Ins) (ins : Ins)
    (h : began m.log = ended m.log + (if m.status.busy then 1 else 0)) :
    let m' := (exec m rest ins).1
    began m'.log = ended m'.log + (if m'.status.busy then 1 else 0) ∧
      (m'.log = m.log ∨ ∃ e, m'.log = e :: m.log) := by
  obtain ⟨st, ho, sl, re, sh, ne, lo⟩ := m
  cases ins <;> cases st <;> simp_all [exec, began, ended, Status.busy] <;>
    repeat' split
  all_goals simp_all

/-- **C31** (at most one migration at a time; for every interleaving, also of the single statements
of the methods, and whatever the threads do): at every moment of the server's life at most one
migration is active, and the status says which.  A suffix of `log` is the log of an earlier
moment. -/
theorem C31_at_most_one (P : List Ins → Prop) {c : Cfg} (h : Reach P c) :
    (∀ l, l <:+ c.mem.log → ended l ≤ began l ∧ began l ≤ ended l + 1) ∧
      (c.mem.status.busy = true ↔ began c.mem.log = ended c.mem.log + 1) := by
  have key : (∀ l, l <:+ c.mem.log → ended l ≤ began l ∧ began l ≤ ended l + 1) ∧
      began c.mem.log = ended c.mem.log + (if c.mem.status.busy then 1 else 0) := by
    induction h with
    | start => simp [Cfg.start, Shared.start, began, ended, Status.busy]
    | request _ _ ih => exact ih
    | @step c c' i _ hs ih =>
      unfold stepAt at hs
      split at hs
      · rename_i ins rest _
        cases hs
        have hc := exec_count c.mem rest ins ih.2
        refine ⟨?_, hc.1⟩
        intro l hl
        rcases hc.2 with hl' | ⟨e, hl'⟩
        · rw [hl'] at hl; exact ih.1 l hl
        · have hl2 := hl
          simp only [hl'] at hl2
          rcases List.suffix_cons_iff.1 hl2 with heq | hs'
          · have := hc.1
            rw [hl', ← heq] at this
            split at this <;> omega
          · exact ih.1 l hs'
      · cases hs
  refine ⟨key.1, ?_⟩
  have := key.2
  constructor
  · intro hb; simpa [hb] using this
  · intro hb
    cases hbs : c.mem.status.busy with
    | true => rfl
    | false => rw [hbs] at this; simp at this; omega

/-- **C31** (a second request is refused): while a migration is active, a request to begin another
one, in either direction, ends at once and changes nothing. -/
theorem C31_second_refused (m : Shared) (rest : List Ins) (h : m.status ≠ .normal) (ho : Str)
    (s : List Str) :
    exec m rest (.readyTo ho s) = (m, [], []) ∧ exec m rest (.readyFrom ho s) = (m, [], []) := by
  simp [exec, h]

def exHost : Str := "a".toList
def exHost2 : Str := "b".toList
def exSlots : List Str := ["0-100".toList]
def exSlots2 : List Str := ["200-300".toList]

/-- A server that sends; a second request finds it busy. -/
def exBusy : Cfg :=
  ⟨{ Shared.start with status := .sending, host := exHost, slots := exSlots, log := [.began .sending exSlots] },
    [[.checkTo exHost, .finishTo], [.readyFrom exHost2 exSlots2, .arm]]⟩

example : Reach Handlers exBusy := by
  have h1 : Reach Handlers ⟨.start, [(Handler.send exHost exSlots none).prog]⟩ :=
    .request .start ⟨_, rfl⟩
  have h2 : Reach Handlers ⟨.start, [(Handler.send exHost exSlots none).prog, (Handler.prepare exHost2 exSlots2).prog]⟩ :=
    .request h1 ⟨_, rfl⟩
  exact .step (i := 0) h2 rfl

example : stepAt exBusy 1 = some ⟨exBusy.mem, [[.checkTo exHost, .finishTo], []]⟩ := by rfl

/-! ## Publication -/

/-- No instruction of the uninterrupted methods publishes outside of the status normal. -/
def Coarse : Ins → Bool
  | .put _ => false
  | _ => true

theorem handler_coarse {p : List Ins} (h : Handlers p) : ∀ i ∈ p, Coarse i = true := by
  obtain ⟨h, rfl⟩ := h
  intro i hi
  cases h with
  | send ho s o => cases o <;> simp [Handler.prog] at hi <;> rcases hi with rfl | rfl | hi <;> simp_all [Coarse] <;> rcases hi with rfl | rfl | rfl <;> rfl
  | prepare ho s => simp [Handler.prog] at hi; rcases hi with rfl | rfl <;> rfl
  | stream n o =>
    cases o <;> simp [Handler.prog, List.mem_replicate] at hi
    · rcases hi with ⟨_, rfl⟩ | rfl | rfl | rfl <;> rfl
    · rcases hi with ⟨_, rfl⟩ | rfl | rfl | rfl | rfl <;> rfl
  | leader v => simp [Handler.prog] at hi; subst hi; rfl
  | close => simp [Handler.prog] at hi; subst hi; rfl

/-- The rest of a thread is made of instructions it had before. -/
theorem exec_rest (m : Shared) (rest : List Ins) (ins : Ins) :
    ∀ i ∈ (exec m rest ins).2.1, i ∈ rest := by
  intro i hi
  have hd : i ∈ rest.drop 1 → i ∈ rest := fun h => List.mem_of_mem_drop h
  cases ins <;> simp only [exec] at hi
  all_goals first
    | exact hi
    | (split at hi
       · first
           | exact hi
           | exact hd hi
           | cases hi
       · first
           | exact hi
           | exact hd hi
           | cases hi
           | (split at hi
              · first
                  | exact hi
                  | cases hi
              · first
                  | exact hi
                  | cases hi))

theorem exec_spawn (m : Shared) (rest : List Ins) (ins : Ins) :
    (exec m rest ins).2.2 = [] ∨ (exec m rest ins).2.2 = [[.timer m.next]] ∧ ins = .arm := by
  cases ins <;> simp only [exec] <;> repeat' split
  all_goals simp

theorem mem_step {c c' : Cfg} {i : Nat} (hs : stepAt c i = some c') :
    ∃ ins rest, c.threads[i]? = some (ins :: rest) ∧ c'.mem = (exec c.mem rest ins).1 ∧
      c'.threads = c.threads.set i (exec c.mem rest ins).2.1 ++ (exec c.mem rest ins).2.2 := by
  unfold stepAt at hs
  split at hs
  · rename_i ins rest ht
    cases hs
    exact ⟨ins, rest, ht, rfl, rfl⟩
  · cases hs

/-- **C31** (slots are published only when idle; partial): with `Save` uninterrupted, every
publication happens in the status normal, for every interleaving of the handlers.

Missing: `Save` reads the status (hashslot_db.go:175) and writes to etcd ten lines later; a migration
may begin in between, `C31_publish_race`. -/
theorem C31_published_idle_partial {c : Cfg} (h : Reach Handlers c) (v : List Str) (st : Status)
    (he : Ev.published v st ∈ c.mem.log) : st = .normal := by
  have key : (∀ v st, Ev.published v st ∈ c.mem.log → st = .normal) ∧
      ∀ t ∈ c.threads, ∀ i ∈ t, Coarse i = true := by
    clear he v st
    induction h with
    | start => simp [Cfg.start, Shared.start]
    | request _ hp ih =>
      refine ⟨ih.1, fun t ht => ?_⟩
      simp only [List.mem_append, List.mem_singleton] at ht
      rcases ht with ht | rfl
      · exact ih.2 t ht
      · exact handler_coarse hp
    | @step c c' i _ hs ih =>
      obtain ⟨ins, rest, ht, hm, hth⟩ := mem_step hs
      have hmem := List.mem_of_getElem? ht
      have hco := ih.2 _ hmem ins (by simp)
      constructor
      · intro v st hv
        rw [hm] at hv
        have : Ev.published v st ∈ c.mem.log ∨ st = .normal := by
          cases ins <;> simp only [exec] at hv <;> (try simp [Coarse] at hco)
          all_goals first
            | exact .inl hv
            | (split at hv <;> first
                | exact .inl hv
                | (rename_i hst; simp at hv; rcases hv with ⟨_, h2⟩ | hv
                   · exact .inr (h2.trans hst)
                   · exact .inl hv)
                | (simp at hv; exact .inl hv)
                | (split at hv <;> first
                    | exact .inl hv
                    | (simp at hv; exact .inl hv)))
        rcases this with h1 | h1
        · exact ih.1 v st h1
        · exact h1
      · intro t ht2 x hx
        rw [hth] at ht2
        simp only [List.mem_append] at ht2
        rcases ht2 with ht2 | ht2
        · rcases List.mem_or_eq_of_mem_set ht2 with h3 | h3
          · exact ih.2 t h3 x hx
          · subst h3
            exact ih.2 _ hmem x (List.mem_cons_of_mem _ (exec_rest _ _ _ x hx))
        · rcases exec_spawn c.mem rest ins with h0 | ⟨h0, _⟩
          · rw [h0] at ht2; cases ht2
          · rw [h0] at ht2; simp at ht2; subst ht2; simp at hx; subst hx; rfl
  exact key.1 v st he

/-- A complete migration of the source, by itself: it publishes when idle. -/
example : ∃ c, Reach Handlers c ∧ c.mem.log =
    [.published exSlots2 .normal, .ended .sending, .began .sending exSlots] :=
  ⟨_, .step (i := 0) (.step (i := 0) (.step (i := 0) (.step (i := 0)
    (.request (prog := (Handler.send exHost exSlots (some exSlots2)).prog) .start ⟨_, rfl⟩) rfl) rfl) rfl) rfl, rfl⟩

/-- **C31** (finding): statement by statement, a leader that saves its slots and a migration that
begins at the same time: the slots are published while the migration is active. -/
theorem C31_publish_race :
    ∃ c, runs ⟨.start, [[.loadNormal, .put exSlots], [.casTo exSlots, .setMig exHost exSlots]]⟩ [0, 1, 0] = some c ∧
      Ev.published exSlots .sending ∈ c.mem.log := by
  exact ⟨_, rfl, by decide⟩

/-! ## Back to idle -/

/-- A thread that will end the sending of a server with the given host. -/
def EndsSending (host : Str) (t : List Ins) : Prop :=
  t = [.checkTo host, .finishTo] ∨ (∃ v, t = [.checkTo host, .finishTo, .save v, .finishTo]) ∨
    t = [.finishTo] ∨ (∃ v, t = [.finishTo, .save v, .finishTo]) ∨ (∃ v, t = [.save v, .finishTo])

/-- The end of a stream. -/
def StreamTail (t : List Ins) : Prop :=
  ∃ n o, t = (Handler.stream n o).prog

/-- A thread that will end the receiving of a server. -/
def EndsReceiving (shut : List Nat) (t : List Ins) : Prop :=
  t = [.arm] ∨ (∃ c, t = [.timer c] ∧ c ∉ shut) ∨ StreamTail t ∨
    t = [.checkFrom, .finishFrom] ∨ (∃ v, t = [.checkFrom, .finishFrom, .save v]) ∨
    t = [.finishFrom] ∨ (∃ v, t = [.finishFrom, .save v])

/-- What can be left of a handler. -/
inductive Left : List Ins → Prop
  | done : Left []
  | send (h : Str) (s : List Str) (o : Option (List Str)) : Left (Handler.send h s o).prog
  | checkTo (h : Str) : Left [.checkTo h, .finishTo]
  | checkToS (h : Str) (v : List Str) : Left [.checkTo h, .finishTo, .save v, .finishTo]
  | finTo : Left [.finishTo]
  | finToS (v : List Str) : Left [.finishTo, .save v, .finishTo]
  | savTo (v : List Str) : Left [.save v, .finishTo]
  | prepare (h : Str) (s : List Str) : Left [.readyFrom h s, .arm]
  | arm : Left [.arm]
  | timer (c : Nat) : Left [.timer c]
  | stream (n : Nat) (o : Option (List Str)) : Left (Handler.stream n o).prog
  | chkFrom : Left [.checkFrom, .finishFrom]
  | chkFromS (v : List Str) : Left [.checkFrom, .finishFrom, .save v]
  | finFrom : Left [.finishFrom]
  | finFromS (v : List Str) : Left [.finishFrom, .save v]
  | leader (v : List Str) : Left [.save v]
  | close : Left [.closeDb]

theorem left_handler (h : Handler) : Left h.prog := by
  cases h with
  | send h s o => exact .send h s o
  | prepare h s => exact .prepare h s
  | stream n o => exact .stream n o
  | leader v => exact .leader v
  | close => exact .close

/-- The invariant: a busy server has a thread that will end its migration. -/
structure Live (c : Cfg) : Prop where
  left : ∀ t ∈ c.threads, Left t
  fresh : ∀ x, (c.mem.recv = some x ∨ x ∈ c.mem.shut ∨ [Ins.timer x] ∈ c.threads) → x < c.mem.next
  sending : c.mem.status = .sending → ∃ t ∈ c.threads, EndsSending c.mem.host t
  receiving : c.mem.status = .receiving → ∃ t ∈ c.threads, EndsReceiving c.mem.shut t

theorem stream_cons (n : Nat) (o : Option (List Str)) :
    (Handler.stream (n + 1) o).prog = .startRecv :: (Handler.stream n o).prog := by
  cases o <;> simp [Handler.prog, List.replicate_succ]

/-- Membership after one step of thread `i`. -/
theorem mem_set_append {ts sp : List (List Ins)} {i : Nat} {t0 r t : List Ins} (h : ts[i]? = some t0) :
    (t ∈ ts → t = t0 ∨ t ∈ ts.set i r ++ sp) ∧ r ∈ ts.set i r ++ sp := by
  have hi : i < ts.length := (List.getElem?_eq_some_iff.1 h).1
  constructor
  · intro ht
    obtain ⟨j, hj, rfl⟩ := List.mem_iff_getElem.1 ht
    by_cases hij : i = j
    · subst hij
      left
      exact (List.getElem?_eq_some_iff.1 h).2
    · right
      refine List.mem_append_left _ (List.mem_iff_getElem.2 ⟨j, by simpa using hj, ?_⟩)
      rw [List.getElem_set_ne hij]
  · exact List.mem_append_left _ (List.mem_set hi r)

theorem endsReceiving_head {shut : List Nat} {ins : Ins} {rest : List Ins}
    (h : EndsReceiving shut (ins :: rest)) :
    ins = .arm ∨ (∃ c, ins = .timer c ∧ c ∉ shut) ∨ ins = .startRecv ∨ ins = .checkFrom ∨ ins = .finishFrom := by
  rcases h with h | ⟨c, h, hc⟩ | ⟨n, o, h⟩ | h | ⟨v, h⟩ | h | ⟨v, h⟩
  · cases h; exact .inl rfl
  · cases h; exact .inr (.inl ⟨c, rfl, hc⟩)
  · refine .inr (.inr (.inl ?_))
    cases n with
    | zero => cases o <;> (simp [Handler.prog] at h; exact h.1)
    | succ n => rw [stream_cons] at h; cases h; rfl
  all_goals (cases h; simp)

theorem endsSending_head {host : Str} {ins : Ins} {rest : List Ins}
    (h : EndsSending host (ins :: rest)) :
    ins = .checkTo host ∨ ins = .finishTo ∨ ∃ v, ins = .save v ∧ rest = [.finishTo] := by
  rcases h with h | ⟨v, h⟩ | h | ⟨v, h⟩ | ⟨v, h⟩ <;> cases h <;> simp

/-- What a step must provide to keep the invariant. -/
theorem live_of {c : Cfg} {i : Nat} {t0 r : List Ins} {m' : Shared} {sp : List (List Ins)}
    (hL : Live c) (ht : c.threads[i]? = some t0) (hl : Left r) (hsp : ∀ t ∈ sp, Left t)
    (hf : ∀ x, (m'.recv = some x ∨ x ∈ m'.shut ∨ [Ins.timer x] ∈ c.threads ∨ [Ins.timer x] = r ∨
      [Ins.timer x] ∈ sp) → x < m'.next)
    (hS : m'.status = .sending → EndsSending m'.host r ∨
      (c.mem.status = .sending ∧ m'.host = c.mem.host ∧ ¬ EndsSending c.mem.host t0))
    (hR : m'.status = .receiving → EndsReceiving m'.shut r ∨ (∃ t ∈ sp, EndsReceiving m'.shut t) ∨
      (c.mem.status = .receiving ∧ m'.shut = c.mem.shut ∧ ¬ EndsReceiving c.mem.shut t0)) :
    Live ⟨m', c.threads.set i r ++ sp⟩ := by
  refine ⟨?_, ?_, ?_, ?_⟩
  · intro t htt
    rcases List.mem_append.1 htt with h | h
    · rcases List.mem_or_eq_of_mem_set h with h | h
      · exact hL.left t h
      · exact h ▸ hl
    · exact hsp t h
  · intro x hx
    refine hf x ?_
    rcases hx with h | h | h
    · exact .inl h
    · exact .inr (.inl h)
    · rcases List.mem_append.1 h with h | h
      · rcases List.mem_or_eq_of_mem_set h with h | h
        · exact .inr (.inr (.inl h))
        · exact .inr (.inr (.inr (.inl h)))
      · exact .inr (.inr (.inr (.inr h)))
  · intro hst
    rcases hS hst with h | ⟨h1, h2, h3⟩
    · exact ⟨r, (mem_set_append (t := r) ht).2, h⟩
    · obtain ⟨t, htm, hte⟩ := hL.sending h1
      rcases (mem_set_append (sp := sp) (r := r) ht).1 htm with rfl | h
      · exact absurd hte h3
      · exact ⟨t, h, by rw [h2]; exact hte⟩
  · intro hst
    rcases hR hst with h | ⟨t, h1, h2⟩ | ⟨h1, h2, h3⟩
    · exact ⟨r, (mem_set_append (t := r) ht).2, h⟩
    · exact ⟨t, List.mem_append_right _ h1, h2⟩
    · obtain ⟨t, htm, hte⟩ := hL.receiving h1
      rcases (mem_set_append (sp := sp) (r := r) ht).1 htm with rfl | h
      · exact absurd hte h3
      · exact ⟨t, h, by rw [h2]; exact hte⟩

/-- The channels of a step that makes none. -/
theorem fresh_same {c : Cfg} (hL : Live c) {m' : Shared} {r : List Ins}
    (h1 : m'.recv = c.mem.recv) (h2 : m'.shut = c.mem.shut) (h3 : m'.next = c.mem.next)
    (h4 : ∀ x, [Ins.timer x] ≠ r) (x : Nat)
    (hx : m'.recv = some x ∨ x ∈ m'.shut ∨ [Ins.timer x] ∈ c.threads ∨ [Ins.timer x] = r ∨
      [Ins.timer x] ∈ ([] : List (List Ins))) : x < m'.next := by
  rw [h3]
  rcases hx with h | h | h | h | h
  · exact hL.fresh x (.inl (h1 ▸ h))
  · exact hL.fresh x (.inr (.inl (h2 ▸ h)))
  · exact hL.fresh x (.inr (.inr h))
  · exact absurd h (h4 x)
  · cases h

/-- Closes the obligations of `live_of` about a sending server. -/
local macro "ls_tac" : tactic => `(tactic| (
  intro hst
  first
    | (simp at hst; done)
    | (simp_all; done)
    | (left; simp [EndsSending]; done)
    | (left; simp_all [EndsSending]; done)
    | exact .inr ⟨hst, rfl, fun h => by have := endsSending_head h; simp at this⟩
    | exact .inr ⟨hst, rfl, fun h => by have := endsSending_head h; simp_all⟩))

/-- Closes the obligations of `live_of` about a receiving server. -/
local macro "lr_tac" : tactic => `(tactic| (
  intro hst
  first
    | (simp at hst; done)
    | (simp_all; done)
    | (left; simp [EndsReceiving]; done)
    | (left; simp_all [EndsReceiving]; done)
    | exact .inr (.inr ⟨hst, rfl, fun h => by have := endsReceiving_head h; simp at this⟩)
    | exact .inr (.inr ⟨hst, rfl, fun h => by have := endsReceiving_head h; simp_all; done⟩)))

local macro "live_tac" hL:ident ht:ident l:term : tactic => `(tactic| (
  refine live_of $hL $ht $l (by simp) (fresh_same $hL rfl rfl rfl (by simp)) ?_ ?_
  · ls_tac
  · lr_tac))

theorem live_step {c c' : Cfg} {i : Nat} (hL : Live c) (hs : stepAt c i = some c') : Live c' := by
  obtain ⟨ins, rest, ht, hm, hth⟩ := mem_step hs
  obtain ⟨m', th'⟩ := c'
  simp only at hm hth
  subst hm hth
  have hl := hL.left _ (List.mem_of_getElem? ht)
  generalize h0 : ins :: rest = t0 at hl
  cases hl with
  | done => cases h0
  | send h s o =>
    cases o with
    | none =>
      cases h0
      simp only [exec]; split
      · live_tac hL ht (.checkTo h)
      · live_tac hL ht .done
    | some v =>
      cases h0
      simp only [exec]; split
      · live_tac hL ht (.checkToS h v)
      · live_tac hL ht .done
  | checkTo h =>
    cases h0
    simp only [exec]; split
    · live_tac hL ht .finTo
    · rename_i hn
      refine live_of hL ht .done (by simp) (fresh_same hL rfl rfl rfl (by simp)) ?_ ?_
      · intro hst
        refine .inr ⟨hst, rfl, fun h => ?_⟩
        have := endsSending_head h
        simp at this
        exact hn ⟨hst, this.symm⟩
      · lr_tac
  | checkToS h v =>
    cases h0
    simp only [exec]; split
    · live_tac hL ht (.finToS v)
    · rename_i hn
      refine live_of hL ht .done (by simp) (fresh_same hL rfl rfl rfl (by simp)) ?_ ?_
      · intro hst
        refine .inr ⟨hst, rfl, fun h => ?_⟩
        have := endsSending_head h
        simp at this
        exact hn ⟨hst, this.symm⟩
      · lr_tac
  | finTo =>
    cases h0
    simp only [exec]; split
    · live_tac hL ht .done
    · live_tac hL ht .done
  | finToS v =>
    cases h0
    simp only [exec]; split
    · live_tac hL ht (.savTo v)
    · live_tac hL ht (.savTo v)
  | savTo v =>
    cases h0
    simp only [exec]; split
    · live_tac hL ht .finTo
    · live_tac hL ht .finTo
  | prepare h s =>
    cases h0
    simp only [exec]; split
    · live_tac hL ht .arm
    · live_tac hL ht .done
  | arm =>
    cases h0
    simp only [exec]
    refine live_of hL ht .done (by simpa using .timer _) ?_ ?_ ?_
    · intro x hx
      simp only at hx ⊢
      rcases hx with h | h | h | h | h
      · cases h; omega
      · have := hL.fresh x (.inr (.inl h)); omega
      · have := hL.fresh x (.inr (.inr h)); omega
      · cases h
      · simp at h; omega
    · ls_tac
    · intro _
      refine .inr (.inl ⟨_, List.mem_singleton.2 rfl, .inr (.inl ⟨_, rfl, ?_⟩)⟩)
      intro hmem
      exact absurd (hL.fresh _ (.inr (.inl hmem))) (by omega)
  | timer x =>
    cases h0
    simp only [exec]; split
    · rename_i hsh
      refine live_of hL ht .done (by simp) (fresh_same hL rfl rfl rfl (by simp)) ?_ ?_
      · ls_tac
      · intro hst
        refine .inr (.inr ⟨hst, rfl, fun h => ?_⟩)
        have := endsReceiving_head h
        simp only [reduceCtorEq, false_or, or_false, Ins.timer.injEq, exists_eq_left'] at this
        exact this hsh
    · split
      · live_tac hL ht .done
      · live_tac hL ht .done
  | stream n o =>
    have tail : ins = .startRecv ∧ Left rest ∧ (∀ sh, EndsReceiving sh rest) ∧ ∀ x, [Ins.timer x] ≠ rest := by
      cases n with
      | zero =>
        cases o with
        | none => cases h0; exact ⟨rfl, .chkFrom, fun _ => by simp [EndsReceiving], by simp⟩
        | some v => cases h0; exact ⟨rfl, .chkFromS v, fun _ => by simp [EndsReceiving], by simp⟩
      | succ n =>
        rw [stream_cons] at h0
        cases h0
        refine ⟨rfl, .stream n o, fun _ => .inr (.inr (.inl ⟨n, o, rfl⟩)), ?_⟩
        intro x hx
        cases n with
        | zero => cases o <;> simp [Handler.prog] at hx
        | succ n => rw [stream_cons] at hx; cases hx
    obtain ⟨rfl, hl, he, hx⟩ := tail
    simp only [exec]
    split
    · rename_i ch hch
      refine live_of hL ht hl (by simp) ?_ ?_ (fun _ => .inl (he _))
      · intro x h
        simp only at h ⊢
        rcases h with h | h | h | h | h
        · cases h
        · rcases List.mem_cons.1 h with rfl | h
          · exact hL.fresh _ (.inl hch)
          · exact hL.fresh _ (.inr (.inl h))
        · exact hL.fresh _ (.inr (.inr h))
        · exact absurd h (hx x)
        · cases h
      · ls_tac
    · refine live_of hL ht hl (by simp) (fresh_same hL rfl rfl rfl hx) ?_ (fun _ => .inl (he _))
      ls_tac
  | chkFrom =>
    cases h0
    simp only [exec]; split
    · live_tac hL ht .finFrom
    · live_tac hL ht .done
  | chkFromS v =>
    cases h0
    simp only [exec]; split
    · live_tac hL ht (.finFromS v)
    · live_tac hL ht .done
  | finFrom =>
    cases h0
    simp only [exec]; split
    · live_tac hL ht .done
    · live_tac hL ht .done
  | finFromS v =>
    cases h0
    simp only [exec]; split
    · live_tac hL ht (.leader v)
    · live_tac hL ht (.leader v)
  | leader v =>
    cases h0
    simp only [exec]; split
    · live_tac hL ht .done
    · live_tac hL ht .done
  | close =>
    cases h0
    simp only [exec]; split
    · live_tac hL ht .done
    · live_tac hL ht .done

theorem live_reach {c : Cfg} (h : Reach Handlers c) : Live c := by
  induction h with
  | start =>
    exact ⟨by simp [Cfg.start], by simp [Cfg.start, Shared.start], by simp [Cfg.start, Shared.start],
      by simp [Cfg.start, Shared.start]⟩
  | @request c p _ hp ih =>
    obtain ⟨hd, rfl⟩ := hp
    refine ⟨?_, ?_, ?_, ?_⟩
    · intro t ht
      rcases List.mem_append.1 ht with h | h
      · exact ih.left t h
      · simp at h; exact h ▸ left_handler hd
    · intro x hx
      refine ih.fresh x ?_
      rcases hx with h | h | h
      · exact .inl h
      · exact .inr (.inl h)
      · rcases List.mem_append.1 h with h | h
        · exact .inr (.inr h)
        · exfalso
          simp at h
          cases hd with
          | send a b o => cases o <;> simp [Handler.prog] at h
          | prepare a b => simp [Handler.prog] at h
          | stream n o =>
            cases n with
            | zero => cases o <;> simp [Handler.prog] at h
            | succ n => rw [stream_cons] at h; cases h
          | leader v => simp [Handler.prog] at h
          | close => simp [Handler.prog] at h
    · intro hs
      obtain ⟨t, h1, h2⟩ := ih.sending hs
      exact ⟨t, List.mem_append_left _ h1, h2⟩
    · intro hs
      obtain ⟨t, h1, h2⟩ := ih.receiving hs
      exact ⟨t, List.mem_append_left _ h1, h2⟩
  | step _ hs ih => exact live_step ih hs

/-- **C31** (every path returns to idle; partial): with the methods of `HashSlotDB` uninterrupted,
whatever requests arrive and however they interleave, a server whose handlers and timers have all
ended is in no migration: it is idle or closed.

Missing: the methods are not uninterrupted, and between their statements a server can be left in a
migration for good, `C31_stuck_race`. -/
theorem C31_idle_when_quiet_partial {c : Cfg} (h : Reach Handlers c) (hq : Quiet c) :
    c.mem.status = .normal ∨ c.mem.status = .closed := by
  have hL := live_reach h
  cases hs : c.mem.status with
  | normal => exact .inl rfl
  | closed => exact .inr rfl
  | sending =>
    obtain ⟨t, h1, h2⟩ := hL.sending hs
    rw [hq t h1] at h2
    simp [EndsSending] at h2
  | receiving =>
    obtain ⟨t, h1, h2⟩ := hL.receiving hs
    rw [hq t h1] at h2
    exfalso
    rcases h2 with h | ⟨_, h, _⟩ | ⟨n, o, h⟩ | h | ⟨_, h⟩ | h | ⟨_, h⟩
    · cases h
    · cases h
    · cases n with
      | zero => cases o <;> simp [Handler.prog] at h
      | succ n => rw [stream_cons] at h; cases h
    all_goals cases h

/-- Steps a thread can still take (a preparation starts a timer). -/
def weight (t : List Ins) : Nat := (t.map fun i => match i with | .arm => 2 | _ => 1).sum

def load (c : Cfg) : Nat := (c.threads.map weight).sum

theorem weight_pos (t : List Ins) (h : t ≠ []) : 0 < weight t := by
  cases t with
  | nil => exact absurd rfl h
  | cons i t => simp only [weight, List.map_cons, List.sum_cons]; split <;> omega

theorem sum_set (ts : List (List Ins)) (i : Nat) (t0 r : List Ins) (h : ts[i]? = some t0) :
    ((ts.set i r).map weight).sum + weight t0 = (ts.map weight).sum + weight r := by
  induction ts generalizing i with
  | nil => simp at h
  | cons a ts ih =>
    cases i with
    | zero => simp at h; subst h; simp; omega
    | succ i =>
      simp at h
      have := ih i h
      simp only [List.set_cons_succ, List.map_cons, List.sum_cons]
      omega

theorem weight_rest (m : Shared) (rest : List Ins) (ins : Ins) :
    weight (exec m rest ins).2.1 ≤ weight rest := by
  have hd : weight (rest.drop 1) ≤ weight rest := by
    cases rest with
    | nil => simp
    | cons a l => simp [weight]
  cases ins <;> simp only [exec] <;> repeat' split
  all_goals first
    | exact Nat.le_refl _
    | exact hd
    | (simp [weight])

/-- **C31** (no handler runs for ever): without new requests only finitely many steps remain, and
as long as some thread has not ended one can be taken.  With `C31_idle_when_quiet_partial`: every
migration, successful, failed or timed out, ends and leaves the server idle. -/
theorem C31_ends (c : Cfg) :
    (∀ i c', stepAt c i = some c' → load c' < load c) ∧ (¬ Quiet c → ∃ i c', stepAt c i = some c') := by
  constructor
  · intro i c' hs
    obtain ⟨ins, rest, ht, hm, hth⟩ := mem_step hs
    have h1 := sum_set c.threads i (ins :: rest) (exec c.mem rest ins).2.1 ht
    have h2 := weight_rest c.mem rest ins
    simp only [load, hth, List.map_append, List.sum_append]
    rcases exec_spawn c.mem rest ins with h | ⟨h, rfl⟩
    · rw [h]
      have : weight rest < weight (ins :: rest) := by
        simp only [weight, List.map_cons, List.sum_cons]; split <;> omega
      simp only [List.map_nil, List.sum_nil]; omega
    · rw [h]
      have : weight (Ins.arm :: rest) = weight rest + 2 := by
        simp only [weight, List.map_cons, List.sum_cons]; omega
      have h3 : weight [Ins.timer c.mem.next] = 1 := rfl
      simp only [List.map_cons, List.map_nil, List.sum_cons, List.sum_nil, h3]; omega
  · intro hq
    have : ∃ t ∈ c.threads, t ≠ [] := by
      apply Classical.byContradiction
      intro hn
      exact hq fun t ht => Classical.byContradiction fun h => hn ⟨t, ht, h⟩
    obtain ⟨t, ht, hne⟩ := this
    obtain ⟨i, hi, rfl⟩ := List.mem_iff_getElem.1 ht
    cases hc : c.threads[i] with
    | nil => exact absurd hc hne
    | cons ins rest =>
      refine ⟨i, ⟨(exec c.mem rest ins).1, c.threads.set i (exec c.mem rest ins).2.1 ++ (exec c.mem rest ins).2.2⟩, ?_⟩
      simp [stepAt, List.getElem?_eq_getElem hi, hc]

/-- A receiving server with a stream that dies after one item: idle again, the timer gone. -/
example : ∃ c, runs ⟨.start, [(Handler.prepare exHost exSlots).prog, (Handler.stream 1 none).prog]⟩
      [0, 0, 1, 2, 1, 1, 1] = some c ∧ c.threads = [[], [], []] ∧ c.mem.status = .normal ∧
      c.mem.log = [.ended .receiving, .began .receiving exSlots] :=
  ⟨_, rfl, by decide⟩

/-- The same without any stream: the timeout. -/
example : ∃ c, runs ⟨.start, [(Handler.prepare exHost exSlots).prog]⟩ [0, 0, 1] = some c ∧
      c.threads = [[], []] ∧ c.mem.status = .normal :=
  ⟨_, rfl, by decide⟩

/-! ## Findings -/

/-- The full claim: the server is idle whenever nothing runs any more, for the methods as they
are. -/
def C31_idle_statement : Prop :=
  ∀ (progs : List (List Ins)) (sched : List Nat) (c : Cfg),
    (∀ p ∈ progs, ∃ h s, p = [.casTo s, .setMig h s, .checkTo h, .casToNormal, .clearMig]) →
    runs ⟨.start, progs⟩ sched = some c → Quiet c → c.mem.status = .normal

/-- **C31** (finding): two migrations (`StartMigration`, both failing in `AutoMigrate`), statement by
statement.  The first one ends and is interrupted in `FinishMigrateTo` before it clears
`migratingHost` (hashslot_db.go:138-139); the second one begins; the first one clears the host of the
second one, which then finds a different host at hashslot_service.go:227 and returns *before* the
`defer` of line 230.  The server stays in migrate-to for ever and refuses every write. -/
theorem C31_stuck_race : ¬ C31_idle_statement := by
  intro h
  have := h [[.casTo exSlots, .setMig exHost exSlots, .checkTo exHost, .casToNormal, .clearMig],
      [.casTo exSlots2, .setMig exHost2 exSlots2, .checkTo exHost2, .casToNormal, .clearMig]]
    [0, 0, 0, 0, 1, 1, 0, 1] _ (by
      intro p hp
      simp only [List.mem_cons, List.not_mem_nil, or_false] at hp
      rcases hp with rfl | rfl
      · exact ⟨_, _, rfl⟩
      · exact ⟨_, _, rfl⟩) rfl (by unfold Quiet; decide)
  revert this
  decide

/-- **C31** (finding): `AutoMigrate` calls `FinishMigrateTo` twice, at line 251 and deferred at line
230.  A migration that begins between the two (the first one is still writing its slots to etcd) is
ended by the deferred call of the first one: the server is idle, accepts writes, and the second
migration has not even begun to send. -/
theorem C31_deferred_finish :
    ∃ c, runs ⟨.start, [(Handler.send exHost exSlots (some [])).prog, (Handler.send exHost2 exSlots2 none).prog]⟩
        [0, 0, 0, 1, 1, 0, 0] = some c ∧
      c.mem.log = [.ended .sending, .began .sending exSlots2, .ended .sending, .began .sending exSlots] ∧
      c.mem.status = .normal ∧ [Ins.finishTo] ∈ c.threads :=
  ⟨_, rfl, by decide⟩

/-- **C31** (finding): nothing ties a stream to the migration it was prepared for.  The stream of a
migration that timed out before its first item is closed by its sender while the server is prepared
for another migration: the other migration ends at once, and the server publishes slots of which it
received nothing. -/
theorem C31_stream_ends_other :
    ∃ c, runs ⟨.start, [(Handler.prepare exHost exSlots).prog, (Handler.stream 0 (some exSlots2)).prog,
        (Handler.prepare exHost2 exSlots2).prog]⟩
        [0, 0, 3, 2, 2, 1, 1, 1, 1] = some c ∧
      c.mem.log = [.published exSlots2 .normal, .ended .receiving, .began .receiving exSlots2,
        .ended .receiving, .began .receiving exSlots] :=
  ⟨_, rfl, by decide⟩

end Verif.MigStatus
