import Verif.Api.Locate

/-!
# Locating as a whole (C104)

Both ends of locating and etcd between them: any number of uploads ask at the same time, each for the shards of its object
(`LocateObject`, src/apiserver/internal/usecase/service/object_service.go:64-109); every data server watches the one key on which all
of them ask (`NewLocator`, `StartLocate`, `handlerLocate`, src/objectserver/internal/usecase/service/locate.go:23-99) and answers on
the key of the request.  What a message says and how answers are counted is `Verif.Api.Locate` (C41).

Simplified: etcd hands the values put on a key to a watcher in the order of the puts, each once, beginning with the moment the watch
begins.  A server answers with its registered address, or the one it detects, which is fixed here.  `Exist` is the set of the files
of a server.  Time passes only by events.
-/

namespace Verif.Api.LocateSys
open Verif Verif.Api

/-! ## Model -/

/-- What does not change: the keys of the requests (`uuid.NewString`, object_service.go:69), the addresses of the data servers, and the
groups (clusters) that share the etcd. -/
structure Params where
  keyOf : Nat → Str
  addr : Nat → Str
  /-- the group of a data server, and of the API server of a request -/
  srvGroup : Nat → Nat
  rqGroup : Nat → Nat

/-- A call of `LocateObject`. -/
structure Rq where
  hash : Str
  n : Nat
  /-- messages put so far -/
  sent : Nat
  /-- answers taken so far -/
  got : Nat
  loc : List Str
  cnt : Nat
  res : Option Located
  /-- the deferred deletion of the key has been carried out -/
  closed : Bool
  deriving DecidableEq

structure Sys where
  /-- the values put on `LocationSubKey` ("good.fs.location", src/common/cst/etcd_prefix.go:24): no group is part of it -/
  log : List Str
  /-- the files of the data servers -/
  files : Nat → Str → Bool
  /-- the next value a watch delivers; `none` while a server does not watch -/
  pos : Nat → Option Nat
  /-- goroutines `handlerLocate` that have been started -/
  tasks : Nat → List Str
  rqs : Nat → Option Rq
  /-- the values put on a key -/
  puts : Str → List Str
  /-- the keys of requests that are in etcd -/
  keys : Str → Bool

def Sys.init (files : Nat → Str → Bool) : Sys :=
  ⟨[], files, fun _ => none, fun _ => [], fun _ => none, fun _ => [], fun _ => false⟩

def upd {α β : Type} [DecidableEq α] (f : α → β) (a : α) (b : β) : α → β := fun x => if x = a then b else f x

/-- The key for the answer, locate.go:78-83. -/
def respKey (message : Str) : Str := (splitOn '#' message).getLastD []

inductive Ev
  | start (r : Nat) (hash : Str) (n : Nat)
  | publish (r : Nat) (ok : Bool)
  | recv (r k : Nat)
  | giveUp (r : Nat)
  | close (r : Nat)
  | watch (d : Nat)
  | unwatch (d : Nat)
  | deliver (d : Nat)
  | handle (d i : Nat) (ok : Bool)
  | gain (d : Nat) (f : Str)
  | lose (d : Nat) (f : Str)
  | touch

/-- What happens; an event that cannot happen changes nothing. -/
def step (P : Params) (s : Sys) : Ev → Sys
  -- object_service.go:65-73; without shards the loop of lines 85-107 is not entered
  | .start r hash n =>
    match s.rqs r with
    | none => { s with rqs := upd s.rqs r (some ⟨hash, n, 0, 0, List.replicate n [], 0, if n = 0 then some (.found []) else none, false⟩) }
    | some _ => s
  -- lines 74-80: an error is only logged (`ok` says whether the value was put)
  | .publish r ok =>
    match s.rqs r with
    | some q =>
      if q.res = none ∧ q.sent < q.n then
        { s with log := if ok then s.log ++ [locateMsg q.hash q.sent (P.keyOf r)] else s.log,
                 rqs := upd s.rqs r (some { q with sent := q.sent + 1 }) }
      else s
    | none => s
  -- lines 85-102: the next `k` answers in one response
  | .recv r k =>
    match s.rqs r with
    | some q =>
      if q.res = none ∧ q.sent = q.n ∧ 0 < k ∧ q.got + k ≤ (s.puts (P.keyOf r)).length then
        match takeAnswers (((s.puts (P.keyOf r)).drop q.got).take k) (q.loc, q.cnt) with
        | none => { s with rqs := upd s.rqs r (some { q with res := some .panic }) }
        | some (loc, cnt) =>
          { s with rqs := upd s.rqs r (some { q with got := q.got + k, loc := loc, cnt := cnt,
                                                     res := if q.n ≤ cnt then some (.found loc) else none }) }
      else s
    | none => s
  -- lines 89-96 and 103-105
  | .giveUp r =>
    match s.rqs r with
    | some q => if q.res = none ∧ q.sent = q.n then { s with rqs := upd s.rqs r (some { q with res := some .notFound }) } else s
    | none => s
  -- line 71, at the end of the call
  | .close r =>
    match s.rqs r with
    | some q =>
      if q.res.isSome ∧ q.closed = false then
        { s with rqs := upd s.rqs r (some { q with closed := true }), keys := upd s.keys (P.keyOf r) false }
      else s
    | none => s
  -- locate.go:42, and again when the channel was closed (52-56): what was put in between is not delivered
  | .watch d => { s with pos := upd s.pos d (some s.log.length) }
  | .unwatch d => { s with pos := upd s.pos d none }
  -- lines 61-68
  | .deliver d =>
    match s.pos d with
    | some p =>
      match s.log[p]? with
      | some m => { s with pos := upd s.pos d (some (p + 1)), tasks := upd s.tasks d (s.tasks d ++ [m]) }
      | none => s
    | none => s
  -- lines 75-99; goroutines come to an end in any order
  | .handle d i ok =>
    match (s.tasks d)[i]? with
    | some m =>
      let s' := { s with tasks := upd s.tasks d ((s.tasks d).eraseIdx i) }
      match handlerLocate (s.files d) (P.addr d) m with
      | some a =>
        if ok then { s' with puts := upd s.puts (respKey m) (s.puts (respKey m) ++ [a]), keys := upd s.keys (respKey m) true } else s'
      | none => s'
    | none => s
  | .gain d f => { s with files := upd s.files d (upd (s.files d) f true) }
  | .lose d f => { s with files := upd s.files d (upd (s.files d) f false) }
  -- `NewLocator`, locate.go:23-35
  | .touch => { s with log := s.log ++ [[]] }

def run (P : Params) (s : Sys) (es : List Ev) : Sys := es.foldl (step P) s

/-! ## Specification -/

/-- The library: keys differ from each other and, like addresses, have no `#`. -/
structure Fine (P : Params) : Prop where
  inj : ∀ r r', P.keyOf r = P.keyOf r' → r = r'
  key : ∀ r, '#' ∉ P.keyOf r
  addr : ∀ d, '#' ∉ P.addr d

/-- Digests are hexadecimal (`UniqueHash`, object_service.go:56-62), the number of shards is an `int`. -/
def Ev.Proper : Ev → Prop
  | .start _ hash n => '#' ∉ hash ∧ '.' ∉ hash ∧ n ≤ 2 ^ 63
  | _ => True

/-- The file of shard `i`. -/
def shard (hash : Str) (i : Nat) : Str := hash ++ ['.'] ++ fmtNat i

/-- At some moment of the execution the request had begun and the server had the file. -/
def Had (P : Params) (s0 : Sys) (es : List Ev) (r d : Nat) (f : Str) : Prop :=
  ∃ es1 es2, es = es1 ++ es2 ∧ ((run P s0 es1).rqs r).isSome = true ∧ (run P s0 es1).files d f = true

/-- **C104**, the full statement: a successful search names, for each shard, a server of the own group that had the file during the
search, and leaves no key behind. -/
def C104_statement : Prop :=
  ∀ (P : Params) (files : Nat → Str → Bool) (es : List Ev), Fine P → (∀ e ∈ es, e.Proper) → ∀ r q loc,
    (run P (.init files) es).rqs r = some q → q.res = some (.found loc) →
      loc.length = q.n ∧
      (∀ i, i < q.n → ∃ d, loc[i]? = some (P.addr d) ∧ P.srvGroup d = P.rqGroup r ∧ Had P (.init files) es r d (shard q.hash i)) ∧
      (q.closed = true → (run P (.init files) es).keys (P.keyOf r) = false)

/-! ## Messages -/

theorem respKey_msg {hash key : Str} {i : Nat} (hh : '#' ∉ hash) (hk : '#' ∉ key) : respKey (locateMsg hash i key) = key := by
  have h1 : '#' ∉ hash ++ ['.'] ++ fmtNat i := by
    simp only [List.append_assoc, List.mem_append, List.mem_singleton, not_or]
    exact ⟨hh, by decide, digit_ne (by decide) i⟩
  unfold respKey locateMsg
  rw [List.append_assoc (hash ++ ['.'] ++ fmtNat i), List.singleton_append, splitOn_append h1, splitOn_of_not_mem hk]
  rfl

theorem answer_msg {holds : Str → Bool} {ip hash key a : Str} {i : Nat} (hi : i < 2 ^ 63) (hip : '#' ∉ ip) (hh : '#' ∉ hash)
    (hd : '.' ∉ hash) (hk : '#' ∉ key) (h : handlerLocate holds ip (locateMsg hash i key) = some a) :
    holds (shard hash i) = true ∧ parseResp a = some (ip, (i : Int)) := by
  have := C41_answer holds ip hash key i hi hip hh hd hk
  rw [h, Option.map_some] at this
  split at this
  · rename_i hx
    exact ⟨hx, by simpa using this⟩
  · cases this

theorem answer_none {holds : Str → Bool} {ip hash key : Str} {i : Nat} (hi : i < 2 ^ 63) (hip : '#' ∉ ip) (hh : '#' ∉ hash)
    (hd : '.' ∉ hash) (hk : '#' ∉ key) (h : handlerLocate holds ip (locateMsg hash i key) = none) : holds (shard hash i) = false := by
  have := C41_answer holds ip hash key i hi hip hh hd hk
  rw [h, Option.map_none] at this
  split at this
  · cases this
  · rename_i hx
    simpa [shard] using hx

theorem handler_nil (holds : Str → Bool) (ip : Str) : handlerLocate holds ip [] = none := rfl

theorem msg_inj {h h' k k' : Str} {i i' : Nat} (hh : '#' ∉ h) (hh' : '#' ∉ h') (hk : '#' ∉ k) (hk' : '#' ∉ k') (hd : '.' ∉ h)
    (hd' : '.' ∉ h') (e : locateMsg h i k = locateMsg h' i' k') : k = k' ∧ h = h' ∧ fmtNat i = fmtNat i' := by
  have h1 : '#' ∉ h ++ ['.'] ++ fmtNat i := by
    simp only [List.append_assoc, List.mem_append, List.mem_singleton, not_or]
    exact ⟨hh, by decide, digit_ne (by decide) i⟩
  have h2 : '#' ∉ h' ++ ['.'] ++ fmtNat i' := by
    simp only [List.append_assoc, List.mem_append, List.mem_singleton, not_or]
    exact ⟨hh', by decide, digit_ne (by decide) i'⟩
  have h3 := congrArg (splitOn '#') e
  unfold locateMsg at h3
  rw [List.append_assoc (h ++ ['.'] ++ fmtNat i), List.singleton_append, splitOn_append h1, splitOn_of_not_mem hk,
    List.append_assoc (h' ++ ['.'] ++ fmtNat i'), List.singleton_append, splitOn_append h2, splitOn_of_not_mem hk'] at h3
  simp only [List.cons.injEq, and_true] at h3
  obtain ⟨h4, h5⟩ := h3
  have h6 := congrArg (splitOn '.') h4
  rw [List.append_assoc, List.singleton_append, splitOn_append hd, splitOn_of_not_mem (digit_ne (by decide) i),
    List.append_assoc, List.singleton_append, splitOn_append hd', splitOn_of_not_mem (digit_ne (by decide) i')] at h6
  simp only [List.cons.injEq, and_true] at h6
  exact ⟨h5, h6.1, h6.2⟩

theorem fmtNat_inj {i j : Nat} (h : fmtNat i = fmtNat j) : i = j := by
  have := congrArg parseDigits h
  rw [parseDigits_fmtNat, parseDigits_fmtNat] at this
  simpa using this

/-! ## Invariant -/

theorem upd_same {α β : Type} [DecidableEq α] (f : α → β) (a : α) (b : β) : upd f a b a = b := by simp [upd]
theorem upd_ne {α β : Type} [DecidableEq α] (f : α → β) {a x : α} (b : β) (h : x ≠ a) : upd f a b x = f x := by simp [upd, h]

structure Inv (P : Params) (s : Sys) (H : Nat → Nat → Str → Prop) : Prop where
  name : ∀ r q, s.rqs r = some q → '#' ∉ q.hash ∧ '.' ∉ q.hash ∧ q.n ≤ 2 ^ 63
  sent : ∀ r q, s.rqs r = some q → q.sent ≤ q.n
  got : ∀ r q, s.rqs r = some q → q.got ≤ (s.puts (P.keyOf r)).length
  loc : ∀ r q, s.rqs r = some q → LocInv q.n ((s.puts (P.keyOf r)).take q.got) q.loc q.cnt
  found : ∀ r q l, s.rqs r = some q → q.res = some (.found l) → l = q.loc ∧ q.n ≤ q.cnt
  fine : ∀ r q, s.rqs r = some q → q.res ≠ some .panic
  closed : ∀ r q, s.rqs r = some q → q.closed = true → q.res.isSome = true
  log : ∀ m ∈ s.log, m = [] ∨ ∃ r q i, s.rqs r = some q ∧ i < q.sent ∧ m = locateMsg q.hash i (P.keyOf r)
  tasks : ∀ d, ∀ m ∈ s.tasks d, m ∈ s.log
  puts : ∀ r, ∀ a ∈ s.puts (P.keyOf r), ∃ q i d, s.rqs r = some q ∧ i < q.sent ∧ parseResp a = some (P.addr d, ((i : Nat) : Int)) ∧
    H r d (shard q.hash i)

theorem inv_init (P : Params) (files : Nat → Str → Bool) (H : Nat → Nat → Str → Prop) : Inv P (.init files) H := by
  constructor <;> simp [Sys.init]

/-- A batch of answers for shards that were asked for is taken. -/
theorem take_some {n : Nat} (l : List Str) (loc : List Str) (cnt : Nat) (hl : loc.length = n)
    (hr : ∀ r ∈ l, ∃ (ip : Str) (i : Nat), i < n ∧ parseResp r = some (ip, (i : Int))) :
    ∃ loc' cnt', takeAnswers l (loc, cnt) = some (loc', cnt') := by
  induction l generalizing loc cnt with
  | nil => exact ⟨loc, cnt, rfl⟩
  | cons r l ih =>
    obtain ⟨ip, i, hi, hp⟩ := hr r (by simp)
    unfold takeAnswers
    simp only [hp]
    rw [if_pos ⟨by omega, by omega⟩]
    exact ih _ _ (by simp [hl]) (fun x hx => hr x (by simp [hx]))

theorem inv_of_rqs {P : Params} {s : Sys} {H : Nat → Nat → Str → Prop} (h : Inv P s H) {r : Nat} {q q' : Rq} (hq : s.rqs r = some q)
    (e1 : q'.hash = q.hash) (e2 : q'.n = q.n) (e3 : q'.sent = q.sent) (g : q'.got ≤ (s.puts (P.keyOf r)).length)
    (l : LocInv q'.n ((s.puts (P.keyOf r)).take q'.got) q'.loc q'.cnt)
    (f : ∀ l, q'.res = some (.found l) → l = q'.loc ∧ q'.n ≤ q'.cnt) (p : q'.res ≠ some .panic) (c : q'.closed = true → q'.res.isSome = true)
    (s' : Sys) (x1 : s'.rqs = upd s.rqs r (some q')) (x2 : s'.log = s.log) (x3 : s'.tasks = s.tasks) (x4 : s'.puts = s.puts) :
    Inv P s' H := by
  have key : ∀ r' q1, s.rqs r' = some q1 → ∃ q2, s'.rqs r' = some q2 ∧ q2.hash = q1.hash ∧ q2.sent = q1.sent := by
    intro r' q1 h1
    by_cases hr : r' = r
    · subst hr
      rw [hq] at h1
      cases h1
      exact ⟨q', by rw [x1, upd_same], e1, e3⟩
    · exact ⟨q1, by rw [x1, upd_ne _ _ hr]; exact h1, rfl, rfl⟩
  have back : ∀ r' q1, s'.rqs r' = some q1 → (r' = r ∧ q1 = q') ∨ (r' ≠ r ∧ s.rqs r' = some q1) := by
    intro r' q1 h1
    by_cases hr : r' = r
    · subst hr
      rw [x1, upd_same] at h1
      cases h1
      exact .inl ⟨rfl, rfl⟩
    · rw [x1, upd_ne _ _ hr] at h1
      exact .inr ⟨hr, h1⟩
  have hn := h.name r q hq
  have hs := h.sent r q hq
  constructor
  · intro r' q1 h1
    rcases back r' q1 h1 with ⟨rfl, rfl⟩ | ⟨_, h2⟩
    · rw [e1, e2]; exact hn
    · exact h.name r' q1 h2
  · intro r' q1 h1
    rcases back r' q1 h1 with ⟨rfl, rfl⟩ | ⟨_, h2⟩
    · omega
    · exact h.sent r' q1 h2
  · intro r' q1 h1
    rw [x4]
    rcases back r' q1 h1 with ⟨rfl, rfl⟩ | ⟨_, h2⟩
    · exact g
    · exact h.got r' q1 h2
  · intro r' q1 h1
    rw [x4]
    rcases back r' q1 h1 with ⟨rfl, rfl⟩ | ⟨_, h2⟩
    · exact l
    · exact h.loc r' q1 h2
  · intro r' q1 l' h1
    rcases back r' q1 h1 with ⟨rfl, rfl⟩ | ⟨_, h2⟩
    · exact f l'
    · exact h.found r' q1 l' h2
  · intro r' q1 h1
    rcases back r' q1 h1 with ⟨rfl, rfl⟩ | ⟨_, h2⟩
    · exact p
    · exact h.fine r' q1 h2
  · intro r' q1 h1
    rcases back r' q1 h1 with ⟨rfl, rfl⟩ | ⟨_, h2⟩
    · exact c
    · exact h.closed r' q1 h2
  · intro m hm
    rw [x2] at hm
    rcases h.log m hm with h1 | ⟨r', q1, i, h1, h2, h3⟩
    · exact .inl h1
    · obtain ⟨q2, k1, k2, k3⟩ := key r' q1 h1
      exact .inr ⟨r', q2, i, k1, by omega, by rw [k2]; exact h3⟩
  · rw [x2, x3]; exact h.tasks
  · intro r' a ha
    rw [x4] at ha
    obtain ⟨q1, i, d, h1, h2, h3, h4⟩ := h.puts r' a ha
    obtain ⟨q2, k1, k2, k3⟩ := key r' q1 h1
    exact ⟨q2, i, d, k1, by omega, h3, by rw [k2]; exact h4⟩

theorem inv_step {P : Params} (hP : Fine P) {s : Sys} {H : Nat → Nat → Str → Prop} (h : Inv P s H) {e : Ev} (he : e.Proper)
    (hH : ∀ r d f, (s.rqs r).isSome = true → s.files d f = true → H r d f) : Inv P (step P s e) H := by
  cases e with
  | start r hash n =>
    unfold step
    dsimp only
    split
    · rename_i hr
      have np : s.puts (P.keyOf r) = [] := by
        cases hx : s.puts (P.keyOf r) with
        | nil => rfl
        | cons a l =>
          obtain ⟨q, i, d, h1, _⟩ := h.puts r a (by simp [hx])
          rw [hr] at h1; cases h1
      have back : ∀ r' q1, upd s.rqs r (some ⟨hash, n, 0, 0, List.replicate n [], 0, if n = 0 then some (.found []) else none, false⟩) r' = some q1 →
          (r' = r ∧ q1 = ⟨hash, n, 0, 0, List.replicate n [], 0, if n = 0 then some (.found []) else none, false⟩) ∨ s.rqs r' = some q1 := by
        intro r' q1 h1
        by_cases hr' : r' = r
        · subst hr'
          rw [upd_same] at h1
          cases h1
          exact .inl ⟨rfl, rfl⟩
        · rw [upd_ne _ _ hr'] at h1
          exact .inr h1
      have fwd : ∀ r' q1, s.rqs r' = some q1 → upd s.rqs r (some ⟨hash, n, 0, 0, List.replicate n [], 0, if n = 0 then some (.found []) else none, false⟩) r' = some q1 := by
        intro r' q1 h1
        rw [upd_ne]
        · exact h1
        · intro e; subst e; rw [hr] at h1; cases h1
      constructor
      · intro r' q1 h1
        rcases back r' q1 h1 with ⟨rfl, rfl⟩ | h2
        · exact he
        · exact h.name r' q1 h2
      · intro r' q1 h1
        rcases back r' q1 h1 with ⟨rfl, rfl⟩ | h2
        · exact Nat.zero_le _
        · exact h.sent r' q1 h2
      · intro r' q1 h1
        rcases back r' q1 h1 with ⟨rfl, rfl⟩ | h2
        · exact Nat.zero_le _
        · exact h.got r' q1 h2
      · intro r' q1 h1
        rcases back r' q1 h1 with ⟨rfl, rfl⟩ | h2
        · simpa using locInv_init n
        · exact h.loc r' q1 h2
      · intro r' q1 l h1
        rcases back r' q1 h1 with ⟨rfl, rfl⟩ | h2
        · intro hl
          dsimp only at hl ⊢
          split at hl
          · rename_i hn
            subst hn
            cases hl
            exact ⟨rfl, Nat.le_refl 0⟩
          · cases hl
        · exact h.found r' q1 l h2
      · intro r' q1 h1
        rcases back r' q1 h1 with ⟨rfl, rfl⟩ | h2
        · dsimp only
          split <;> simp
        · exact h.fine r' q1 h2
      · intro r' q1 h1
        rcases back r' q1 h1 with ⟨rfl, rfl⟩ | h2
        · intro hc; cases hc
        · exact h.closed r' q1 h2
      · intro m hm
        rcases h.log m hm with h1 | ⟨r', q1, i, h1, h2, h3⟩
        · exact .inl h1
        · exact .inr ⟨r', q1, i, fwd r' q1 h1, h2, h3⟩
      · exact h.tasks
      · intro r' a ha
        obtain ⟨q1, i, d, h1, h2, h3, h4⟩ := h.puts r' a ha
        exact ⟨q1, i, d, fwd r' q1 h1, h2, h3, h4⟩
    · exact h
  | publish r ok =>
    unfold step
    dsimp only
    split
    · rename_i q hr
      split
      · rename_i hc
        -- first the counter, then the message
        have back : ∀ r' q1, upd s.rqs r (some { q with sent := q.sent + 1 }) r' = some q1 →
            (r' = r ∧ q1 = { q with sent := q.sent + 1 }) ∨ s.rqs r' = some q1 := by
          intro r' q1 h1
          by_cases hr' : r' = r
          · subst hr'
            rw [upd_same] at h1
            cases h1
            exact .inl ⟨rfl, rfl⟩
          · rw [upd_ne _ _ hr'] at h1
            exact .inr h1
        have fwd : ∀ r' q1, s.rqs r' = some q1 → ∃ q2, upd s.rqs r (some { q with sent := q.sent + 1 }) r' = some q2 ∧ q2.hash = q1.hash ∧
            q1.sent ≤ q2.sent := by
          intro r' q1 h1
          by_cases hr' : r' = r
          · subst hr'
            rw [hr] at h1
            cases h1
            exact ⟨_, upd_same _ _ _, rfl, Nat.le_succ _⟩
          · exact ⟨q1, by rw [upd_ne _ _ hr']; exact h1, rfl, Nat.le_refl _⟩
        constructor
        · intro r' q1 h1
          rcases back r' q1 h1 with ⟨rfl, rfl⟩ | h2
          · exact h.name r' q hr
          · exact h.name r' q1 h2
        · intro r' q1 h1
          rcases back r' q1 h1 with ⟨rfl, rfl⟩ | h2
          · exact hc.2
          · exact h.sent r' q1 h2
        · intro r' q1 h1
          rcases back r' q1 h1 with ⟨rfl, rfl⟩ | h2
          · exact h.got r' q hr
          · exact h.got r' q1 h2
        · intro r' q1 h1
          rcases back r' q1 h1 with ⟨rfl, rfl⟩ | h2
          · exact h.loc r' q hr
          · exact h.loc r' q1 h2
        · intro r' q1 l h1
          rcases back r' q1 h1 with ⟨rfl, rfl⟩ | h2
          · exact h.found r' q l hr
          · exact h.found r' q1 l h2
        · intro r' q1 h1
          rcases back r' q1 h1 with ⟨rfl, rfl⟩ | h2
          · exact h.fine r' q hr
          · exact h.fine r' q1 h2
        · intro r' q1 h1
          rcases back r' q1 h1 with ⟨rfl, rfl⟩ | h2
          · exact h.closed r' q hr
          · exact h.closed r' q1 h2
        · intro m hm
          have hm' : m ∈ s.log ∨ m = locateMsg q.hash q.sent (P.keyOf r) := by
            dsimp only at hm
            split at hm
            · simpa using hm
            · exact .inl hm
          rcases hm' with hm | hm
          · rcases h.log m hm with h1 | ⟨r', q1, i, h1, h2, h3⟩
            · exact .inl h1
            · obtain ⟨q2, k1, k2, k3⟩ := fwd r' q1 h1
              exact .inr ⟨r', q2, i, k1, by omega, by rw [k2]; exact h3⟩
          · exact .inr ⟨r, _, q.sent, upd_same _ _ _, Nat.lt_succ_self _, hm⟩
        · intro d m hm
          have := h.tasks d m hm
          dsimp only
          split
          · simp [this]
          · exact this
        · intro r' a ha
          obtain ⟨q1, i, d, h1, h2, h3, h4⟩ := h.puts r' a ha
          obtain ⟨q2, k1, k2, k3⟩ := fwd r' q1 h1
          exact ⟨q2, i, d, k1, by omega, h3, by rw [k2]; exact h4⟩
      · exact h
    · exact h
  | recv r k =>
    unfold step
    dsimp only
    split
    · rename_i q hr
      split
      · rename_i hc
        obtain ⟨c1, c2, c3, c4⟩ := hc
        have hl := h.loc r q hr
        have ok : ∀ a ∈ ((s.puts (P.keyOf r)).drop q.got).take k, ∃ (ip : Str) (i : Nat), i < q.n ∧ parseResp a = some (ip, (i : Int)) := by
          intro a ha
          obtain ⟨q1, i, d, h1, h2, h3, _⟩ := h.puts r a (List.mem_of_mem_drop (List.mem_of_mem_take ha))
          rw [hr] at h1
          cases h1
          exact ⟨P.addr d, i, by omega, h3⟩
        obtain ⟨loc, cnt, ht⟩ := take_some _ q.loc q.cnt hl.len ok
        rw [ht]
        have hl' := takeAnswers_inv _ _ _ _ hl _ _ ht
        refine inv_of_rqs h (q' := { q with got := q.got + k, loc := loc, cnt := cnt, res := if q.n ≤ cnt then some (.found loc) else none })
          hr rfl rfl rfl c4 ?_ ?_ ?_ ?_ _ rfl rfl rfl rfl
        · dsimp only
          rw [List.take_add]
          exact hl'
        · intro l hx
          dsimp only at hx
          split at hx
          · cases hx; exact ⟨rfl, by assumption⟩
          · cases hx
        · dsimp only
          split <;> simp
        · intro hx
          have := h.closed r q hr hx
          rw [c1] at this
          cases this
      · exact h
    · exact h
  | giveUp r =>
    unfold step
    dsimp only
    split
    · rename_i q hr
      split
      · exact inv_of_rqs h (q' := { q with res := some .notFound }) hr rfl rfl rfl (h.got r q hr) (h.loc r q hr) (by intro l hx; cases hx) (by intro hx; cases hx) (fun _ => rfl) _ rfl rfl rfl rfl
      · exact h
    · exact h
  | close r =>
    unfold step
    dsimp only
    split
    · rename_i q hr
      split
      · rename_i hc
        exact inv_of_rqs h (q' := { q with closed := true }) hr rfl rfl rfl (h.got r q hr) (h.loc r q hr) (fun l => h.found r q l hr) (h.fine r q hr) (fun _ => hc.1) _ rfl rfl rfl rfl
      · exact h
    · exact h
  | watch d => exact ⟨h.name, h.sent, h.got, h.loc, h.found, h.fine, h.closed, h.log, h.tasks, h.puts⟩
  | unwatch d => exact ⟨h.name, h.sent, h.got, h.loc, h.found, h.fine, h.closed, h.log, h.tasks, h.puts⟩
  | gain d f => exact ⟨h.name, h.sent, h.got, h.loc, h.found, h.fine, h.closed, h.log, h.tasks, h.puts⟩
  | lose d f => exact ⟨h.name, h.sent, h.got, h.loc, h.found, h.fine, h.closed, h.log, h.tasks, h.puts⟩
  | touch =>
    refine ⟨h.name, h.sent, h.got, h.loc, h.found, h.fine, h.closed, ?_, ?_, h.puts⟩
    · intro m hm
      rcases List.mem_append.1 hm with hm | hm
      · exact h.log m hm
      · exact .inl (List.mem_singleton.1 hm)
    · intro d m hm
      exact List.mem_append_left _ (h.tasks d m hm)
  | deliver d =>
    unfold step
    dsimp only
    split
    · split
      · rename_i p hp m hm
        refine ⟨h.name, h.sent, h.got, h.loc, h.found, h.fine, h.closed, h.log, ?_, h.puts⟩
        intro d' x hx
        dsimp only at hx
        by_cases hd : d' = d
        · subst hd
          rw [upd_same] at hx
          rcases List.mem_append.1 hx with hx | hx
          · exact h.tasks d' x hx
          · rw [List.mem_singleton.1 hx]
            exact List.mem_of_getElem? hm
        · rw [upd_ne _ _ hd] at hx
          exact h.tasks d' x hx
      · exact h
    · exact h
  | handle d i ok =>
    unfold step
    dsimp only
    split
    · rename_i m hm
      have ht : ∀ d', ∀ x ∈ upd s.tasks d ((s.tasks d).eraseIdx i) d', x ∈ s.log := by
        intro d' x hx
        by_cases hd : d' = d
        · subst hd
          rw [upd_same] at hx
          exact h.tasks d' x (List.mem_of_mem_eraseIdx hx)
        · rw [upd_ne _ _ hd] at hx
          exact h.tasks d' x hx
      have base : Inv P { s with tasks := upd s.tasks d ((s.tasks d).eraseIdx i) } H :=
        ⟨h.name, h.sent, h.got, h.loc, h.found, h.fine, h.closed, h.log, ht, h.puts⟩
      split
      · rename_i a ha
        split
        · rcases h.log m (h.tasks d m (List.mem_of_getElem? hm)) with rfl | ⟨r, q, j, h1, h2, h3⟩
          · cases ha
          · have hn := h.name r q h1
            have hs := h.sent r q h1
            rw [h3] at ha
            obtain ⟨k1, k2⟩ := answer_msg (by omega) (hP.addr d) hn.1 hn.2.1 (hP.key r) ha
            have hk : respKey m = P.keyOf r := by rw [h3]; exact respKey_msg hn.1 (hP.key r)
            refine ⟨h.name, h.sent, ?_, ?_, h.found, h.fine, h.closed, h.log, ht, ?_⟩
            · intro r' q' h'
              have := h.got r' q' h'
              dsimp only
              by_cases hr : P.keyOf r' = respKey m
              · rw [hr, upd_same, ← hr]
                simp only [List.length_append]
                omega
              · rw [upd_ne _ _ hr]; exact this
            · intro r' q' h'
              have g := h.got r' q' h'
              have := h.loc r' q' h'
              dsimp only
              by_cases hr : P.keyOf r' = respKey m
              · rw [hr, upd_same, ← hr, List.take_append_of_le_length g]
                exact this
              · rw [upd_ne _ _ hr]; exact this
            · intro r' x hx
              dsimp only at hx ⊢
              by_cases hr : P.keyOf r' = respKey m
              · rw [hr, upd_same, ← hr] at hx
                rcases List.mem_append.1 hx with hx | hx
                · exact h.puts r' x hx
                · have : r' = r := hP.inj _ _ (hr.trans hk)
                  subst this
                  rw [List.mem_singleton.1 hx]
                  exact ⟨q, j, d, h1, h2, k2, hH r' d _ (by rw [h1]; rfl) k1⟩
              · rw [upd_ne _ _ hr] at hx
                exact h.puts r' x hx
        · exact base
      · exact base
    · exact h

theorem run_cons (P : Params) (s : Sys) (e : Ev) (es : List Ev) : run P s (e :: es) = run P (step P s e) es := rfl
theorem run_append (P : Params) (s : Sys) (a b : List Ev) : run P s (a ++ b) = run P (run P s a) b := List.foldl_append

theorem inv_run {P : Params} (hP : Fine P) {H : Nat → Nat → Str → Prop} (es : List Ev) (s : Sys) (h : Inv P s H)
    (he : ∀ e ∈ es, e.Proper)
    (hH : ∀ es1 es2, es = es1 ++ es2 → ∀ r d f, ((run P s es1).rqs r).isSome = true → (run P s es1).files d f = true → H r d f) :
    Inv P (run P s es) H := by
  induction es generalizing s with
  | nil => exact h
  | cons e es ih =>
    rw [run_cons]
    refine ih _ (inv_step hP h (he e (by simp)) (hH [] (e :: es) rfl)) (fun x hx => he x (by simp [hx])) ?_
    intro es1 es2 e1 r d f h1 h2
    exact hH (e :: es1) es2 (by rw [e1]; rfl) r d f h1 h2

theorem inv_had {P : Params} (hP : Fine P) (files : Nat → Str → Bool) (es : List Ev) (he : ∀ e ∈ es, e.Proper) :
    Inv P (run P (.init files) es) (Had P (.init files) es) :=
  inv_run hP es _ (inv_init P files _) he fun es1 es2 e _ _ _ h1 h2 => ⟨es1, es2, e, h1, h2⟩

/-! ## Who is named -/

/-- A search that succeeds names for a shard only a server that had the file during the search (and whose address it is), whatever
other searches, changes of files and failures happen at the same time; or nobody. -/
theorem C104_entries {P : Params} (hP : Fine P) (files : Nat → Str → Bool) (es : List Ev) (he : ∀ e ∈ es, e.Proper) (r : Nat) (q : Rq)
    (loc : List Str) (hq : (run P (.init files) es).rqs r = some q) (hf : q.res = some (.found loc)) :
    loc.length = q.n ∧
    ∀ i, i < q.n → loc[i]? = some [] ∨ ∃ d, loc[i]? = some (P.addr d) ∧ Had P (.init files) es r d (shard q.hash i) := by
  have h := inv_had hP files es he
  obtain ⟨rfl, _⟩ := h.found r q loc hq hf
  have hl := h.loc r q hq
  refine ⟨hl.len, fun i hi => ?_⟩
  rcases hl.entry i hi with ⟨ip, h1, a, h2, h3⟩ | ⟨h1, _⟩
  · obtain ⟨q', j, d, k1, k2, k3, k4⟩ := h.puts r a (List.mem_of_mem_take h2)
    rw [hq] at k1
    cases k1
    rw [h3] at k3
    simp only [Option.some.injEq, Prod.mk.injEq] at k3
    obtain ⟨k5, k6⟩ := k3
    have : i = j := by omega
    subst this
    exact .inr ⟨d, by rw [h1, k5], k4⟩
  · exact .inl h1

/-- The answers of data servers do not make a search panic. -/
theorem C104_no_panic {P : Params} (hP : Fine P) (files : Nat → Str → Bool) (es : List Ev) (he : ∀ e ∈ es, e.Proper) (r : Nat) (q : Rq)
    (hq : (run P (.init files) es).rqs r = some q) : q.res ≠ some .panic :=
  (inv_had hP files es he).fine r q hq

/-- What a search is for does not change. -/
theorem rq_step (P : Params) (s : Sys) (e : Ev) (r : Nat) (q : Rq) (h : s.rqs r = some q) :
    ∃ q', (step P s e).rqs r = some q' ∧ q'.hash = q.hash ∧ q'.n = q.n := by
  have same : ∃ q', s.rqs r = some q' ∧ q'.hash = q.hash ∧ q'.n = q.n := ⟨q, h, rfl, rfl⟩
  have put : ∀ r1 q1 q1', s.rqs r1 = some q1 → q1'.hash = q1.hash → q1'.n = q1.n →
      ∃ q', upd s.rqs r1 (some q1') r = some q' ∧ q'.hash = q.hash ∧ q'.n = q.n := by
    intro r1 q1 q1' h1 h2 h3
    by_cases hr : r = r1
    · subst hr
      rw [h] at h1
      cases h1
      exact ⟨q1', upd_same _ _ _, h2, h3⟩
    · exact ⟨q, by rw [upd_ne _ _ hr]; exact h, rfl, rfl⟩
  cases e with
  | start r1 hash n =>
    unfold step
    dsimp only
    split
    · rename_i h1
      refine ⟨q, ?_, rfl, rfl⟩
      dsimp only
      rw [upd_ne]
      · exact h
      · intro e; subst e; rw [h1] at h; cases h
    · exact same
  | publish r1 ok =>
    unfold step
    dsimp only
    split
    · rename_i q1 h1
      split
      · exact put r1 q1 _ h1 rfl rfl
      · exact same
    · exact same
  | recv r1 k =>
    unfold step
    dsimp only
    split
    · rename_i q1 h1
      split
      · split
        · exact put r1 q1 _ h1 rfl rfl
        · exact put r1 q1 _ h1 rfl rfl
      · exact same
    · exact same
  | giveUp r1 =>
    unfold step
    dsimp only
    split
    · rename_i q1 h1
      split
      · exact put r1 q1 _ h1 rfl rfl
      · exact same
    · exact same
  | close r1 =>
    unfold step
    dsimp only
    split
    · rename_i q1 h1
      split
      · exact put r1 q1 _ h1 rfl rfl
      · exact same
    · exact same
  | watch d => exact same
  | unwatch d => exact same
  | gain d f => exact same
  | lose d f => exact same
  | touch => exact same
  | deliver d =>
    unfold step
    dsimp only
    split
    · split <;> exact same
    · exact same
  | handle d i ok =>
    unfold step
    dsimp only
    split
    · split
      · split <;> exact same
      · exact same
    · exact same

theorem rq_run (P : Params) (es : List Ev) (s : Sys) (r : Nat) (q : Rq) (h : s.rqs r = some q) :
    ∃ q', (run P s es).rqs r = some q' ∧ q'.hash = q.hash ∧ q'.n = q.n := by
  induction es generalizing s q with
  | nil => exact ⟨q, h, rfl, rfl⟩
  | cons e es ih =>
    obtain ⟨q1, h1, h2, h3⟩ := rq_step P s e r q h
    obtain ⟨q2, k1, k2, k3⟩ := ih _ q1 h1
    exact ⟨q2, k1, k2.trans h2, k3.trans h3⟩

/-! ## Every message is handled at most once -/

/-- What a server has yet to be told. -/
def rest (s : Sys) (d : Nat) : List Str :=
  match s.pos d with
  | some p => s.log.drop p
  | none => []

/-- No message is handled twice by a server. -/
def Once (s : Sys) : Prop := ∀ d m, m ≠ [] → (s.tasks d).count m + (rest s d).count m ≤ 1

theorem rest_sub {s : Sys} {d : Nat} {m : Str} (h : m ∈ rest s d) : m ∈ s.log := by
  unfold rest at h
  split at h
  · exact List.mem_of_mem_drop h
  · cases h

/-- The message about to be put is new. -/
theorem fresh {P : Params} (hP : Fine P) {s : Sys} {H : Nat → Nat → Str → Prop} (h : Inv P s H) {r i : Nat} {q : Rq}
    (hr : s.rqs r = some q) (hi : q.sent ≤ i) : locateMsg q.hash i (P.keyOf r) ∉ s.log := by
  intro hm
  have hn := h.name r q hr
  rcases h.log _ hm with h1 | ⟨r', q', j, h1, h2, h3⟩
  · unfold locateMsg at h1
    simp at h1
  · have hn' := h.name r' q' h1
    obtain ⟨k1, k2, k3⟩ := msg_inj hn.1 hn'.1 (hP.key r) (hP.key r') hn.2.1 hn'.2.1 h3
    have := hP.inj _ _ k1
    subst this
    rw [hr] at h1
    cases h1
    have := fmtNat_inj k3
    omega

theorem once_congr {s s' : Sys} (h : Once s) (e1 : s'.log = s.log) (e2 : s'.pos = s.pos) (e3 : s'.tasks = s.tasks) : Once s' := by
  intro d m hm
  have : rest s' d = rest s d := by unfold rest; rw [e1, e2]
  rw [this, e3]
  exact h d m hm

theorem rest_push {s s' : Sys} {x : Str} (e1 : s'.log = s.log ++ [x]) (e2 : s'.pos = s.pos) (d : Nat) :
    rest s' d = rest s d ∨ rest s' d = rest s d ++ [x] := by
  unfold rest
  rw [e1, e2]
  cases s.pos d with
  | none => exact .inl rfl
  | some p =>
    dsimp only
    by_cases hp : p ≤ s.log.length
    · right
      rw [List.drop_append_of_le_length hp]
    · left
      rw [List.drop_eq_nil_of_le (by simp; omega), List.drop_eq_nil_of_le (by omega)]

theorem once_step {P : Params} (hP : Fine P) {s : Sys} {H : Nat → Nat → Str → Prop} (h : Inv P s H) (ho : Once s) (e : Ev) :
    Once (step P s e) := by
  cases e with
  | start r1 hash n =>
    unfold step
    dsimp only
    split
    · exact once_congr ho rfl rfl rfl
    · exact ho
  | publish r1 ok =>
    unfold step
    dsimp only
    split
    · rename_i q hr
      split
      · cases ok with
        | false => exact once_congr ho rfl rfl rfl
        | true =>
          intro d m hm
          have := ho d m hm
          rcases rest_push (s := s) (s' := { s with log := if true = true then s.log ++ [locateMsg q.hash q.sent (P.keyOf r1)] else s.log, rqs := upd s.rqs r1 (some { q with sent := q.sent + 1 }) }) rfl rfl d with e | e
          · rw [e]; exact this
          · rw [e, List.count_append]
            by_cases hx : m = locateMsg q.hash q.sent (P.keyOf r1)
            · have h1 := fresh hP h hr (Nat.le_refl q.sent)
              rw [← hx] at h1
              rw [List.count_eq_zero_of_not_mem (fun hy => h1 (h.tasks d m hy)), List.count_eq_zero_of_not_mem (fun hy => h1 (rest_sub hy)), hx]
              simp
            · rw [List.count_eq_zero_of_not_mem (l := [locateMsg q.hash q.sent (P.keyOf r1)]) (by simpa using hx)]
              exact this
      · exact ho
    · exact ho
  | recv r1 k =>
    unfold step
    dsimp only
    split
    · split
      · split <;> exact once_congr ho rfl rfl rfl
      · exact ho
    · exact ho
  | giveUp r1 =>
    unfold step
    dsimp only
    split
    · split
      · exact once_congr ho rfl rfl rfl
      · exact ho
    · exact ho
  | close r1 =>
    unfold step
    dsimp only
    split
    · split
      · exact once_congr ho rfl rfl rfl
      · exact ho
    · exact ho
  | watch d1 =>
    intro d m hm
    have := ho d m hm
    by_cases hd : d = d1
    · subst hd
      have : rest (step P s (.watch d)) d = [] := by simp [rest, step, upd_same]
      rw [this]
      simp only [List.count_nil, Nat.add_zero]
      have : (step P s (.watch d)).tasks = s.tasks := rfl
      rw [this]
      omega
    · have : rest (step P s (.watch d1)) d = rest s d := by simp [rest, step, upd_ne _ _ hd]
      rw [this]
      assumption
  | unwatch d1 =>
    intro d m hm
    have := ho d m hm
    by_cases hd : d = d1
    · subst hd
      have : rest (step P s (.unwatch d)) d = [] := by simp [rest, step, upd_same]
      rw [this]
      simp only [List.count_nil, Nat.add_zero]
      have : (step P s (.unwatch d)).tasks = s.tasks := rfl
      rw [this]
      omega
    · have : rest (step P s (.unwatch d1)) d = rest s d := by simp [rest, step, upd_ne _ _ hd]
      rw [this]
      assumption
  | gain d f => exact once_congr ho rfl rfl rfl
  | lose d f => exact once_congr ho rfl rfl rfl
  | touch =>
    intro d m hm
    have := ho d m hm
    rcases rest_push (s := s) (s' := step P s .touch) rfl rfl d with e | e
    · rw [e]; exact this
    · rw [e, List.count_append, List.count_eq_zero_of_not_mem (l := [[]]) (by simpa using hm)]
      exact this
  | deliver d1 =>
    unfold step
    dsimp only
    split
    · split
      · rename_i p hp _ x hx
        intro d m hm
        have := ho d m hm
        by_cases hd : d = d1
        · subst hd
          unfold rest at this ⊢
          dsimp only
          rw [upd_same, upd_same]
          rw [hp] at this
          dsimp only at this ⊢
          have e : s.log.drop p = x :: s.log.drop (p + 1) := by
            obtain ⟨hlt, hx'⟩ := List.getElem?_eq_some_iff.1 hx
            rw [List.drop_eq_getElem_cons hlt, hx']
          rw [e, List.count_cons] at this
          rw [List.count_append, List.count_singleton]
          omega
        · unfold rest at this ⊢
          dsimp only
          rw [upd_ne _ _ hd, upd_ne _ _ hd]
          exact this
      · exact ho
    · exact ho
  | handle d1 i ok =>
    have key : ∀ s' : Sys, s'.log = s.log → s'.pos = s.pos → s'.tasks = upd s.tasks d1 ((s.tasks d1).eraseIdx i) → Once s' := by
      intro s' e1 e2 e3 d m hm
      have := ho d m hm
      have er : rest s' d = rest s d := by unfold rest; rw [e1, e2]
      rw [er, e3]
      by_cases hd : d = d1
      · subst hd
        rw [upd_same]
        have : ((s.tasks d).eraseIdx i).count m ≤ (s.tasks d).count m := (List.eraseIdx_sublist _ _).count_le m
        omega
      · rw [upd_ne _ _ hd]
        exact this
    unfold step
    dsimp only
    split
    · split
      · split <;> exact key _ rfl rfl rfl
      · exact key _ rfl rfl rfl
    · exact ho

/-- With one holder for each shard of request `r`: what was answered is not pending, and is answered once. -/
structure Single (P : Params) (s : Sys) (H : Nat → Nat → Str → Prop) (r : Nat) : Prop where
  once : Once s
  nodup : ((s.puts (P.keyOf r)).map respIdx).Nodup
  done : ∀ q i d, s.rqs r = some q → H r d (shard q.hash i) → some ((i : Nat) : Int) ∈ (s.puts (P.keyOf r)).map respIdx →
    locateMsg q.hash i (P.keyOf r) ∉ s.tasks d ∧ locateMsg q.hash i (P.keyOf r) ∉ rest s d

theorem single_congr {P : Params} {s s' : Sys} {H : Nat → Nat → Str → Prop} {r : Nat} (h : Single P s H r) (e1 : s'.log = s.log)
    (e2 : s'.pos = s.pos) (e3 : s'.tasks = s.tasks) (e4 : s'.puts = s.puts)
    (e5 : ∀ q, s'.rqs r = some q → ∃ q', s.rqs r = some q' ∧ q'.hash = q.hash) : Single P s' H r := by
  refine ⟨once_congr h.once e1 e2 e3, by rw [e4]; exact h.nodup, ?_⟩
  intro q i d hq hH hm
  obtain ⟨q', h1, h2⟩ := e5 q hq
  have er : rest s' d = rest s d := by unfold rest; rw [e1, e2]
  rw [e4] at hm
  rw [e3, er, ← h2]
  exact h.done q' i d h1 (by rw [h2]; exact hH) hm

theorem single_step {P : Params} (hP : Fine P) {s : Sys} {H : Nat → Nat → Str → Prop} (h : Inv P s H) {r : Nat} {hash : Str}
    (hu : ∀ i d d', H r d (shard hash i) → H r d' (shard hash i) → d = d') (hr : ∀ q, s.rqs r = some q → q.hash = hash)
    (hH : ∀ r d f, (s.rqs r).isSome = true → s.files d f = true → H r d f) (hs : Single P s H r) (e : Ev) :
    Single P (step P s e) H r := by
  have ho := once_step hP h hs.once e
  have same : ∀ q, s.rqs r = some q → ∃ q', s.rqs r = some q' ∧ q'.hash = q.hash := fun q hq => ⟨q, hq, rfl⟩
  have put : ∀ r1 q1 q1', s.rqs r1 = some q1 → q1'.hash = q1.hash → ∀ q, upd s.rqs r1 (some q1') r = some q →
      ∃ q', s.rqs r = some q' ∧ q'.hash = q.hash := by
    intro r1 q1 q1' h1 h2 q h3
    by_cases hr : r = r1
    · subst hr
      rw [upd_same] at h3
      cases h3
      exact ⟨q1, h1, h2.symm⟩
    · rw [upd_ne _ _ hr] at h3
      exact ⟨q, h3, rfl⟩
  -- fewer messages pending
  have less : ∀ s' : Sys, Once s' → s'.puts = s.puts → (∀ q, s'.rqs r = some q → ∃ q', s.rqs r = some q' ∧ q'.hash = q.hash) →
      (∀ d m, m ∈ s'.tasks d ∨ m ∈ rest s' d → m ∈ s.tasks d ∨ m ∈ rest s d) → Single P s' H r := by
    intro s' o1 e4 e5 e6
    refine ⟨o1, by rw [e4]; exact hs.nodup, ?_⟩
    intro q i d hq hh hm
    obtain ⟨q', h1, h2⟩ := e5 q hq
    rw [e4] at hm
    rw [← h2] at hh ⊢
    obtain ⟨k1, k2⟩ := hs.done q' i d h1 hh hm
    exact ⟨fun hx => (e6 d _ (.inl hx)).elim k1 k2, fun hx => (e6 d _ (.inr hx)).elim k1 k2⟩
  cases e with
  | start r1 hash' n =>
    revert ho
    unfold step
    dsimp only
    split
    · rename_i h1
      intro ho
      refine ⟨ho, hs.nodup, ?_⟩
      intro q i d hq hh hm
      dsimp only at hq
      by_cases hr1 : r = r1
      · subst hr1
        obtain ⟨a, ha, _⟩ := List.mem_map.1 hm
        obtain ⟨q', _, _, k1, _⟩ := h.puts r a ha
        rw [h1] at k1; cases k1
      · rw [upd_ne _ _ hr1] at hq
        exact hs.done q i d hq hh hm
    · exact fun _ => hs
  | publish r1 ok =>
    revert ho
    unfold step
    dsimp only
    split
    · rename_i q1 h1
      split
      · intro ho
        cases ok with
        | false => exact single_congr hs rfl rfl rfl rfl (put r1 q1 _ h1 rfl)
        | true =>
          refine ⟨ho, hs.nodup, ?_⟩
          intro q i d hq hh hm
          obtain ⟨q', k1, k2⟩ := put r1 q1 { q1 with sent := q1.sent + 1 } h1 rfl q hq
          rw [← k2] at hh ⊢
          obtain ⟨k3, k4⟩ := hs.done q' i d k1 hh hm
          refine ⟨k3, ?_⟩
          rcases rest_push (s := s) (s' := { s with log := if true = true then s.log ++ [locateMsg q1.hash q1.sent (P.keyOf r1)] else s.log, rqs := upd s.rqs r1 (some { q1 with sent := q1.sent + 1 }) }) rfl rfl d with e | e
          · rw [e]; exact k4
          · rw [e]
            intro hx
            rcases List.mem_append.1 hx with hx | hx
            · exact k4 hx
            · have hn := h.name r q' k1
              have hn' := h.name r1 q1 h1
              obtain ⟨c1, c2, c3⟩ := msg_inj hn.1 hn'.1 (hP.key r) (hP.key r1) hn.2.1 hn'.2.1 (List.mem_singleton.1 hx)
              have := hP.inj _ _ c1
              subst this
              have c4 := fmtNat_inj c3
              obtain ⟨a, ha, hai⟩ := List.mem_map.1 hm
              obtain ⟨q2, j, d2, m1, m2, m3, _⟩ := h.puts r a ha
              rw [h1] at m1
              cases m1
              simp only [respIdx, m3, Option.map_some, Option.some.injEq] at hai
              omega
      · exact fun _ => hs
    · exact fun _ => hs
  | recv r1 k =>
    revert ho
    unfold step
    dsimp only
    split
    · rename_i q1 h1
      split
      · split
        · exact fun _ => single_congr hs rfl rfl rfl rfl (put r1 q1 _ h1 rfl)
        · exact fun _ => single_congr hs rfl rfl rfl rfl (put r1 q1 _ h1 rfl)
      · exact fun _ => hs
    · exact fun _ => hs
  | giveUp r1 =>
    revert ho
    unfold step
    dsimp only
    split
    · rename_i q1 h1
      split
      · exact fun _ => single_congr hs rfl rfl rfl rfl (put r1 q1 _ h1 rfl)
      · exact fun _ => hs
    · exact fun _ => hs
  | close r1 =>
    revert ho
    unfold step
    dsimp only
    split
    · rename_i q1 h1
      split
      · exact fun _ => single_congr hs rfl rfl rfl rfl (put r1 q1 _ h1 rfl)
      · exact fun _ => hs
    · exact fun _ => hs
  | watch d1 =>
    refine less _ ho rfl same fun d m hm => ?_
    by_cases hd : d = d1
    · subst hd
      have : rest (step P s (.watch d)) d = [] := by simp [rest, step, upd_same]
      rw [this] at hm
      rcases hm with hm | hm
      · exact .inl hm
      · cases hm
    · have : rest (step P s (.watch d1)) d = rest s d := by simp [rest, step, upd_ne _ _ hd]
      rw [this] at hm
      exact hm
  | unwatch d1 =>
    refine less _ ho rfl same fun d m hm => ?_
    by_cases hd : d = d1
    · subst hd
      have : rest (step P s (.unwatch d)) d = [] := by simp [rest, step, upd_same]
      rw [this] at hm
      rcases hm with hm | hm
      · exact .inl hm
      · cases hm
    · have : rest (step P s (.unwatch d1)) d = rest s d := by simp [rest, step, upd_ne _ _ hd]
      rw [this] at hm
      exact hm
  | gain d f => exact single_congr hs rfl rfl rfl rfl same
  | lose d f => exact single_congr hs rfl rfl rfl rfl same
  | touch =>
    refine ⟨ho, hs.nodup, ?_⟩
    intro q i d hq hh hm
    obtain ⟨k1, k2⟩ := hs.done q i d hq hh hm
    refine ⟨k1, ?_⟩
    rcases rest_push (s := s) (s' := step P s .touch) rfl rfl d with e | e
    · rw [e]; exact k2
    · rw [e]
      intro hx
      rcases List.mem_append.1 hx with hx | hx
      · exact k2 hx
      · have := List.mem_singleton.1 hx
        unfold locateMsg at this
        simp at this
  | deliver d1 =>
    revert ho
    unfold step
    dsimp only
    split
    · split
      · rename_i p hp _ x hx
        intro ho
        refine less _ ho rfl same fun d m hm => ?_
        by_cases hd : d = d1
        · subst hd
          unfold rest at hm ⊢
          dsimp only at hm
          rw [upd_same, upd_same] at hm
          rw [hp]
          dsimp only at hm ⊢
          have e : s.log.drop p = x :: s.log.drop (p + 1) := by
            obtain ⟨hlt, hx'⟩ := List.getElem?_eq_some_iff.1 hx
            rw [List.drop_eq_getElem_cons hlt, hx']
          rw [e]
          simp only [List.mem_append, List.mem_cons, List.not_mem_nil, or_false] at hm ⊢
          rcases hm with (hm | hm) | hm
          · exact .inl hm
          · exact .inr (.inl hm)
          · exact .inr (.inr hm)
        · unfold rest at hm ⊢
          dsimp only at hm
          rw [upd_ne _ _ hd, upd_ne _ _ hd] at hm
          exact hm
      · exact fun _ => hs
    · exact fun _ => hs
  | handle d1 i ok =>
    have sub : ∀ d m, m ∈ upd s.tasks d1 ((s.tasks d1).eraseIdx i) d → m ∈ s.tasks d := by
      intro d m hm
      by_cases hd : d = d1
      · subst hd
        rw [upd_same] at hm
        exact List.mem_of_mem_eraseIdx hm
      · rw [upd_ne _ _ hd] at hm
        exact hm
    revert ho
    unfold step
    dsimp only
    split
    · rename_i m hm
      split
      · rename_i a ha
        split
        · intro ho
          rcases h.log m (h.tasks d1 m (List.mem_of_getElem? hm)) with rfl | ⟨r1, q1, j, h1, h2, h3⟩
          · cases ha
          · have hn := h.name r1 q1 h1
            have hs1 := h.sent r1 q1 h1
            have ha' := ha
            rw [h3] at ha'
            obtain ⟨k1, k2⟩ := answer_msg (by omega) (hP.addr d1) hn.1 hn.2.1 (hP.key r1) ha'
            have hk : respKey m = P.keyOf r1 := by rw [h3]; exact respKey_msg hn.1 (hP.key r1)
            by_cases hr1 : r = r1
            · subst hr1
              have hx : respIdx a = some (j : Int) := by simp [respIdx, k2]
              have hHr := hH r d1 _ (by rw [h1]; rfl) k1
              have hmem : locateMsg q1.hash j (P.keyOf r) ∈ s.tasks d1 := by
                rw [← h3]; exact List.mem_of_getElem? hm
              have hnew : some (j : Int) ∉ (s.puts (P.keyOf r)).map respIdx := fun hx => (hs.done q1 j d1 h1 hHr hx).1 hmem
              refine ⟨ho, ?_, ?_⟩
              · dsimp only
                rw [hk, upd_same, List.map_append, List.nodup_append]
                refine ⟨hs.nodup, by simp, ?_⟩
                intro x hx1 y hy1 e
                simp only [List.map_cons, List.map_nil, List.mem_singleton] at hy1
                rw [e, hy1, hx] at hx1
                exact hnew hx1
              · intro q i' d hq hh hmm
                dsimp only at hq hmm ⊢
                rw [h1] at hq
                cases hq
                rw [hk, upd_same, List.map_append] at hmm
                rcases List.mem_append.1 hmm with hmm | hmm
                · obtain ⟨c1, c2⟩ := hs.done q1 i' d h1 hh hmm
                  exact ⟨fun hx => c1 (sub d _ hx), c2⟩
                · simp only [List.map_cons, List.map_nil, List.mem_singleton, hx, Option.some.injEq] at hmm
                  have : i' = j := by omega
                  subst this
                  have hh1 := hr q1 h1
                  have : d = d1 := hu i' d d1 (by rw [← hh1]; exact hh) (by rw [← hh1]; exact hHr)
                  subst this
                  have o := hs.once d _ (show locateMsg q1.hash i' (P.keyOf r) ≠ [] by unfold locateMsg; simp)
                  have c1 : 0 < (s.tasks d).count (locateMsg q1.hash i' (P.keyOf r)) := List.count_pos_iff.2 hmem
                  refine ⟨?_, fun hx => ?_⟩
                  · rw [upd_same]
                    obtain ⟨hlt, hget⟩ := List.getElem?_eq_some_iff.1 hm
                    have hp : (s.tasks d).count (locateMsg q1.hash i' (P.keyOf r)) =
                        (((s.tasks d)[i] :: (s.tasks d).eraseIdx i)).count (locateMsg q1.hash i' (P.keyOf r)) :=
                      ((List.getElem_cons_eraseIdx_perm hlt).count_eq _).symm
                    rw [hget, h3, List.count_cons_self] at hp
                    intro hx
                    have := List.count_pos_iff.2 hx
                    omega
                  · have := List.count_pos_iff.2 hx
                    have : 0 < (rest s d).count (locateMsg q1.hash i' (P.keyOf r)) := this
                    omega
            · have hne : P.keyOf r ≠ respKey m := fun e => hr1 (hP.inj _ _ (e.trans hk))
              refine ⟨ho, ?_, ?_⟩
              · dsimp only
                rw [upd_ne _ _ hne]; exact hs.nodup
              · intro q i' d hq hh hmm
                dsimp only at hq hmm ⊢
                rw [upd_ne _ _ hne] at hmm
                obtain ⟨c1, c2⟩ := hs.done q i' d hq hh hmm
                exact ⟨fun hx => c1 (sub d _ hx), c2⟩
        · exact fun ho => less _ ho rfl same fun d x hx => hx.elim (fun y => .inl (sub d x y)) .inr
      · exact fun ho => less _ ho rfl same fun d x hx => hx.elim (fun y => .inl (sub d x y)) .inr
    · exact fun _ => hs

theorem single_run {P : Params} (hP : Fine P) {H : Nat → Nat → Str → Prop} {r : Nat} {hash : Str}
    (hu : ∀ i d d', H r d (shard hash i) → H r d' (shard hash i) → d = d') (es : List Ev) (s : Sys) (h : Inv P s H) (hs : Single P s H r)
    (he : ∀ e ∈ es, e.Proper) (hr : ∀ q, (run P s es).rqs r = some q → q.hash = hash) (hx : ((run P s es).rqs r).isSome = true)
    (hH : ∀ es1 es2, es = es1 ++ es2 → ∀ r d f, ((run P s es1).rqs r).isSome = true → (run P s es1).files d f = true → H r d f) :
    Single P (run P s es) H r := by
  induction es generalizing s with
  | nil => exact hs
  | cons e es ih =>
    rw [run_cons]
    have hr0 : ∀ q, s.rqs r = some q → q.hash = hash := by
      intro q hq
      obtain ⟨q', h1, h2, _⟩ := rq_run P (e :: es) s r q hq
      rw [← h2]
      exact hr q' h1
    refine ih _ (inv_step hP h (he e (by simp)) (hH [] (e :: es) rfl))
      (single_step hP h hu hr0 (hH [] (e :: es) rfl) hs e) (fun x hx => he x (by simp [hx])) hr hx ?_
    intro es1 es2 e1 r d f h1 h2
    exact hH (e :: es1) es2 (by rw [e1]; rfl) r d f h1 h2

/-- **C104, the part that holds**: when, during the search, no two servers have the same shard of the object, a search that succeeds
names for every shard a server that had it during the search; nobody is missing.  Missing for the full statement: two servers with the
same shard (`C104_shard_missed`), servers of other groups (`C104_other_group`), and answers after the end of the search
(`C104_left_over`). -/
theorem C104_all_named_partial {P : Params} (hP : Fine P) (files : Nat → Str → Bool) (es : List Ev) (he : ∀ e ∈ es, e.Proper) (r : Nat)
    (q : Rq) (loc : List Str) (hq : (run P (.init files) es).rqs r = some q) (hf : q.res = some (.found loc))
    (hu : ∀ i d d', Had P (.init files) es r d (shard q.hash i) → Had P (.init files) es r d' (shard q.hash i) → d = d') :
    loc.length = q.n ∧ ∀ i, i < q.n → ∃ d, loc[i]? = some (P.addr d) ∧ Had P (.init files) es r d (shard q.hash i) := by
  have h := inv_had hP files es he
  have hs : Single P (run P (.init files) es) (Had P (.init files) es) r := by
    refine single_run hP hu es _ (inv_init P files _) ⟨?_, by simp [Sys.init], by simp [Sys.init]⟩ he ?_ (by rw [hq]; rfl)
      fun es1 es2 e _ _ _ h1 h2 => ⟨es1, es2, e, h1, h2⟩
    · intro d m _
      simp [Sys.init, rest]
    · intro q' h1
      rw [hq] at h1
      cases h1
      rfl
  obtain ⟨rfl, hc⟩ := h.found r q loc hq hf
  have hl := h.loc r q hq
  refine ⟨hl.len, fun i hi => ?_⟩
  have hidx : ∀ a ∈ (run P (.init files) es).puts (P.keyOf r) |>.take q.got, ∃ j : Nat, j < q.n ∧ respIdx a = some (j : Int) := by
    intro a ha
    obtain ⟨ip, j, hj, hp⟩ := hl.ok a ha
    exact ⟨j, hj, by simp [respIdx, hp]⟩
  let used := ((run P (.init files) es).puts (P.keyOf r)).take q.got
  have hnd : (used.map respIdx).Nodup := by
    have : used.map respIdx = (((run P (.init files) es).puts (P.keyOf r)).map respIdx).take q.got := by simp [used, List.map_take]
    rw [this]
    exact (List.take_sublist _ _).nodup hs.nodup
  let f : Str → Nat := fun a => ((respIdx a).getD 0).toNat
  have hf' : ∀ a ∈ used, respIdx a = some (f a : Int) ∧ f a < q.n := by
    intro a ha
    obtain ⟨j, hj, hp⟩ := hidx a ha
    have : f a = j := by simp [f, hp]
    exact ⟨by rw [this]; exact hp, by omega⟩
  have hnf : (used.map f).Nodup := by
    rw [List.nodup_iff_pairwise_ne, List.pairwise_map] at hnd ⊢
    refine hnd.imp_of_mem ?_
    intro a b ha hb hab hx
    exact hab (by rw [(hf' a ha).1, (hf' b hb).1, hx])
  have hall := all_below (used.map f) hnf (by
    intro x hx
    obtain ⟨a, ha, rfl⟩ := List.mem_map.1 hx
    exact (hf' a ha).2) (by rw [List.length_map]; exact hl.cnt_ ▸ hc) i hi
  obtain ⟨a, ha, hai⟩ := List.mem_map.1 hall
  rcases hl.entry i hi with ⟨ip, h1, b, h2, h3⟩ | ⟨_, h2⟩
  · obtain ⟨q', j, d, k1, k2, k3, k4⟩ := h.puts r b (List.mem_of_mem_take h2)
    rw [hq] at k1
    cases k1
    rw [h3] at k3
    simp only [Option.some.injEq, Prod.mk.injEq] at k3
    obtain ⟨k5, k6⟩ := k3
    have : i = j := by omega
    subst this
    exact ⟨d, by rw [h1, k5], k4⟩
  · exfalso
    obtain ⟨ip, j, hj, hp⟩ := hl.ok a ha
    have e := (hf' a ha).1
    simp only [respIdx, hp, Option.map_some, Option.some.injEq] at e
    exact h2 ip ⟨a, ha, by rw [hp]; congr 2; omega⟩

/-! ## A search that nothing disturbs succeeds -/

/-- The event does not disturb request `r` at server `d` with file `f`: nothing fails to be put, the server goes on watching and keeps
the file, and the search is not given up. -/
def Ev.Calm (r d : Nat) (f : Str) : Ev → Prop
  | .publish r' ok => r' = r → ok = true
  | .handle d' _ ok => d' = d → ok = true
  | .watch d' => d' ≠ d
  | .unwatch d' => d' ≠ d
  | .lose d' f' => ¬ (d' = d ∧ f' = f)
  | .giveUp r' => r' ≠ r
  | _ => True

theorem pos_step (P : Params) (s : Sys) (e : Ev) (h : ∀ d p, s.pos d = some p → p ≤ s.log.length) :
    ∀ d p, (step P s e).pos d = some p → p ≤ (step P s e).log.length := by
  cases e with
  | start r1 hash n => unfold step; dsimp only; split <;> exact h
  | publish r1 ok =>
    unfold step
    dsimp only
    split
    · split
      · intro d p hp
        have := h d p hp
        dsimp only
        split
        · simp; omega
        · exact this
      · exact h
    · exact h
  | recv r1 k => unfold step; dsimp only; (repeat' split) <;> exact h
  | giveUp r1 => unfold step; dsimp only; (repeat' split) <;> exact h
  | close r1 => unfold step; dsimp only; (repeat' split) <;> exact h
  | watch d1 =>
    intro d p hp
    by_cases hd : d = d1
    · subst hd
      simp only [step, upd_same, Option.some.injEq] at hp
      simp [step, ← hp]
    · simp only [step, upd_ne _ _ hd] at hp
      exact h d p hp
  | unwatch d1 =>
    intro d p hp
    by_cases hd : d = d1
    · subst hd
      simp [step, upd_same] at hp
    · simp only [step, upd_ne _ _ hd] at hp
      exact h d p hp
  | gain d f => exact h
  | lose d f => exact h
  | touch =>
    intro d p hp
    have := h d p hp
    simp [step]; omega
  | deliver d1 =>
    unfold step
    dsimp only
    split
    · split
      · rename_i p0 hp0 _ x hx
        intro d p hp
        dsimp only at hp ⊢
        by_cases hd : d = d1
        · subst hd
          rw [upd_same] at hp
          obtain ⟨hlt, _⟩ := List.getElem?_eq_some_iff.1 hx
          cases hp
          omega
        · rw [upd_ne _ _ hd] at hp
          exact h d p hp
      · exact h
    · exact h
  | handle d1 i ok => unfold step; dsimp only; (repeat' split) <;> exact h

theorem pos_run (P : Params) (es : List Ev) (s : Sys) (h : ∀ d p, s.pos d = some p → p ≤ s.log.length) :
    ∀ d p, (run P s es).pos d = some p → p ≤ (run P s es).log.length := by
  induction es generalizing s with
  | nil => exact h
  | cons e es ih => exact ih _ (pos_step P s e h)

/-- Where the question for shard `i` is, as far as server `d` is concerned. -/
structure Pend (P : Params) (s : Sys) (r d i : Nat) (hash : Str) : Prop where
  files : s.files d (shard hash i) = true
  pos : ∃ p, s.pos d = some p ∧ p ≤ s.log.length
  msg : ∀ q, s.rqs r = some q → q.hash = hash → i < q.sent →
    locateMsg hash i (P.keyOf r) ∈ rest s d ∨ locateMsg hash i (P.keyOf r) ∈ s.tasks d ∨
      ∃ a ∈ s.puts (P.keyOf r), parseResp a = some (P.addr d, ((i : Nat) : Int))

theorem pend_step {P : Params} (hP : Fine P) {s : Sys} {H : Nat → Nat → Str → Prop} (h : Inv P s H) {r d i : Nat} {hash : Str}
    {q0 : Rq} (hq : s.rqs r = some q0) (hh : q0.hash = hash) (hp : Pend P s r d i hash) {e : Ev} (he : e.Calm r d (shard hash i)) :
    Pend P (step P s e) r d i hash := by
  obtain ⟨p, hp1, hp2⟩ := hp.pos
  have congr : ∀ s' : Sys, s'.files = s.files → s'.pos = s.pos → s'.log = s.log → s'.tasks = s.tasks → s'.puts = s.puts →
      (∀ q, s'.rqs r = some q → ∃ q', s.rqs r = some q' ∧ q'.hash = q.hash ∧ q'.sent = q.sent) → Pend P s' r d i hash := by
    intro s' e1 e2 e3 e4 e5 e6
    have er : rest s' d = rest s d := by unfold rest; rw [e2, e3]
    refine ⟨by rw [e1]; exact hp.files, by rw [e2, e3]; exact hp.pos, ?_⟩
    intro q h1 h2 h3
    obtain ⟨q', k1, k2, k3⟩ := e6 q h1
    rw [er, e4, e5]
    exact hp.msg q' k1 (k2.trans h2) (by omega)
  have put : ∀ r1 q1 q1', s.rqs r1 = some q1 → q1'.hash = q1.hash → q1'.sent = q1.sent → ∀ q, upd s.rqs r1 (some q1') r = some q →
      ∃ q', s.rqs r = some q' ∧ q'.hash = q.hash ∧ q'.sent = q.sent := by
    intro r1 q1 q1' h1 h2 h3 q h4
    by_cases hr : r = r1
    · subst hr
      rw [upd_same] at h4
      cases h4
      exact ⟨q1, h1, h2.symm, h3.symm⟩
    · rw [upd_ne _ _ hr] at h4
      exact ⟨q, h4, rfl, rfl⟩
  cases e with
  | start r1 hash' n =>
    unfold step
    dsimp only
    split
    · rename_i h1
      refine congr _ rfl rfl rfl rfl rfl ?_
      intro q hx
      dsimp only at hx
      by_cases hr : r = r1
      · subst hr
        rw [hq] at h1; cases h1
      · rw [upd_ne _ _ hr] at hx
        exact ⟨q, hx, rfl, rfl⟩
    · exact hp
  | publish r1 ok =>
    unfold step
    dsimp only
    split
    · rename_i q1 h1
      split
      · rename_i hc
        have push : ∀ s' : Sys, s'.pos = s.pos → (s'.log = s.log ∨ ∃ x, s'.log = s.log ++ [x]) → ∀ m, m ∈ rest s d → m ∈ rest s' d := by
          intro s' e1 e2 m hm
          rcases e2 with e2 | ⟨x, e2⟩
          · unfold rest at hm ⊢
            rw [e1, e2]; exact hm
          · rcases rest_push e2 e1 d with e | e <;> rw [e]
            · exact hm
            · exact List.mem_append_left _ hm
        refine ⟨hp.files, ⟨p, hp1, ?_⟩, ?_⟩
        · dsimp only
          split
          · simp; omega
          · exact hp2
        · intro q h2 h3 h4
          dsimp only at h2 ⊢
          have old : ∀ q', s.rqs r = some q' → q'.hash = hash → i < q'.sent →
              locateMsg hash i (P.keyOf r) ∈ rest { s with log := if ok = true then s.log ++ [locateMsg q1.hash q1.sent (P.keyOf r1)] else s.log, rqs := upd s.rqs r1 (some { q1 with sent := q1.sent + 1 }) } d ∨
              locateMsg hash i (P.keyOf r) ∈ s.tasks d ∨ ∃ a ∈ s.puts (P.keyOf r), parseResp a = some (P.addr d, ((i : Nat) : Int)) := by
            intro q' k1 k2 k3
            rcases hp.msg q' k1 k2 k3 with h | h
            · left
              refine push { s with log := if ok = true then s.log ++ [locateMsg q1.hash q1.sent (P.keyOf r1)] else s.log, rqs := upd s.rqs r1 (some { q1 with sent := q1.sent + 1 }) } rfl ?_ _ h
              cases ok
              · exact .inl rfl
              · exact .inr ⟨_, rfl⟩
            · exact .inr h
          by_cases hr : r = r1
          · subst hr
            rw [upd_same] at h2
            cases h2
            dsimp only at h3 h4
            by_cases hi : i < q1.sent
            · exact old q1 h1 h3 hi
            · have : i = q1.sent := by omega
              have hok : ok = true := he rfl
              subst hok
              left
              unfold rest
              dsimp only
              rw [hp1]
              dsimp only
              rw [if_pos rfl, List.drop_append_of_le_length hp2, ← h3, ← this]
              simp
          · rw [upd_ne _ _ hr] at h2
            exact old q h2 h3 h4
      · exact hp
    · exact hp
  | recv r1 k =>
    unfold step
    dsimp only
    split
    · rename_i q1 h1
      split
      · split
        · exact congr _ rfl rfl rfl rfl rfl (put r1 q1 _ h1 rfl rfl)
        · exact congr _ rfl rfl rfl rfl rfl (put r1 q1 _ h1 rfl rfl)
      · exact hp
    · exact hp
  | giveUp r1 =>
    unfold step
    dsimp only
    split
    · rename_i q1 h1
      split
      · exact congr _ rfl rfl rfl rfl rfl (put r1 q1 _ h1 rfl rfl)
      · exact hp
    · exact hp
  | close r1 =>
    unfold step
    dsimp only
    split
    · rename_i q1 h1
      split
      · exact congr _ rfl rfl rfl rfl rfl (put r1 q1 _ h1 rfl rfl)
      · exact hp
    · exact hp
  | watch d1 =>
    have hd : d ≠ d1 := fun e => he e.symm
    have er : rest (step P s (.watch d1)) d = rest s d := by simp [rest, step, upd_ne _ _ hd]
    refine ⟨hp.files, ⟨p, by simp only [step, upd_ne _ _ hd]; exact hp1, hp2⟩, ?_⟩
    rw [er]; exact hp.msg
  | unwatch d1 =>
    have hd : d ≠ d1 := fun e => he e.symm
    have er : rest (step P s (.unwatch d1)) d = rest s d := by simp [rest, step, upd_ne _ _ hd]
    refine ⟨hp.files, ⟨p, by simp only [step, upd_ne _ _ hd]; exact hp1, hp2⟩, ?_⟩
    rw [er]; exact hp.msg
  | gain d1 f =>
    refine ⟨?_, hp.pos, hp.msg⟩
    have := hp.files
    simp only [step, upd]
    split
    · rename_i e; subst e; unfold upd; split
      · rfl
      · exact this
    · exact this
  | lose d1 f =>
    refine ⟨?_, hp.pos, hp.msg⟩
    have := hp.files
    simp only [step, upd]
    split
    · rename_i e
      subst e
      unfold upd
      split
      · rename_i e
        exact absurd ⟨rfl, e.symm⟩ he
      · exact this
    · exact this
  | touch =>
    refine ⟨hp.files, ⟨p, hp1, by simp [step]; omega⟩, ?_⟩
    intro q h1 h2 h3
    rcases hp.msg q h1 h2 h3 with hx | hx
    · left
      rcases rest_push (s := s) (s' := step P s .touch) rfl rfl d with e | e <;> rw [e]
      · exact hx
      · exact List.mem_append_left _ hx
    · exact .inr hx
  | deliver d1 =>
    unfold step
    dsimp only
    split
    · split
      · rename_i p0 hp0 _ x hx
        obtain ⟨hlt, hx'⟩ := List.getElem?_eq_some_iff.1 hx
        by_cases hd : d = d1
        · subst hd
          have e : s.log.drop p0 = x :: s.log.drop (p0 + 1) := by rw [List.drop_eq_getElem_cons hlt, hx']
          refine ⟨hp.files, ⟨p0 + 1, upd_same _ _ _, hlt⟩, ?_⟩
          intro q h1 h2 h3
          have := hp.msg q h1 h2 h3
          unfold rest at this ⊢
          dsimp only
          rw [upd_same, upd_same]
          rw [hp0] at this
          dsimp only at this ⊢
          rw [e] at this
          simp only [List.mem_append, List.mem_cons, List.not_mem_nil, or_false] at this ⊢
          rcases this with (h | h) | h | h
          · exact .inr (.inl (.inr h))
          · exact .inl h
          · exact .inr (.inl (.inl h))
          · exact .inr (.inr h)
        · refine ⟨hp.files, ⟨p, by dsimp only; rw [upd_ne _ _ hd]; exact hp1, hp2⟩, ?_⟩
          intro q h1 h2 h3
          have := hp.msg q h1 h2 h3
          unfold rest at this ⊢
          dsimp only
          rw [upd_ne _ _ hd, upd_ne _ _ hd]
          exact this
      · exact hp
    · exact hp
  | handle d1 j ok =>
    unfold step
    dsimp only
    split
    · rename_i m hm
      obtain ⟨hlt, hget⟩ := List.getElem?_eq_some_iff.1 hm
      have sub : ∀ x, x ∈ s.tasks d → x ∈ upd s.tasks d1 ((s.tasks d1).eraseIdx j) d ∨ (d = d1 ∧ x = m) := by
        intro x hx
        by_cases hd : d = d1
        · subst hd
          rw [upd_same]
          have := (List.getElem_cons_eraseIdx_perm hlt).mem_iff.2 hx
          rw [hget] at this
          rcases List.mem_cons.1 this with h | h
          · exact .inr ⟨rfl, h⟩
          · exact .inl h
        · rw [upd_ne _ _ hd]; exact .inl hx
      have hn := h.name r q0 hq
      have hs0 := h.sent r q0 hq
      have hans : i < q0.sent → ∃ a, handlerLocate (s.files d) (P.addr d) (locateMsg hash i (P.keyOf r)) = some a ∧
          parseResp a = some (P.addr d, ((i : Nat) : Int)) := by
        intro hi
        rw [← hh]
        cases hx : handlerLocate (s.files d) (P.addr d) (locateMsg q0.hash i (P.keyOf r)) with
        | none =>
          have := answer_none (by omega) (hP.addr d) hn.1 hn.2.1 (hP.key r) hx
          rw [hh, hp.files] at this
          cases this
        | some a => exact ⟨a, rfl, (answer_msg (by omega) (hP.addr d) hn.1 hn.2.1 (hP.key r) hx).2⟩
      have hkey : respKey (locateMsg hash i (P.keyOf r)) = P.keyOf r := by rw [← hh]; exact respKey_msg hn.1 (hP.key r)
      have noput : (∀ q, s.rqs r = some q → q.hash = hash → i < q.sent → ¬ (d = d1 ∧ locateMsg hash i (P.keyOf r) = m)) →
          Pend P { s with tasks := upd s.tasks d1 ((s.tasks d1).eraseIdx j) } r d i hash := by
        intro hno
        refine ⟨hp.files, hp.pos, ?_⟩
        intro q h1 h2 h3
        rcases hp.msg q h1 h2 h3 with hx | hx | hx
        · exact .inl hx
        · rcases sub _ hx with hx | hx
          · exact .inr (.inl hx)
          · exact absurd hx (hno q h1 h2 h3)
        · exact .inr (.inr hx)
      split
      · rename_i a ha
        split
        · refine ⟨hp.files, hp.pos, ?_⟩
          intro q h1 h2 h3
          have keep : (∃ a' ∈ s.puts (P.keyOf r), parseResp a' = some (P.addr d, ((i : Nat) : Int))) →
              ∃ a' ∈ upd s.puts (respKey m) (s.puts (respKey m) ++ [a]) (P.keyOf r), parseResp a' = some (P.addr d, ((i : Nat) : Int)) := by
            rintro ⟨a', k1, k2⟩
            refine ⟨a', ?_, k2⟩
            by_cases hk : P.keyOf r = respKey m
            · rw [← hk, upd_same]; exact List.mem_append_left _ k1
            · rw [upd_ne _ _ hk]; exact k1
          rcases hp.msg q h1 h2 h3 with hx | hx | hx
          · exact .inl hx
          · rcases sub _ hx with hx | ⟨hx, hm'⟩
            · exact .inr (.inl hx)
            · subst hx
              rw [hq] at h1
              cases h1
              obtain ⟨a', c1, c2⟩ := hans h3
              rw [← hm', c1] at ha
              cases ha
              refine .inr (.inr ⟨a, ?_, c2⟩)
              dsimp only
              rw [← hm', hkey, upd_same]
              simp
          · exact .inr (.inr (keep hx))
        · rename_i hok
          apply noput
          rintro q h1 h2 h3 ⟨rfl, hm'⟩
          exact hok (he rfl)
      · rename_i ha
        apply noput
        rintro q h1 h2 h3 ⟨rfl, hm'⟩
        rw [hq] at h1
        cases h1
        obtain ⟨a', c1, _⟩ := hans h3
        rw [← hm', c1] at ha
        cases ha
    · exact hp

/-- While the search is open, too few answers were taken; and it is not given up by itself. -/
def Open (s : Sys) (r : Nat) : Prop := ∀ q, s.rqs r = some q → (q.res = none → q.cnt < q.n) ∧ q.res ≠ some .notFound

theorem open_step (P : Params) (s : Sys) (r : Nat) (e : Ev) (hx : (s.rqs r).isSome = true) (h : Open s r) (he : ∀ r', e = .giveUp r' → r' ≠ r) :
    Open (step P s e) r := by
  have put : ∀ r1 q1 q1', s.rqs r1 = some q1 → (r1 = r → (q1'.res = none → q1'.cnt < q1'.n) ∧ q1'.res ≠ some .notFound) →
      ∀ q, upd s.rqs r1 (some q1') r = some q → (q.res = none → q.cnt < q.n) ∧ q.res ≠ some .notFound := by
    intro r1 q1 q1' h1 h2 q h4
    by_cases hr : r = r1
    · subst hr
      rw [upd_same] at h4
      cases h4
      exact h2 rfl
    · rw [upd_ne _ _ hr] at h4
      exact h q h4
  cases e with
  | start r1 hash n =>
    unfold step
    dsimp only
    split
    · rename_i h1
      intro q hq
      dsimp only at hq
      by_cases hr : r = r1
      · subst hr
        rw [h1] at hx; cases hx
      · rw [upd_ne _ _ hr] at hq
        exact h q hq
    · exact h
  | publish r1 ok =>
    unfold step
    dsimp only
    split
    · rename_i q1 h1
      split
      · exact put r1 q1 _ h1 fun e => h q1 (e ▸ h1)
      · exact h
    · exact h
  | recv r1 k =>
    unfold step
    dsimp only
    split
    · rename_i q1 h1
      split
      · split
        · exact put r1 q1 _ h1 fun _ => ⟨(by intro hx; cases hx), (by intro hx; cases hx)⟩
        · refine put r1 q1 _ h1 fun _ => ?_
          dsimp only
          split
          · exact ⟨(by intro hx; cases hx), (by intro hx; cases hx)⟩
          · exact ⟨fun _ => by omega, by intro hx; cases hx⟩
      · exact h
    · exact h
  | giveUp r1 =>
    unfold step
    dsimp only
    split
    · rename_i q1 h1
      split
      · exact put r1 q1 _ h1 fun e => absurd e (he r1 rfl)
      · exact h
    · exact h
  | close r1 =>
    unfold step
    dsimp only
    split
    · rename_i q1 h1
      split
      · exact put r1 q1 _ h1 fun e => h q1 (e ▸ h1)
      · exact h
    · exact h
  | watch d => exact h
  | unwatch d => exact h
  | gain d f => exact h
  | lose d f => exact h
  | touch => exact h
  | deliver d1 => unfold step; dsimp only; (repeat' split) <;> exact h
  | handle d1 i ok => unfold step; dsimp only; (repeat' split) <;> exact h

theorem open_run (P : Params) (r : Nat) (es : List Ev) (s : Sys) (q : Rq) (hx : s.rqs r = some q) (h : Open s r)
    (he : ∀ e ∈ es, ∀ r', e = .giveUp r' → r' ≠ r) : Open (run P s es) r := by
  induction es generalizing s q with
  | nil => exact h
  | cons e es ih =>
    obtain ⟨q', h1, _⟩ := rq_step P s e r q hx
    exact ih _ q' h1 (open_step P s r e (by rw [hx]; rfl) h (he e (by simp))) (fun x hx => he x (by simp [hx]))

theorem pend_run {P : Params} (hP : Fine P) {r d i : Nat} {hash : Str} (es : List Ev) (s : Sys) (h : Inv P s fun _ _ _ => True)
    (q0 : Rq) (hq : s.rqs r = some q0) (hh : q0.hash = hash) (hp : Pend P s r d i hash) (he : ∀ e ∈ es, e.Proper)
    (hc : ∀ e ∈ es, e.Calm r d (shard hash i)) : Pend P (run P s es) r d i hash := by
  induction es generalizing s q0 with
  | nil => exact hp
  | cons e es ih =>
    obtain ⟨q', h1, h2, _⟩ := rq_step P s e r q0 hq
    exact ih _ (inv_step hP h (he e (by simp)) fun _ _ _ _ _ => trivial) q' h1 (h2.trans hh)
      (pend_step hP h hq hh hp (hc e (by simp))) (fun x hx => he x (by simp [hx])) (fun x hx => hc x (by simp [hx]))

/-- A search succeeds when every shard is on a server that watches when the search begins, and nothing disturbs these servers and the
search: once all questions were put, all servers have handled what they were told, and all answers were taken, the search has
succeeded.  Other searches may go on at the same time, and other servers fail. -/
theorem C104_answered {P : Params} (hP : Fine P) (files : Nat → Str → Bool) (es0 es1 : List Ev) (r n : Nat) (hash : Str) (q : Rq)
    (hn : n ≤ 2 ^ 63) (hh : '#' ∉ hash ∧ '.' ∉ hash) (he0 : ∀ e ∈ es0, e.Proper) (he1 : ∀ e ∈ es1, e.Proper)
    (h0 : (run P (.init files) es0).rqs r = none)
    (hold : ∀ i, i < n → ∃ d, ((run P (.init files) es0).pos d).isSome = true ∧ (run P (.init files) es0).files d (shard hash i) = true ∧
      ∀ e ∈ es1, e.Calm r d (shard hash i))
    (hg : ∀ e ∈ es1, ∀ r', e = .giveUp r' → r' ≠ r)
    (hq : (run P (.init files) (es0 ++ .start r hash n :: es1)).rqs r = some q) (hs : q.sent = n)
    (hgot : q.got = ((run P (.init files) (es0 ++ .start r hash n :: es1)).puts (P.keyOf r)).length)
    (hidle : ∀ d, (run P (.init files) (es0 ++ .start r hash n :: es1)).tasks d = [] ∧
      rest (run P (.init files) (es0 ++ .start r hash n :: es1)) d = []) : ∃ loc, q.res = some (.found loc) := by
  have hpr : ∀ e ∈ es0 ++ .start r hash n :: es1, e.Proper := by
    intro e hx
    rcases List.mem_append.1 hx with hx | hx
    · exact he0 e hx
    · rcases List.mem_cons.1 hx with rfl | hx
      · exact ⟨hh.1, hh.2, hn⟩
      · exact he1 e hx
  have inv0 : Inv P (run P (.init files) es0) fun _ _ _ => True := inv_run hP es0 _ (inv_init P files _) he0 fun _ _ _ _ _ _ _ _ => trivial
  have inv : Inv P (run P (.init files) (es0 ++ .start r hash n :: es1)) fun _ _ _ => True :=
    inv_run hP _ _ (inv_init P files _) hpr fun _ _ _ _ _ _ _ _ => trivial
  have hpos := pos_run P es0 (.init files) (by intro d p hp; cases hp)
  rw [run_append, run_cons] at hq hgot hidle inv
  generalize hS0 : run P (.init files) es0 = S0 at *
  have hstart : (step P S0 (.start r hash n)).rqs r =
      some ⟨hash, n, 0, 0, List.replicate n [], 0, if n = 0 then some (.found []) else none, false⟩ := by
    simp [step, h0, upd_same]
  have inv1 : Inv P (step P S0 (.start r hash n)) fun _ _ _ => True :=
    inv_step hP inv0 ⟨hh.1, hh.2, hn⟩ fun _ _ _ _ _ => trivial
  have hqn : q.hash = hash ∧ q.n = n := by
    obtain ⟨q', k1, k2, k3⟩ := rq_run P es1 _ r _ hstart
    rw [hq] at k1
    cases k1
    exact ⟨k2, k3⟩
  have hopen : Open (run P (step P S0 (.start r hash n)) es1) r := by
    refine open_run P r es1 _ _ hstart ?_ hg
    intro q' h1
    rw [hstart] at h1
    cases h1
    dsimp only
    split
    · exact ⟨(by intro hx; cases hx), (by intro hx; cases hx)⟩
    · exact ⟨fun _ => by omega, by intro hx; cases hx⟩
  -- every shard has an answer
  have hans : ∀ i, i < n → ∃ a ∈ (run P (step P S0 (.start r hash n)) es1).puts (P.keyOf r), respIdx a = some ((i : Nat) : Int) := by
    intro i hi
    obtain ⟨d, k1, k2, k3⟩ := hold i hi
    obtain ⟨p, hp⟩ := Option.isSome_iff_exists.1 k1
    have hkeep : (step P S0 (.start r hash n)).files = S0.files ∧ (step P S0 (.start r hash n)).pos = S0.pos ∧
        (step P S0 (.start r hash n)).log = S0.log := by
      simp [step, h0]
    have hp0 : Pend P (step P S0 (.start r hash n)) r d i hash := by
      refine ⟨by rw [hkeep.1]; exact k2, ⟨p, by rw [hkeep.2.1]; exact hp, by rw [hkeep.2.2]; exact hpos d p hp⟩, ?_⟩
      intro q' h1 _ h3
      rw [hstart] at h1
      cases h1
      cases h3
    have := (pend_run hP es1 _ inv1 _ hstart rfl hp0 he1 k3).msg q hq hqn.1 (by omega)
    rw [(hidle d).1, (hidle d).2] at this
    rcases this with hx | hx | ⟨a, ha, hpa⟩
    · cases hx
    · cases hx
    · exact ⟨a, ha, by simp [respIdx, hpa]⟩
  have hlen : n ≤ ((run P (step P S0 (.start r hash n)) es1).puts (P.keyOf r)).length := by
    have hsub : (List.range n).map (fun i : Nat => some (i : Int)) ⊆ ((run P (step P S0 (.start r hash n)) es1).puts (P.keyOf r)).map respIdx := by
      intro x hx
      obtain ⟨i, hi, rfl⟩ := List.mem_map.1 hx
      obtain ⟨a, ha, hai⟩ := hans i (List.mem_range.1 hi)
      exact List.mem_map.2 ⟨a, ha, hai⟩
    have hnd : ((List.range n).map (fun i : Nat => some (i : Int))).Nodup := by
      rw [List.nodup_iff_pairwise_ne, List.pairwise_map]
      have := List.nodup_range (n := n)
      rw [List.nodup_iff_pairwise_ne] at this
      refine this.imp ?_
      intro a b hab e
      simp only [Option.some.injEq] at e
      exact hab (by omega)
    have := (List.Nodup.subperm hnd hsub).length_le
    simpa using this
  have hcnt : q.cnt = q.got := by
    have := (inv.loc r q hq).cnt_
    rw [this, List.length_take]
    have := inv.got r q hq
    omega
  have ho := hopen q hq
  cases hres : q.res with
  | none =>
    have := ho.1 hres
    omega
  | some l =>
    cases l with
    | found loc => exact ⟨loc, rfl⟩
    | notFound => exact absurd hres ho.2
    | panic => exact absurd hres (inv.fine r q hq)

/-! ## Keys that are left -/

/-- The end of a search removes its key. -/
theorem C104_removed (P : Params) (s : Sys) (r : Nat) (q : Rq) (hq : s.rqs r = some q) (h : q.res.isSome = true ∧ q.closed = false) :
    (step P s (.close r)).keys (P.keyOf r) = false := by
  simp [step, hq, h, upd_same]

theorem closed_step {P : Params} {s : Sys} {r : Nat} {q : Rq} (hq : s.rqs r = some q) (hc : q.closed = true) (hres : q.res.isSome = true)
    (e : Ev) : (step P s e).rqs r = some q := by
  have hn : q.res ≠ none := by intro h; rw [h] at hres; cases hres
  have put : ∀ r1 q1 q1', s.rqs r1 = some q1 → (q1 = q → q1' = q) → upd s.rqs r1 (some q1') r = some q := by
    intro r1 q1 q1' h1 h2
    by_cases hr : r = r1
    · subst hr
      rw [hq] at h1
      cases h1
      rw [upd_same, h2 rfl]
    · rw [upd_ne _ _ hr]; exact hq
  cases e with
  | start r1 hash n =>
    unfold step
    dsimp only
    split
    · rename_i h1
      dsimp only
      rw [upd_ne]
      · exact hq
      · intro e; subst e; rw [h1] at hq; cases hq
    · exact hq
  | publish r1 ok =>
    unfold step
    dsimp only
    split
    · rename_i q1 h1
      split
      · rename_i hx
        exact put r1 q1 _ h1 fun e => absurd hx.1 (e ▸ hn)
      · exact hq
    · exact hq
  | recv r1 k =>
    unfold step
    dsimp only
    split
    · rename_i q1 h1
      split
      · rename_i hx
        split <;> exact put r1 q1 _ h1 fun e => absurd hx.1 (e ▸ hn)
      · exact hq
    · exact hq
  | giveUp r1 =>
    unfold step
    dsimp only
    split
    · rename_i q1 h1
      split
      · rename_i hx
        exact put r1 q1 _ h1 fun e => absurd hx.1 (e ▸ hn)
      · exact hq
    · exact hq
  | close r1 =>
    unfold step
    dsimp only
    split
    · rename_i q1 h1
      split
      · rename_i hx
        exact put r1 q1 _ h1 fun e => by rw [e, hc] at hx; cases hx.2
      · exact hq
    · exact hq
  | watch d => exact hq
  | unwatch d => exact hq
  | gain d f => exact hq
  | lose d f => exact hq
  | touch => exact hq
  | deliver d1 => unfold step; dsimp only; (repeat' split) <;> exact hq
  | handle d1 i ok => unfold step; dsimp only; (repeat' split) <;> exact hq

theorem keys_step {P : Params} (hP : Fine P) {s : Sys} {r : Nat} {q : Rq} (hq : s.rqs r = some q) (hc : q.closed = true) (e : Ev)
    (hk : s.keys (P.keyOf r) = true) : (step P s e).keys (P.keyOf r) = true := by
  cases e with
  | close r1 =>
    unfold step
    dsimp only
    split
    · rename_i q1 h1
      split
      · rename_i hx
        dsimp only
        rw [upd_ne]
        · exact hk
        · intro e
          have := hP.inj _ _ e
          subst this
          rw [hq] at h1
          cases h1
          rw [hc] at hx
          cases hx.2
      · exact hk
    · exact hk
  | handle d1 i ok =>
    unfold step
    dsimp only
    split
    · split
      · split
        · dsimp only
          unfold upd
          split
          · rfl
          · exact hk
        · exact hk
      · exact hk
    · exact hk
  | start r1 hash n => unfold step; dsimp only; split <;> exact hk
  | publish r1 ok => unfold step; dsimp only; (repeat' split) <;> exact hk
  | recv r1 k => unfold step; dsimp only; (repeat' split) <;> exact hk
  | giveUp r1 => unfold step; dsimp only; (repeat' split) <;> exact hk
  | watch d => exact hk
  | unwatch d => exact hk
  | gain d f => exact hk
  | lose d f => exact hk
  | touch => exact hk
  | deliver d1 => unfold step; dsimp only; (repeat' split) <;> exact hk

/-- A key that an answer brought back after the end of its search stays for ever: nothing removes it (and it has no lease). -/
theorem C104_left_for_good {P : Params} (hP : Fine P) (files : Nat → Str → Bool) (es0 es : List Ev) (he : ∀ e ∈ es0, e.Proper) (r : Nat)
    (q : Rq) (hq : (run P (.init files) es0).rqs r = some q) (hc : q.closed = true)
    (hk : (run P (.init files) es0).keys (P.keyOf r) = true) : (run P (.init files) (es0 ++ es)).keys (P.keyOf r) = true := by
  have h := inv_had hP files es0 he
  have hres := h.closed r q hq hc
  rw [run_append]
  generalize run P (.init files) es0 = s at hq hk
  clear h
  induction es generalizing s with
  | nil => exact hk
  | cons e es ih => exact ih _ (closed_step hq hc hres e) (keys_step hP hq hc e hk)

/-- The key stays away when, at the end of the search, no server has a question of it still to handle. -/
theorem C104_gone_for_good {P : Params} (hP : Fine P) (files : Nat → Str → Bool) (es0 es : List Ev) (he0 : ∀ e ∈ es0, e.Proper)
    (he : ∀ e ∈ es, e.Proper) (r : Nat) (q : Rq) (hq : (run P (.init files) es0).rqs r = some q) (hc : q.closed = true)
    (hk : (run P (.init files) es0).keys (P.keyOf r) = false)
    (hidle : ∀ d i, i < q.n → locateMsg q.hash i (P.keyOf r) ∉ (run P (.init files) es0).tasks d ∧
      locateMsg q.hash i (P.keyOf r) ∉ rest (run P (.init files) es0) d) :
    (run P (.init files) (es0 ++ es)).keys (P.keyOf r) = false := by
  have h : Inv P (run P (.init files) es0) fun _ _ _ => True := inv_run hP es0 _ (inv_init P files _) he0 fun _ _ _ _ _ _ _ _ => trivial
  have hres := h.closed r q hq hc
  have hn : q.res ≠ none := by intro h; rw [h] at hres; cases hres
  rw [run_append]
  generalize run P (.init files) es0 = s at hq hk h hidle
  induction es generalizing s with
  | nil => exact hk
  | cons e es ih =>
    rw [run_cons]
    refine ih (fun x hx => he x (by simp [hx])) _ (closed_step hq hc hres e) ?_ (inv_step hP h (he e (by simp)) fun _ _ _ _ _ => trivial) ?_
    · cases e with
      | close r1 =>
        unfold step
        dsimp only
        split
        · split
          · dsimp only
            unfold upd
            split
            · rfl
            · exact hk
          · exact hk
        · exact hk
      | handle d1 j ok =>
        unfold step
        dsimp only
        split
        · rename_i m hm
          split
          · rename_i a ha
            split
            · dsimp only
              rw [upd_ne]
              · exact hk
              · intro e
                have hmem := List.mem_of_getElem? hm
                rcases h.log m (h.tasks d1 m hmem) with rfl | ⟨r1, q1, i, h1, h2, h3⟩
                · cases ha
                · have hn1 := h.name r1 q1 h1
                  have hs1 := h.sent r1 q1 h1
                  rw [h3, respKey_msg hn1.1 (hP.key r1)] at e
                  have := hP.inj _ _ e
                  subst this
                  rw [hq] at h1
                  cases h1
                  rw [h3] at hmem
                  exact (hidle d1 i (by omega)).1 hmem
            · exact hk
          · exact hk
        · exact hk
      | start r1 hash n => unfold step; dsimp only; split <;> exact hk
      | publish r1 ok => unfold step; dsimp only; (repeat' split) <;> exact hk
      | recv r1 k => unfold step; dsimp only; (repeat' split) <;> exact hk
      | giveUp r1 => unfold step; dsimp only; (repeat' split) <;> exact hk
      | watch d => exact hk
      | unwatch d => exact hk
      | gain d f => exact hk
      | lose d f => exact hk
      | touch => exact hk
      | deliver d1 => unfold step; dsimp only; (repeat' split) <;> exact hk
    · intro d i hi
      obtain ⟨c1, c2⟩ := hidle d i hi
      cases e with
      | start r1 hash n => unfold step; dsimp only; split <;> exact ⟨c1, c2⟩
      | recv r1 k => unfold step; dsimp only; (repeat' split) <;> exact ⟨c1, c2⟩
      | giveUp r1 => unfold step; dsimp only; (repeat' split) <;> exact ⟨c1, c2⟩
      | close r1 => unfold step; dsimp only; (repeat' split) <;> exact ⟨c1, c2⟩
      | gain d f => exact ⟨c1, c2⟩
      | lose d f => exact ⟨c1, c2⟩
      | publish r1 ok =>
        unfold step
        dsimp only
        split
        · rename_i q1 h1
          split
          · rename_i hx
            refine ⟨c1, ?_⟩
            cases ok with
            | false => exact c2
            | true =>
              rcases rest_push (s := s) (s' := { s with log := if true = true then s.log ++ [locateMsg q1.hash q1.sent (P.keyOf r1)] else s.log, rqs := upd s.rqs r1 (some { q1 with sent := q1.sent + 1 }) }) rfl rfl d with e | e <;> rw [e]
              · exact c2
              · intro hm
                rcases List.mem_append.1 hm with hm | hm
                · exact c2 hm
                · have n1 := h.name r q hq
                  have n2 := h.name r1 q1 h1
                  obtain ⟨k1, _, _⟩ := msg_inj n1.1 n2.1 (hP.key r) (hP.key r1) n1.2.1 n2.2.1 (List.mem_singleton.1 hm)
                  have := hP.inj _ _ k1
                  subst this
                  rw [hq] at h1
                  cases h1
                  exact hn hx.1
          · exact ⟨c1, c2⟩
        · exact ⟨c1, c2⟩
      | watch d1 =>
        refine ⟨c1, ?_⟩
        by_cases hd : d = d1
        · subst hd
          simp [rest, step, upd_same]
        · have : rest (step P s (.watch d1)) d = rest s d := by simp [rest, step, upd_ne _ _ hd]
          rw [this]; exact c2
      | unwatch d1 =>
        refine ⟨c1, ?_⟩
        by_cases hd : d = d1
        · subst hd
          simp [rest, step, upd_same]
        · have : rest (step P s (.unwatch d1)) d = rest s d := by simp [rest, step, upd_ne _ _ hd]
          rw [this]; exact c2
      | touch =>
        refine ⟨c1, ?_⟩
        rcases rest_push (s := s) (s' := step P s .touch) rfl rfl d with e | e <;> rw [e]
        · exact c2
        · intro hm
          rcases List.mem_append.1 hm with hm | hm
          · exact c2 hm
          · have := List.mem_singleton.1 hm
            unfold locateMsg at this
            simp at this
      | deliver d1 =>
        unfold step
        dsimp only
        split
        · split
          · rename_i p0 hp0 _ x hx
            by_cases hd : d = d1
            · subst hd
              obtain ⟨hlt, hx'⟩ := List.getElem?_eq_some_iff.1 hx
              have e : s.log.drop p0 = x :: s.log.drop (p0 + 1) := by rw [List.drop_eq_getElem_cons hlt, hx']
              unfold rest at c2 ⊢
              dsimp only
              rw [upd_same, upd_same]
              rw [hp0] at c2
              dsimp only at c2 ⊢
              rw [e] at c2
              simp only [List.mem_append, List.mem_cons, List.not_mem_nil, or_false, not_or] at c2 ⊢
              exact ⟨⟨c1, c2.1⟩, c2.2⟩
            · unfold rest at c2 ⊢
              dsimp only
              rw [upd_ne _ _ hd, upd_ne _ _ hd]
              exact ⟨c1, c2⟩
          · exact ⟨c1, c2⟩
        · exact ⟨c1, c2⟩
      | handle d1 j ok =>
        have sub : locateMsg q.hash i (P.keyOf r) ∉ upd s.tasks d1 ((s.tasks d1).eraseIdx j) d := by
          intro hm
          by_cases hd : d = d1
          · subst hd
            rw [upd_same] at hm
            exact c1 (List.mem_of_mem_eraseIdx hm)
          · rw [upd_ne _ _ hd] at hm
            exact c1 hm
        unfold step
        dsimp only
        split
        · split
          · split <;> exact ⟨sub, c2⟩
          · exact ⟨sub, c2⟩
        · exact ⟨c1, c2⟩

/-! ## Where the code fails -/

/-- Keys and addresses are numbers; server `d` is of group `g d`, the requests are of group 0. -/
def demo (g : Nat → Nat) : Params := ⟨fmtNat, fmtNat, g, fun _ => 0⟩

theorem demo_fine (g : Nat → Nat) : Fine (demo g) :=
  ⟨fun _ _ h => fmtNat_inj h, fun r => digit_ne (by decide) r, fun d => digit_ne (by decide) d⟩

theorem fmtNat_ne_nil (n : Nat) : fmtNat n ≠ [] := by
  intro h
  have := parseDigits_fmtNat n
  rw [h] at this
  cases n <;> simp [parseDigits] at this

theorem proper_demo (n : Nat) (hn : n ≤ 2 ^ 63) (es1 es2 : List Ev) (h1 : ∀ e ∈ es1, e.Proper) (h2 : ∀ e ∈ es2, e.Proper) :
    ∀ e ∈ es1 ++ .start 0 ['h'] n :: es2, e.Proper := by
  intro e he
  rcases List.mem_append.1 he with he | he
  · exact h1 e he
  · rcases List.mem_cons.1 he with rfl | he
    · exact ⟨by decide, by decide, hn⟩
    · exact h2 e he

/-- **Servers of another group are named**: the key on which searches ask is the same for all groups that use one etcd, so a data server of
another group answers, and the object is recorded as being there, although no server of the own group has it. -/
theorem C104_other_group : ∃ (P : Params) (files : Nat → Str → Bool) (es : List Ev) (q : Rq), Fine P ∧ (∀ e ∈ es, e.Proper) ∧
    (∀ d f, files d f = true → P.srvGroup d ≠ P.rqGroup 0) ∧ (∀ e ∈ es, ∀ d f, e ≠ .gain d f) ∧
    (run P (.init files) es).rqs 0 = some q ∧ q.n = 1 ∧ q.res = some (.found [P.addr 1]) := by
  refine ⟨demo id, fun d f => decide (d = 1 ∧ f = ['h', '.', '0']),
    [.watch 1, .start 0 ['h'] 1, .publish 0 true, .deliver 1, .handle 1 0 true, .recv 0 1],
    ⟨['h'], 1, 1, 1, [['1']], 1, some (.found [['1']]), false⟩, demo_fine _, ?_, ?_, ?_, by rfl, rfl, rfl⟩
  · exact proper_demo 1 (by decide) [.watch 1] [.publish 0 true, .deliver 1, .handle 1 0 true, .recv 0 1] (by simp [Ev.Proper]) (by simp [Ev.Proper])
  · intro d f h
    simp only [decide_eq_true_eq] at h
    rw [h.1]
    decide
  · simp

/-- **A shard nobody has is counted**: two servers with shard 0 answer, and the search for two shards succeeds without anybody having
shard 1, even in one group. -/
theorem C104_shard_missed : ∃ (P : Params) (files : Nat → Str → Bool) (es : List Ev) (q : Rq), Fine P ∧ (∀ e ∈ es, e.Proper) ∧
    (∀ d, P.srvGroup d = P.rqGroup 0) ∧ (∀ d, files d (shard ['h'] 1) = false) ∧ (∀ e ∈ es, ∀ d f, e ≠ .gain d f) ∧
    (run P (.init files) es).rqs 0 = some q ∧ q.n = 2 ∧ q.hash = ['h'] ∧ q.res = some (.found [P.addr 2, []]) := by
  refine ⟨demo fun _ => 0, fun d f => decide ((d = 1 ∨ d = 2) ∧ f = ['h', '.', '0']),
    [.watch 1, .watch 2, .start 0 ['h'] 2, .publish 0 true, .publish 0 true, .deliver 1, .deliver 2, .handle 1 0 true, .handle 2 0 true,
      .recv 0 1, .recv 0 1],
    ⟨['h'], 2, 2, 2, [['2'], []], 2, some (.found [['2'], []]), false⟩, demo_fine _, ?_, fun _ => rfl, ?_, ?_, by rfl, rfl, rfl, rfl⟩
  · exact proper_demo 2 (by decide) [.watch 1, .watch 2] _ (by simp [Ev.Proper]) (by simp [Ev.Proper])
  · intro d
    have : shard ['h'] 1 ≠ ['h', '.', '0'] := by decide
    simp [this]
  · simp

/-- **Answers after the end of a search leave its key behind** (here for ever, `C104_left_for_good`): the second server with the shard
answers when the key has been removed. -/
theorem C104_left_over : ∃ (P : Params) (files : Nat → Str → Bool) (es : List Ev) (q : Rq), Fine P ∧ (∀ e ∈ es, e.Proper) ∧
    (run P (.init files) es).rqs 0 = some q ∧ q.closed = true ∧ q.res = some (.found [P.addr 1]) ∧
    ∀ es', (run P (.init files) (es ++ es')).keys (P.keyOf 0) = true := by
  have hp := proper_demo 1 (by decide) [.watch 1, .watch 2] [.publish 0 true, .deliver 1, .deliver 2, .handle 1 0 true, .recv 0 1, .close 0,
    .handle 2 0 true] (by simp [Ev.Proper]) (by simp [Ev.Proper])
  refine ⟨demo fun _ => 0, fun d f => decide ((d = 1 ∨ d = 2) ∧ f = ['h', '.', '0']), _,
    ⟨['h'], 1, 1, 1, [['1']], 1, some (.found [['1']]), true⟩, demo_fine _, hp, by rfl, rfl, rfl, ?_⟩
  intro es'
  exact C104_left_for_good (demo_fine _) _ _ es' hp 0 ⟨['h'], 1, 1, 1, [['1']], 1, some (.found [['1']]), true⟩ (by rfl) rfl (by rfl)

/-- **C104 does not hold.** -/
theorem C104_fails : ¬ C104_statement := by
  intro h
  obtain ⟨P, files, es, q, h1, h2, h3, h4, h5, h6, h7⟩ := C104_other_group
  obtain ⟨d, k1, k2, es1, es2, k3, k4, k5⟩ := (h P files es h1 h2 0 q _ h5 h7).2.1 0 (by omega)
  have : ∀ (es : List Ev) (s : Sys), (∀ e ∈ es, ∀ d f, e ≠ .gain d f) → ∀ d f, (run P s es).files d f = true → s.files d f = true := by
    intro es
    induction es with
    | nil => intro s _ d f h; exact h
    | cons e es ih =>
      intro s hg d f hx
      have := ih _ (fun x hx => hg x (by simp [hx])) d f hx
      revert this
      cases e with
      | gain d1 f1 => exact absurd rfl (hg _ (by simp) d1 f1)
      | lose d1 f1 =>
        simp only [step, upd]
        split
        · rename_i e
          subst e
          unfold upd
          split
          · intro hx; cases hx
          · exact id
        · exact id
      | start r1 hash n => unfold step; dsimp only; split <;> exact id
      | publish r1 ok => unfold step; dsimp only; (repeat' split) <;> exact id
      | recv r1 k => unfold step; dsimp only; (repeat' split) <;> exact id
      | giveUp r1 => unfold step; dsimp only; (repeat' split) <;> exact id
      | close r1 => unfold step; dsimp only; (repeat' split) <;> exact id
      | watch d => exact id
      | unwatch d => exact id
      | touch => exact id
      | deliver d1 => unfold step; dsimp only; (repeat' split) <;> exact id
      | handle d1 i ok => unfold step; dsimp only; (repeat' split) <;> exact id
  exact h3 d _ (this es1 _ (fun e he => h4 e (by rw [k3]; exact List.mem_append_left _ he)) d _ k5) k2

/-- A server that begins to watch again misses what was put in between: its shard is not found although it has it all the time. -/
theorem C104_rewatch_misses :
    (run (demo fun _ => 0) (.init fun d f => decide (d = 1 ∧ f = ['h', '.', '0']))
      [.watch 1, .start 0 ['h'] 1, .unwatch 1, .publish 0 true, .watch 1, .deliver 1, .giveUp 0]).rqs 0 =
      some ⟨['h'], 1, 1, 0, [[]], 0, some .notFound, false⟩ := by rfl

/-- Two searches at the same time: each gets its own answers. -/
example :
    let s := run (demo fun _ => 0) (.init fun d f => decide ((d = 1 ∧ f = ['h', '.', '0']) ∨ (d = 2 ∧ f = ['g', '.', '0'])))
      [.touch, .watch 1, .watch 2, .start 0 ['h'] 1, .start 1 ['g'] 1, .publish 1 true, .publish 0 true, .deliver 2, .deliver 1, .deliver 2,
        .deliver 1, .handle 1 1 true, .handle 2 0 true, .handle 1 0 true, .recv 0 1, .recv 1 1]
    (s.rqs 0).map (·.res) = some (some (.found [['1']])) ∧ (s.rqs 1).map (·.res) = some (some (.found [['2']])) := ⟨by rfl, by rfl⟩

end Verif.Api.LocateSys
