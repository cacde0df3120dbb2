import Verif.Registry.Entries

/-!
# What a server leaves in etcd: theorems (C93)
-/

namespace Verif.Entries

theorem run_append (s : St) (a b : List Ev) : run s (a ++ b) = (run s a).bind fun t => run t b := by
  induction a generalizing s with
  | nil => rfl
  | cons e a ih =>
    rw [List.cons_append, run, run]
    cases step s e with
    | none => rfl
    | some t => exact ih t

/-- Reasoning over a run: what every step keeps, the run keeps. -/
theorem run_keeps {P : St → Prop} {ok : Ev → Prop}
    (hstep : ∀ s e s', ok e → P s → step s e = some s' → P s') :
    ∀ (es : List Ev) (s s' : St), (∀ e ∈ es, ok e) → P s → run s es = some s' → P s' := by
  intro es
  induction es with
  | nil => intro s s' _ hp h; cases h; exact hp
  | cons e es ih =>
    intro s s' hok hp h
    unfold run at h
    cases hs : step s e with
    | none => rw [hs] at h; cases h
    | some t =>
      rw [hs] at h
      exact ih t s' (fun e' he => hok e' (List.mem_cons_of_mem _ he))
        (hstep s e t (hok e (List.mem_cons_self ..)) hp hs) h

/-! ## A dead server disappears -/

/-- Entries belong to leases that exist. -/
structure Inv (s : St) : Prop where
  reg : ∀ id, s.reg = some id → id ≠ 0 ∧ id ∈ s.leases
  pReg : ∀ id ∈ s.pReg, id ≠ 0
  nReg : 0 < s.nReg → s.cur ≠ 0
  stat : ∀ id t, s.stat = some (id, t) → id = 0 ∨ id ∈ s.leases

theorem Inv.drop {s : St} (h : Inv s) (id : Nat) : Inv (dropLease s id) := by
  obtain ⟨h1, h2, h3, h4⟩ := h
  constructor <;> simp only [dropLease]
  · grind
  · exact h2
  · exact h3
  · grind

theorem inv_step (s : St) (e : Ev) (s' : St) (h : Inv s) (hs : step s e = some s') : Inv s' := by
  have hd := h.drop
  obtain ⟨h1, h2, h3, h4⟩ := h
  cases e <;> simp only [step, mainStep, putReg, putStat, accepts, die] at hs
  case expire id => split at hs <;> cases hs; exact hd id
  case loopEnds ok =>
    split at hs <;> cases hs
    have := hd s.cur
    cases ok
    · exact ⟨h1, h2, h3, h4⟩
    · exact ⟨this.reg, this.pReg, this.nReg, this.stat⟩
  case putReg id ok =>
    have he : ∀ a, a ∈ s.pReg.erase id → a ∈ s.pReg := fun a => List.mem_of_mem_erase
    generalize s.pReg.erase id = l at *
    constructor <;> grind
  all_goals (constructor <;> grind)

theorem inv_run {s s' : St} {es : List Ev} (h : Inv s) (hr : run s es = some s') : Inv s' :=
  run_keeps (ok := fun _ => True) (fun a e b _ => inv_step a e b) es s s' (fun _ _ => trivial) h hr

theorem inv_init : Inv St.init := by
  constructor <;> simp [St.init]

/-- **C93** Whatever the server does or has done, and however it ended: an entry in etcd belongs to
a lease that exists — the registration always, the statistics unless they have no lease.  So once the leases
have run out the server is registered no longer. -/
theorem C93_registration_goes (es : List Ev) (s : St) (h : run .init es = some s) :
    (∀ id, s.reg = some id → id ∈ s.leases) ∧
    (∀ id t, s.stat = some (id, t) → id ≠ 0 → id ∈ s.leases) ∧
    (s.leases = [] → s.reg = none) := by
  have hi := inv_run inv_init h
  refine ⟨fun id hr => (hi.reg id hr).2, fun id t ht h0 => (hi.stat id t ht).resolve_left h0, fun hl => ?_⟩
  cases hr : s.reg with
  | none => rfl
  | some id =>
    have := (hi.reg id hr).2
    rw [hl] at this
    cases this

/-- The first lease is told, both entries are put, the server is killed: the entries stand until the
lease runs out. -/
def killed : List Ev := [.grant 7, .readReg, .putReg 7 true, .readStat, .setStat 7, .syncStat, .putStat 7 0 true, .kill]

example : (run .init killed).map (fun s => (s.reg, s.stat)) = some (some 7, some (7, 0)) ∧
    (run .init (killed ++ [.expire 7])).map (fun s => (s.reg, s.stat)) = some (none, none) := by decide

/-- Specification: the ticker fires and reads the lease before a notification has stored one. -/
def readsTooEarly : List Ev → Bool
  | [] => false
  | .setStat _ :: _ => false
  | .tickSync :: _ => true
  | _ :: es => readsTooEarly es

/-- No statistics without a lease, in etcd or on the way. -/
structure InvS (s : St) : Prop where
  inv : Inv s
  nStat : 0 < s.nStat → s.cur ≠ 0
  wStat : ∀ id ∈ s.wStat, id ≠ 0
  sStat : 0 < s.sStat → s.sLease ≠ 0
  pStat : ∀ x ∈ s.pStat, x.1 ≠ 0
  ticker : ∀ id t, s.ticker = .put id t → id ≠ 0
  stat : ∀ id t, s.stat = some (id, t) → id ≠ 0

theorem InvS.drop {s : St} (h : InvS s) (id : Nat) : InvS (dropLease s id) := by
  refine ⟨h.inv.drop id, h.nStat, h.wStat, h.sStat, h.pStat, h.ticker, ?_⟩
  have := h.stat
  simp only [dropLease]
  grind

theorem invS_step (s : St) (e : Ev) (s' : St) (h : InvS s) (h0 : e = .tickSync → s.sLease ≠ 0)
    (hs : step s e = some s') : InvS s' := by
  have hi := inv_step s e s' h.inv hs
  have hd := h.drop
  obtain ⟨h1, h2, h3, h4, h5, h6, h7⟩ := h
  cases e <;> simp only [step, mainStep, putReg, putStat, accepts, die] at hs
  case expire id => split at hs <;> cases hs; exact hd id
  case loopEnds ok =>
    split at hs <;> cases hs
    have := hd s.cur
    cases ok
    · exact ⟨hi, h2, h3, h4, h5, h6, h7⟩
    · exact ⟨hi, this.nStat, this.wStat, this.sStat, this.pStat, this.ticker, this.stat⟩
  case setStat id =>
    have he : ∀ a, a ∈ s.wStat.erase id → a ∈ s.wStat := fun a => List.mem_of_mem_erase
    generalize s.wStat.erase id = l at *
    refine ⟨hi, ?_, ?_, ?_, ?_, ?_, ?_⟩ <;> grind
  case putStat id t ok =>
    have he : ∀ a, a ∈ s.pStat.erase (id, t) → a ∈ s.pStat := fun a => List.mem_of_mem_erase
    generalize s.pStat.erase (id, t) = l at *
    refine ⟨hi, ?_, ?_, ?_, ?_, ?_, ?_⟩ <;> grind
  case putReg id ok =>
    generalize s.pReg.erase id = l at *
    refine ⟨hi, ?_, ?_, ?_, ?_, ?_, ?_⟩ <;> grind
  all_goals (refine ⟨hi, ?_, ?_, ?_, ?_, ?_, ?_⟩ <;> grind)

theorem sLease_step (s : St) (e : Ev) (s' : St) (h : InvS s) (hs : step s e = some s') :
    (s.sLease ≠ 0 → s'.sLease ≠ 0) ∧ (∀ id, e = .setStat id → s'.sLease ≠ 0) := by
  have h3 := h.wStat
  cases e <;> simp only [step, mainStep, putReg, putStat, accepts, die, dropLease] at hs <;> grind (splits := 30)

theorem invS_run_late {es : List Ev} : ∀ {s s' : St}, InvS s → s.sLease ≠ 0 → run s es = some s' → InvS s' := by
  intro s s' h h0 hr
  exact (run_keeps (P := fun s => InvS s ∧ s.sLease ≠ 0) (ok := fun _ => True)
    (fun a e b _ hp hs => ⟨invS_step a e b hp.1 (fun _ => hp.2) hs, (sLease_step a e b hp.1 hs).1 hp.2⟩)
    es s s' (fun _ _ => trivial) ⟨h, h0⟩ hr).1

theorem invS_run {es : List Ev} : ∀ {s s' : St}, InvS s → readsTooEarly es = false → run s es = some s' →
    InvS s' := by
  induction es with
  | nil => intro s s' h _ hr; cases hr; exact h
  | cons e es ih =>
    intro s s' h he hr
    rw [run] at hr
    cases hs : step s e with
    | none => rw [hs] at hr; cases hr
    | some t =>
      rw [hs] at hr
      cases e
      case setStat id =>
        exact invS_run_late (invS_step s _ t h (by intro h; cases h) hs)
          ((sLease_step s _ t h hs).2 id rfl) hr
      case tickSync => cases he
      all_goals exact ih (invS_step s _ t h (by intro h; cases h) hs) he hr

theorem invS_init : InvS St.init := by
  refine ⟨inv_init, ?_, ?_, ?_, ?_, ?_, ?_⟩ <;> simp [St.init]

/-- **C93** (statistics, partial) The statistics of a server disappear with its leases, provided the ticker
did not read the lease before one was told.  Missing: exactly these runs, see `C93_permanent`. -/
theorem C93_statistics_go_partial (es : List Ev) (s : St) (h : run .init es = some s)
    (he : readsTooEarly es = false) (hl : s.leases = []) : s.stat = none := by
  have hi := invS_run invS_init he h
  cases hr : s.stat with
  | none => rfl
  | some x =>
    obtain ⟨id, t⟩ := x
    have := (hi.inv.stat id t hr).resolve_left (hi.stat id t hr)
    rw [hl] at this
    cases this

example : readsTooEarly (killed ++ [.expire 7]) = false ∧
    (run .init (killed ++ [.expire 7])).map (·.leases) = some [] := by decide

/-- Full statement: the statistics of a server that died disappear when its leases have run out. -/
def C93_statistics_statement : Prop :=
  ∀ es s, run .init es = some s → s.main = .dead → s.leases = [] → s.stat = none

/-- Nothing of the server is left that could touch etcd. -/
def Over (s : St) : Prop :=
  s.main = .dead ∧ s.nReg = 0 ∧ s.nStat = 0 ∧ s.pReg = [] ∧ s.wStat = [] ∧ s.sStat = 0 ∧ s.pStat = [] ∧
    s.ticker = .ended ∧ s.loopEnded = true

theorem over_step (t : Nat) (s : St) (e : Ev) (s' : St) (h : Over s ∧ s.stat = some (0, t) ∧ 0 ∉ s.leases)
    (hs : step s e = some s') : Over s' ∧ s'.stat = some (0, t) ∧ 0 ∉ s'.leases := by
  obtain ⟨⟨h1, h2, h3, h4, h5, h6, h7, h8, h9⟩, h10, h11⟩ := h
  unfold Over
  cases e <;> simp only [step, mainStep, putReg, putStat, accepts, die, dropLease] at hs <;> grind (splits := 30)

/-- **C93** fails for the statistics: when the first lease is a minute late (the ticker fires, `LeaseID` is
still 0, the entry is put without a lease) and the server is then killed, its statistics stay in
etcd for ever, whatever happens. -/
theorem C93_permanent :
    let es : List Ev := [.pass, .tick, .tickSync, .tickPut true, .kill]
    (∃ s, run .init es = some s) ∧
    ∀ es' s, run .init (es ++ es') = some s → s.stat = some (0, 1) := by
  refine ⟨⟨_, rfl⟩, fun es' s h => ?_⟩
  rw [run_append] at h
  exact (run_keeps (P := fun s => Over s ∧ s.stat = some (0, 1) ∧ 0 ∉ s.leases) (ok := fun _ => True)
    (fun a e b _ hp hs => over_step 1 a e b hp hs) es' _ s (fun _ _ => trivial)
    (by refine ⟨⟨rfl, rfl, rfl, rfl, rfl, rfl, rfl, rfl, rfl⟩, rfl, ?_⟩; exact List.not_mem_nil) h).2.1

theorem C93_statistics_statement_fails : ¬ C93_statistics_statement := by
  intro h
  have := h [.pass, .tick, .tickSync, .tickPut true, .kill] _ rfl rfl rfl
  cases this

/-! ## A server that stops takes its entries back -/

/-- No goroutine but the main one is at work. -/
def Quiet (s : St) : Prop :=
  s.nReg = 0 ∧ s.nStat = 0 ∧ s.pReg = [] ∧ s.wStat = [] ∧ s.sStat = 0 ∧ s.pStat = []

/-- Full statement: after a stop by signal in which etcd answers, and before any lease runs out, nothing of
the server is left in etcd. -/
def C93_stop_statement : Prop :=
  ∀ es s, run .init es = some s → .kill ∉ es → .main false ∉ es → s.main = .dead →
    s.reg = none ∧ s.stat = none

theorem stop_step (s : St) (e : Ev) (s' : St) (he : (∀ id, e ≠ .grant id) ∧ e ≠ .kill ∧ e ≠ .main false)
    (h : Quiet s ∧ s.ticker = .ended ∧ (s.main = .clear ∨ s.main = .unregister ∧ s.stat = none ∨
      (s.main = .close ∨ s.main = .exit ∨ s.main = .dead) ∧ s.stat = none ∧ s.reg = none))
    (hs : step s e = some s') :
    Quiet s' ∧ s'.ticker = .ended ∧ (s'.main = .clear ∨ s'.main = .unregister ∧ s'.stat = none ∨
      (s'.main = .close ∨ s'.main = .exit ∨ s'.main = .dead) ∧ s'.stat = none ∧ s'.reg = none) := by
  obtain ⟨⟨h2, h3, h4, h5, h6, h7⟩, h8, h9⟩ := h
  unfold Quiet
  cases e <;> simp only [step, mainStep, putReg, putStat, accepts, die, dropLease] at hs <;> grind (splits := 30)

/-- **C93** (stop, partial) When the ticker has ended and no notification is at work at the time `Clear` is
called, and no new lease is granted during the stop, then nothing of the server is left in etcd afterwards.
Missing: that the ticker has ended — nobody waits for it, see `C93_stop_statement_fails`. -/
theorem C93_stop_partial (s s' : St) (es : List Ev) (hr : run s es = some s') (hq : Quiet s)
    (ht : s.ticker = .ended) (hm : s.main = .clear)
    (he : ∀ e ∈ es, (∀ id, e ≠ .grant id) ∧ e ≠ .kill ∧ e ≠ .main false) (hd : s'.main = .dead) :
    s'.reg = none ∧ s'.stat = none := by
  have := run_keeps stop_step es s s' he ⟨hq, ht, .inl hm⟩ hr
  rcases this.2.2 with h | h | h
  · rw [hd] at h; cases h
  · rw [hd] at h; cases h.1
  · exact ⟨h.2.2, h.2.1⟩

/-- A server with both entries. -/
def up : List Ev := [.grant 7, .readReg, .putReg 7 true, .readStat, .setStat 7, .syncStat, .putStat 7 0 true]

example : (run .init (up ++ [.signal, .main true, .tickEnds])).map (fun s =>
      (decide (s.ticker = .ended ∧ s.main = .clear), s.reg, s.stat,
        s.nReg + s.nStat + s.sStat + s.pReg.length + s.wStat.length + s.pStat.length)) =
      some (true, some 7, some (7, 0), 0) ∧
    (run .init (up ++ [.signal, .main true, .tickEnds] ++ [.main true, .main true, .main true, .main true])).map
      (fun s => (decide (s.main = .dead), s.reg, s.stat)) = some (true, none, none) := by decide

/-- **C93** fails for a stop: the ticker has fired before the signal and its request arrives after `Clear`;
the stopped server has statistics in etcd again (until the lease runs out, or for ever when it has
none). -/
theorem C93_stop_statement_fails : ¬ C93_stop_statement := by
  intro h
  have := (h (up ++ [.tick, .tickSync, .signal, .main true, .main true, .tickPut true, .main true, .main true,
    .main true]) _ rfl (by decide) (by decide) rfl).2
  cases this

/-! ## A serving server keeps its entries -/

/-- Full statement: while the last lease granted exists, the server is serving, every request reaches
etcd and no goroutine is at work, both entries are there, and a tick refreshes the statistics. -/
def C93_alive_statement : Prop :=
  ∀ es s, run .init es = some s → s.main = .serving → s.cur ∈ s.leases → Quiet s → s.ticker = .idle →
    (∀ e ∈ es, (∀ id, e ≠ .putReg id false) ∧ (∀ id t, e ≠ .putStat id t false) ∧ e ≠ .tickPut false) →
    s.reg.isSome ∧ s.stat.isSome ∧
    ∀ s', run s [.tick, .tickSync, .tickPut true] = some s' → s'.stat.map (·.2) = some s.now

/-- The server of lease `id` with both entries under it. -/
structure Settled (id : Nat) (s : St) : Prop where
  quiet : Quiet s
  main : s.main = .serving
  closed : s.closed = false
  cancelled : s.cancelled = false
  lease : id ∈ s.leases
  sLease : s.sLease = id
  ticker : s.ticker = .idle ∨ s.ticker = .syncing ∨ ∃ t, s.ticker = .put id t
  reg : s.reg = some id
  stat : ∃ t, s.stat = some (id, t)

theorem settled_step (id : Nat) (s : St) (e : Ev) (s' : St)
    (he : (∀ i, e ≠ .grant i) ∧ e ≠ .expire id ∧ e ≠ .kill ∧ e ≠ .signal) (h : Settled id s)
    (hs : step s e = some s') : Settled id s' := by
  obtain ⟨⟨h2, h3, h4, h5, h6, h7⟩, h8, h9, hc, h10, h11, h12, h13, t, h14⟩ := h
  cases e <;> simp only [step, mainStep, putReg, putStat, accepts, die, dropLease] at hs <;>
    (refine ⟨⟨?_, ?_, ?_, ?_, ?_, ?_⟩, ?_, ?_, ?_, ?_, ?_, ?_, ?_, ?_⟩ <;> grind)

/-- **C93** (serving, partial) A server whose two entries are under its lease keeps them, however the
ticker runs and whether or not its requests arrive, until the lease is lost, a new one is granted or
the server stops; and a tick whose request arrives refreshes the statistics.  Missing: servers to
which several leases were told in a short time, see `C93_late_request` and `C93_stale_lease`. -/
theorem C93_serving_partial (id : Nat) (s s' : St) (es : List Ev) (hr : run s es = some s') (h : Settled id s)
    (he : ∀ e ∈ es, (∀ i, e ≠ .grant i) ∧ e ≠ .expire id ∧ e ≠ .kill ∧ e ≠ .signal) :
    s'.reg = some id ∧ (∃ t, s'.stat = some (id, t)) ∧
    ∀ s'', run s' [.tick, .tickSync, .tickPut true] = some s'' → s''.stat = some (id, s'.now) := by
  have hset := run_keeps (settled_step id) es s s' he h hr
  refine ⟨hset.reg, hset.stat, fun s'' h'' => ?_⟩
  have h1 := hset.sLease
  have h2 := hset.lease
  simp only [run, step] at h''
  split at h''
  · cases h''
  · rename_i t ht
    split at ht
    · cases ht
      simp only [if_true, putStat, accepts] at h''
      have hm := hset.main
      simp only [hm, h1, h2, decide_true, Bool.or_true, Bool.and_true, if_true] at h''
      cases h''
      rfl
    · cases ht

/-- On the way to `Settled`. -/
structure Settling (id T : Nat) (s : St) : Prop where
  now : T ≤ s.now
  main : s.main = .serving
  closed : s.closed = false
  cancelled : s.cancelled = false
  lease : id ∈ s.leases
  cur : s.cur = id
  ticker : s.ticker = .idle
  reg : s.nReg = 1 ∧ s.pReg = [] ∨ s.nReg = 0 ∧ s.pReg = [id] ∨ s.nReg = 0 ∧ s.pReg = [] ∧ s.reg = some id
  stat : s.nStat = 1 ∧ s.wStat = [] ∧ s.sStat = 0 ∧ s.pStat = [] ∨
    s.nStat = 0 ∧ s.wStat = [id] ∧ s.sStat = 0 ∧ s.pStat = [] ∨
    s.sLease = id ∧ s.nStat = 0 ∧ s.wStat = [] ∧ s.sStat = 1 ∧ s.pStat = [] ∨
    s.sLease = id ∧ s.nStat = 0 ∧ s.wStat = [] ∧ s.sStat = 0 ∧ (∃ t, T ≤ t ∧ s.pStat = [(id, t)]) ∨
    s.sLease = id ∧ s.nStat = 0 ∧ s.wStat = [] ∧ s.sStat = 0 ∧ s.pStat = [] ∧ ∃ t, T ≤ t ∧ s.stat = some (id, t)

/-- Specification: an event with a request that does not arrive. -/
def lost : Ev → Bool
  | .putReg _ false => true
  | .putStat _ _ false => true
  | .tickPut false => true
  | _ => false

theorem settling_step (id T : Nat) (s : St) (e : Ev) (s' : St)
    (he : ((∀ i, e ≠ .grant i) ∧ e ≠ .expire id ∧ e ≠ .kill ∧ e ≠ .signal) ∧ e ≠ .tick ∧ lost e = false)
    (h : Settling id T s) (hs : step s e = some s') : Settling id T s' := by
  obtain ⟨⟨he1, he2, he3, he4⟩, he5, he6⟩ := he
  obtain ⟨hT, h1, h2, hc, h3, h4, h5, h6, h7⟩ := h
  cases e
  case putReg i ok =>
    cases ok
    · cases he6
    simp only [step, putReg, accepts] at hs
    rcases h6 with h6 | h6 | h6
    · simp [h6.2] at hs
    · simp only [h6.2, List.mem_singleton] at hs
      split at hs
      · rename_i hi
        subst hi
        simp only [List.erase_cons_head, h3, decide_true, Bool.or_true, Bool.and_true, if_true] at hs
        cases hs
        exact ⟨hT, h1, h2, hc, h3, h4, h5, .inr (.inr ⟨h6.1, rfl, rfl⟩), h7⟩
      · cases hs
    · simp [h6.2.1] at hs
  case setStat i =>
    simp only [step] at hs
    rcases h7 with h7 | h7 | h7 | h7 | h7
    · simp [h7.2.1] at hs
    · simp only [h7.2.1, List.mem_singleton] at hs
      split at hs
      · rename_i hi
        subst hi
        simp only [List.erase_cons_head] at hs
        cases hs
        exact ⟨hT, h1, h2, hc, h3, h4, h5, h6, .inr (.inr (.inl ⟨rfl, h7.1, rfl, by simp [h7.2.2.1], h7.2.2.2⟩))⟩
      · cases hs
    · simp [h7.2.2.1] at hs
    · simp [h7.2.2.1] at hs
    · simp [h7.2.2.1] at hs
  case putStat i t ok =>
    cases ok
    · cases he6
    simp only [step, putStat, accepts] at hs
    rcases h7 with h7 | h7 | h7 | h7 | h7
    · simp [h7.2.2.2] at hs
    · simp [h7.2.2.2] at hs
    · simp [h7.2.2.2.2] at hs
    · obtain ⟨t', hT', ht'⟩ := h7.2.2.2.2
      simp only [ht', List.mem_singleton] at hs
      split at hs
      · rename_i hi
        cases hi
        simp only [List.erase_cons_head, h3, decide_true, Bool.or_true, Bool.and_true, if_true] at hs
        cases hs
        exact ⟨hT, h1, h2, hc, h3, h4, h5, h6,
          .inr (.inr (.inr (.inr ⟨h7.1, h7.2.1, h7.2.2.1, h7.2.2.2.1, rfl, _, hT', rfl⟩)))⟩
      · cases hs
    · simp [h7.2.2.2.2.1] at hs
  all_goals
    simp only [step, mainStep, putReg, putStat, accepts, die, dropLease] at hs
    refine ⟨?_, ?_, ?_, ?_, ?_, ?_, ?_, ?_, ?_⟩ <;> grind (splits := 40)

/-- **C93** (new lease, partial) A serving server at rest that is granted a lease has both entries under
that lease when its goroutines are done — whatever was there before —, the statistics read after the
lease was granted.  Missing: leases granted while
notifications of an earlier one are at work, or while the ticker fires. -/
theorem C93_new_lease_partial (id : Nat) (s s' : St) (es : List Ev) (hr : run s (.grant id :: es) = some s')
    (hq : Quiet s) (hm : s.main = .serving) (hc : s.closed = false ∧ s.cancelled = false)
    (ht : s.ticker = .idle)
    (he : ∀ e ∈ es, ((∀ i, e ≠ .grant i) ∧ e ≠ .expire id ∧ e ≠ .kill ∧ e ≠ .signal) ∧ e ≠ .tick ∧
      lost e = false) (hq' : Quiet s') :
    Settled id s' ∧ ∃ t, s.now ≤ t ∧ s'.stat = some (id, t) := by
  obtain ⟨q1, q2, q3, q4, q5, q6⟩ := hq
  rw [run] at hr
  simp only [step] at hr
  split at hr
  · cases hr
  · rename_i t hg
    split at hg
    · cases hg
      have hs : Settling id s.now s' := by
        refine run_keeps (settling_step id s.now) es _ s' he ?_ hr
        exact ⟨Nat.le_refl _, hm, hc.1, hc.2, List.mem_cons_self .., rfl, ht, .inl ⟨by simp [q1], q3⟩,
          .inl ⟨by simp [q2], q4, q5, q6⟩⟩
      obtain ⟨hT, h1, h2, hc, h3, h4, h5, h6, h7⟩ := hs
      obtain ⟨p1, p2, p3, p4, p5, p6⟩ := hq'
      have hst : ∃ t, s.now ≤ t ∧ s'.stat = some (id, t) := by
        rcases h7 with h | h | h | h | h
        · omega
        · rw [p4] at h; cases h.2.1
        · omega
        · obtain ⟨t, _, ht⟩ := h.2.2.2.2; rw [p6] at ht; cases ht
        · exact h.2.2.2.2.2
      refine ⟨⟨⟨p1, p2, p3, p4, p5, p6⟩, h1, h2, hc, h3, ?_, .inl h5, ?_, ?_⟩, hst⟩
      · rcases h7 with h | h | h | h | h
        · omega
        · rw [p4] at h; cases h.2.1
        · exact h.1
        · exact h.1
        · exact h.1
      · rcases h6 with h | h | h
        · omega
        · rw [p3] at h; cases h.2
        · exact h.2.2
      · obtain ⟨t, _, ht⟩ := hst; exact ⟨t, ht⟩
    · cases hg

/-- The start, and a second lease after the first was lost. -/
example : (run .init up).map (fun s => (s.reg, s.stat)) = some (some 7, some (7, 0)) ∧
    (run .init (up ++ [.expire 7, .pass, .grant 8, .readReg, .readStat, .setStat 8, .putReg 8 true, .syncStat,
      .putStat 8 1 true])).map (fun s => (s.reg, s.stat)) = some (some 8, some (8, 1)) := by decide

/-- Keeping lease 1 alive is refused, lease 2 is granted while lease 1 still exists, and the request of the
first notification arrives last: the registration is moved back to lease 1 and goes with it. -/
def late : List Ev := [.grant 1, .readReg, .readStat, .setStat 1, .syncStat, .putStat 1 0 true,
  .grant 2, .readReg, .putReg 2 true, .readStat, .setStat 2, .syncStat, .putStat 2 0 true,
  .putReg 1 true, .expire 1]

/-- **C93** fails for a serving server: all requests arrived, lease 2 is kept alive, no goroutine is at work,
and the server is not registered. -/
theorem C93_late_request : (run .init late).map (fun s =>
    (decide (s.main = .serving), decide (s.cur ∈ s.leases), s.reg, s.stat)) =
      some (true, true, none, some (2, 0)) := by decide

theorem C93_alive_statement_fails : ¬ C93_alive_statement := by
  intro h
  have := (h late _ rfl rfl (by decide) ⟨rfl, rfl, rfl, rfl, rfl, rfl⟩ rfl (by
    intro e he
    simp only [late, List.mem_cons, List.not_mem_nil, or_false] at he
    rcases he with h | h | h | h | h | h | h | h | h | h | h | h | h | h | h <;> subst h <;>
      refine ⟨?_, ?_, ?_⟩ <;> intros <;> simp)).1
  cases this

/-- A request under a lease that is gone and that no goroutine will replace. -/
def Stale (s : St) : Prop :=
  Quiet s ∧ s.sLease ≠ 0 ∧ s.sLease ∉ s.leases ∧
    (s.ticker = .idle ∨ s.ticker = .syncing ∨ s.ticker = .ended ∨ ∃ t, s.ticker = .put s.sLease t)

theorem stale_step (x : Option (Nat × Nat)) (s : St) (e : Ev) (s' : St) (he : ∀ i, e ≠ .grant i)
    (h : Stale s ∧ (s.stat = x ∨ s.stat = none)) (hs : step s e = some s') :
    Stale s' ∧ (s'.stat = x ∨ s'.stat = none) := by
  obtain ⟨⟨⟨h2, h3, h4, h5, h6, h7⟩, h8, h9, h10⟩, h11⟩ := h
  unfold Stale Quiet
  cases e <;> simp only [step, mainStep, putReg, putStat, accepts, die, dropLease] at hs <;> grind (splits := 30)

/-- **C93** When `LeaseID` names a lease that is gone, the statistics are never refreshed again, however often
the ticker fires and although every request reaches etcd, until a further lease is granted. -/
theorem C93_stale_lease (s s' : St) (es : List Ev) (h : Stale s) (hr : run s es = some s')
    (he : ∀ e ∈ es, ∀ i, e ≠ .grant i) : s'.stat = s.stat ∨ s'.stat = none :=
  (run_keeps (stale_step s.stat) es s s' he ⟨h, .inl rfl⟩ hr).2

/-- It happens: the goroutine of lease 1 stores its lease after that of lease 2 did.  The server is
serving, lease 2 exists, and the tick changes nothing. -/
theorem C93_stale_happens :
    ∃ s, run .init [.grant 1, .readReg, .readStat, .putReg 1 true, .grant 2, .readReg, .putReg 2 true, .readStat,
      .setStat 2, .syncStat, .putStat 2 0 true, .setStat 1, .syncStat, .expire 1, .putStat 1 0 true] = some s ∧
    Stale s ∧ s.main = .serving ∧ s.cur ∈ s.leases ∧ s.reg = some 2 ∧ s.stat = some (2, 0) ∧
    (run s [.pass, .tick, .tickSync, .tickPut true]).map (·.stat) = some (some (2, 0)) := by
  refine ⟨_, rfl, ⟨⟨rfl, rfl, rfl, rfl, rfl, rfl⟩, by decide, by decide, .inl rfl⟩, rfl, by decide, rfl, rfl, by decide⟩

/-! ## Registered and serving -/

/-- Everything but the result of listening. -/
def sameBut (a b : St) : Prop := { a with listening := none } = { b with listening := none }

/-- The same run with another result of listening. -/
def relisten (b : Bool) : Ev → Ev
  | .listen _ => .listen b
  | e => e

theorem relisten_step (b : Bool) (s t : St) (e : Ev) (s' : St) (h : sameBut s t)
    (hn : s.listening = none ↔ t.listening = none) (hs : step s e = some s') :
    ∃ t', step t (relisten b e) = some t' ∧ sameBut s' t' ∧ (s'.listening = none ↔ t'.listening = none) := by
  obtain ⟨_, _, _, _, _, _, _, _, _, _, _, _, _, _, _, _, _, _, l⟩ := s
  obtain ⟨_, _, _, _, _, _, _, _, _, _, _, _, _, _, _, _, _, _, l'⟩ := t
  unfold sameBut at *
  injection h
  subst_vars
  cases e <;> simp only [step, mainStep, putReg, putStat, accepts, die, dropLease, relisten] at hs ⊢ <;> grind

/-- **C93** Whether a server could listen has no influence on its entries: a server that failed to
listen (its port is taken) is registered, and stays so, exactly as one that serves. -/
theorem C93_listen_ignored (b : Bool) (es : List Ev) (s : St) (h : run .init es = some s) :
    ∃ t, run .init (es.map (relisten b)) = some t ∧ t.reg = s.reg ∧ t.stat = s.stat ∧ t.main = s.main := by
  have gen : ∀ (es : List Ev) (s t s' : St), sameBut s t → (s.listening = none ↔ t.listening = none) →
      run s es = some s' → ∃ t', run t (es.map (relisten b)) = some t' ∧ sameBut s' t' := by
    intro es
    induction es with
    | nil => intro s t s' h _ hr; cases hr; exact ⟨t, rfl, h⟩
    | cons e es ih =>
      intro s t s' h hn hr
      rw [run] at hr
      cases hs : step s e with
      | none => rw [hs] at hr; cases hr
      | some u =>
        rw [hs] at hr
        obtain ⟨u', h1, h2, h3⟩ := relisten_step b s t e u h hn hs
        obtain ⟨t', h4, h5⟩ := ih u u' s' h2 h3 hr
        exact ⟨t', by rw [List.map_cons, run, h1]; exact h4, h5⟩
  obtain ⟨t, h1, h2⟩ := gen es .init .init s rfl Iff.rfl h
  unfold sameBut at h2
  injection h2
  exact ⟨t, h1, by simp_all, by simp_all, by simp_all⟩

/-- A data server whose port is taken. -/
example : (run .init (.listen false :: up)).map (fun s => (s.listening, s.reg)) = some (some false, some 7) := by
  decide

end Verif.Entries
