/-!
# Stopping a server (C95)

Model of `graceful.ListenAndServe` (src/common/graceful/graceful.go:22-68) with the `Shutdown` of the servers:
the API server has that of `http.Server` (src/apiserver/internal/controller/http/server.go:14-17), the data server and the
metadata server stop an HTTP and a gRPC server (src/objectserver/internal/controller/http/router.go:50-66,
src/metaserver/internal/controller/http/http.go:45-61, and grpc.go:30-46 and 51-67 beside them).
What follows is the end of `Run` (src/apiserver/internal/app/app.go, src/objectserver/internal/app/app.go,
src/metaserver/internal/app/app.go), which closes databases and connections.

Trusted: `http.Server.Shutdown` refuses new connections, and returns when no request is left or its context ends;
`GracefulStop` returns when no call is left; `Stop` aborts all calls.
-/

namespace Verif.Shutdown

/-- How a request came in: the data server and the metadata server have both on one port (h2c_handler.go:25-48). -/
inductive Via
  | http
  | grpc
  deriving DecidableEq, Repr

/-- The kind of the server. -/
structure Kind where
  /-- there is a gRPC server -/
  grpc : Bool
  /-- `Shutdown` returns when its servers are stopped.  In router.go:50-66 and http.go:45-61 the group `dg` is
  filled but not waited for. -/
  waits : Bool
  deriving DecidableEq

/-- The API server, src/apiserver/internal/controller/http/server.go:14-17. -/
def apiServer : Kind := ⟨false, true⟩

/-- The data server and the metadata server, router.go:50-66 and http.go:45-61. -/
def storeServer : Kind := ⟨true, false⟩

/-- A goroutine that stops one of the servers: router.go:53-57 and 58-64. -/
inductive Stopper
  | none
  | pending
  | waiting
  | done
  deriving DecidableEq, Repr

/-- How far the process is: graceful.go:22-68 and the deferred calls of `Run`. -/
inductive Phase
  | serving
  /-- `wg.Wait()`, graceful.go:52 -/
  | draining
  /-- `ListenAndServe` has returned -/
  | cleaning
  /-- databases and connections are closed -/
  | closed
  | exited
  deriving DecidableEq, Repr

/-- The state of the process. -/
structure St where
  phase : Phase
  /-- the listener is open -/
  accepting : Bool
  /-- accepted and not answered -/
  inflight : List (Nat × Via)
  /-- answered while everything worked -/
  answered : List (Nat × Via)
  /-- answered after the databases were closed -/
  spoiled : List (Nat × Via)
  /-- aborted without an answer -/
  cut : List (Nat × Via)
  http : Stopper
  grpc : Stopper
  /-- 15 seconds have passed since the signal -/
  expired : Bool
  deriving DecidableEq

/-- A server that has just started. -/
def St.init : St := ⟨.serving, true, [], [], [], [], .none, .none, false⟩

/-- What may happen next. -/
inductive Ev
  | accept (r : Nat × Via)
  | answer (r : Nat × Via)
  | signal
  | expire
  | goHttp
  | goGrpc
  /-- `Shutdown` and then `wg.Wait()` return; `cancel` is called -/
  | proceed
  | close
  | exit
  deriving DecidableEq, Repr

/-- The context of the shutdown has ended: by its deadline, or by `cancel` (graceful.go:41) when `ListenAndServe`
returned. -/
def St.over (s : St) : Bool := s.expired || s.phase != .serving && s.phase != .draining

/-- The requests that came one way. -/
def St.flying (s : St) (v : Via) : List (Nat × Via) := s.inflight.filter (·.2 = v)

/-- graceful.go:34-66, router.go:50-66, grpc.go:30-46, the end of `Run`. -/
def step (k : Kind) (s : St) : Ev → Option St
  | .accept r =>
    -- a stopped gRPC server refuses calls
    if s.accepting ∧ s.phase ≠ .exited ∧ r ∉ s.inflight ∧ (r.2 = .grpc → k.grpc ∧ (s.grpc = .none ∨ s.grpc = .pending))
    then some { s with inflight := r :: s.inflight } else none
  | .answer r =>
    if r ∈ s.inflight ∧ s.phase ≠ .exited then
      some (if s.phase = .closed then { s with inflight := s.inflight.erase r, spoiled := r :: s.spoiled }
        else { s with inflight := s.inflight.erase r, answered := r :: s.answered })
    else none
  | .signal =>
    if s.phase = .serving then
      some { s with phase := .draining, http := .pending, grpc := if k.grpc then .pending else .done }
    else none
  | .expire => if s.phase = .draining then some { s with expired := true } else none
  | .goHttp =>
    match s.http with
    | .pending => if s.phase ≠ .exited then some { s with http := .waiting, accepting := false } else none
    | .waiting =>
      if s.phase ≠ .exited ∧ (s.flying .http = [] ∨ s.over) then some { s with http := .done } else none
    | _ => none
  | .goGrpc =>
    match s.grpc with
    | .pending => if s.phase ≠ .exited then some { s with grpc := .waiting } else none
    | .waiting =>
      if s.phase = .exited then none
      else if s.flying .grpc = [] then some { s with grpc := .done }
      else if s.over then
        some { s with grpc := .done, inflight := s.flying .http, cut := s.flying .grpc ++ s.cut }
      else none
    | _ => none
  | .proceed =>
    if s.phase = .draining ∧ (k.waits → s.http = .done ∧ s.grpc = .done) then some { s with phase := .cleaning } else none
  | .close => if s.phase = .cleaning then some { s with phase := .closed } else none
  | .exit => if s.phase = .closed then some { s with phase := .exited, inflight := [], cut := s.inflight ++ s.cut } else none

/-- A trace. -/
def run (k : Kind) (s : St) : List Ev → Option St
  | [] => some s
  | e :: es => match step k s e with
    | none => none
    | some s' => run k s' es

/-! ## Properties -/

/-- What holds of a server whose `Shutdown` waits. -/
structure Inv (k : Kind) (s : St) : Prop where
  serving : s.phase = .serving → s.cut = [] ∧ s.spoiled = [] ∧ s.expired = false ∧ s.http = .none ∧ s.grpc = .none
  draining : s.phase = .draining → s.spoiled = [] ∧ (s.expired = false → s.cut = []) ∧ s.http ≠ .none ∧ s.grpc ≠ .none
  http : s.http = .waiting ∨ s.http = .done → s.accepting = false
  httpDone : s.http = .done → s.expired = false → ∀ r ∈ s.inflight, r.2 ≠ .http
  grpcDone : s.grpc = .done → ∀ r ∈ s.inflight, r.2 ≠ .grpc
  noGrpc : k.grpc = false → ∀ r ∈ s.inflight, r.2 ≠ .grpc
  after : s.phase ≠ .serving → s.phase ≠ .draining → s.http = .done ∧ s.grpc = .done ∧
    (s.expired = false → s.cut = [] ∧ s.spoiled = [] ∧ s.inflight = [])

theorem flying_nil {s : St} {v : Via} : s.flying v = [] ↔ ∀ r ∈ s.inflight, r.2 ≠ v := by
  simp [St.flying, List.filter_eq_nil_iff]

theorem mem_flying {s : St} {v : Via} {r : Nat × Via} : r ∈ s.flying v ↔ r ∈ s.inflight ∧ r.2 = v := by
  simp [St.flying]

theorem Inv.init (k : Kind) : Inv k St.init := by
  constructor <;> simp [St.init]

theorem Inv.step {k : Kind} (hk : k.waits = true) {s s' : St} {e : Ev} (h : Inv k s) (hs : step k s e = some s') : Inv k s' := by
  obtain ⟨h1, h2, h3, h4, h5, h6, h7⟩ := h
  have herase : ∀ r a, a ∈ s.inflight.erase r → a ∈ s.inflight := fun r a => List.mem_of_mem_erase
  have hf := @flying_nil s
  have hm := @mem_flying s
  have hv : (∀ r ∈ s.inflight, r.2 ≠ .http) → (∀ r ∈ s.inflight, r.2 ≠ .grpc) → s.inflight = [] := by
    intro ha hb
    refine List.eq_nil_iff_forall_not_mem.2 fun r hr => ?_
    have := ha r hr
    have := hb r hr
    cases hv : r.2 <;> simp_all
  cases e <;> simp only [Shutdown.step] at hs <;> (constructor <;> grind (splits := 30) [St.over])

theorem Inv.run {k : Kind} (hk : k.waits = true) {es : List Ev} : ∀ {s s' : St}, Inv k s → run k s es = some s' → Inv k s' := by
  induction es with
  | nil => intro s s' h hr; cases hr; exact h
  | cons e es ih =>
    intro s s' h hr
    rw [Shutdown.run] at hr
    cases hs : Shutdown.step k s e with
    | none => rw [hs] at hr; cases hr
    | some s1 => rw [hs] at hr; exact ih (h.step hk hs) hr

/-- No request gets lost in the model. -/
theorem run_accounts {k : Kind} {es : List Ev} : ∀ {s s' : St}, run k s es = some s' →
    (∀ r, (.accept r ∈ es ∨ r ∈ s.inflight ∨ r ∈ s.answered ∨ r ∈ s.spoiled ∨ r ∈ s.cut) →
      r ∈ s'.inflight ∨ r ∈ s'.answered ∨ r ∈ s'.spoiled ∨ r ∈ s'.cut) ∧ (∀ r ∈ s.answered, r ∈ s'.answered) := by
  induction es with
  | nil => intro s s' h; cases h; simp
  | cons e es ih =>
    intro s s' h
    rw [run] at h
    cases hs : step k s e with
    | none => rw [hs] at h; cases h
    | some s1 =>
      rw [hs] at h
      have h1 : (∀ r, (e = .accept r ∨ r ∈ s.inflight ∨ r ∈ s.answered ∨ r ∈ s.spoiled ∨ r ∈ s.cut) →
          r ∈ s1.inflight ∨ r ∈ s1.answered ∨ r ∈ s1.spoiled ∨ r ∈ s1.cut) ∧ (∀ r ∈ s.answered, r ∈ s1.answered) := by
        clear ih h
        have herase : ∀ r a : Nat × Via, a ∈ s.inflight → a = r ∨ a ∈ s.inflight.erase r := by
          intro r a ha
          by_cases hr : a = r
          · exact .inl hr
          · exact .inr ((List.mem_erase_of_ne hr).2 ha)
        have hm := @mem_flying s
        have hv : ∀ r : Nat × Via, r ∈ s.inflight → r ∈ s.flying .http ∨ r ∈ s.flying .grpc := by
          intro r hr
          rw [hm, hm]
          cases r.2 <;> simp [hr]
        constructor
        · intro r
          cases e <;> simp only [step] at hs <;> grind (splits := 30)
        · intro r hr
          cases e <;> simp only [step] at hs <;> grind (splits := 30)
      refine ⟨fun r hr => (ih h).1 r ?_, fun r hr => (ih h).2 r (h1.2 r hr)⟩
      rcases hr with hr | hr
      · rcases List.mem_cons.1 hr with hr | hr
        · exact .inr (h1.1 r (.inl hr.symm))
        · exact .inl hr
      · exact .inr (h1.1 r (.inr hr))

/-- **C95** A server whose `Shutdown` waits, such as the API server: when it goes on to close its databases and
connections before the 15 seconds have passed, every request it has ever accepted is answered, and it accepts no
more. -/
theorem C95_drained {k : Kind} (hk : k.waits = true) {es : List Ev} {s : St} (hr : run k .init es = some s)
    (hp : s.phase = .cleaning ∨ s.phase = .closed ∨ s.phase = .exited) (he : s.expired = false) :
    (∀ r, .accept r ∈ es → r ∈ s.answered) ∧ s.accepting = false ∧ ∀ r, step k s (.accept r) = none := by
  have h := (Inv.init k).run hk hr
  have ha := h.after (by rintro h'; rw [h'] at hp; simp at hp) (by rintro h'; rw [h'] at hp; simp at hp)
  have hacc := h.http (.inr ha.1)
  obtain ⟨h1, h2, h3⟩ := ha.2.2 he
  refine ⟨fun r hr' => ?_, hacc, fun r => by simp [step, hacc]⟩
  have := (run_accounts hr).1 r (.inl hr')
  rw [h1, h2, h3] at this
  simpa using this

/-- **C95** It does go on: when the time is over the steps that are left are possible in every state, whatever
requests are not answered. -/
theorem C95_ends {k : Kind} {es : List Ev} {s : St} (hr : run k .init es = some s)
    (hp : s.phase = .draining) (he : s.expired = true) :
    ∃ es' s', run k s es' = some s' ∧ s'.phase = .cleaning ∧ es'.length ≤ 5 := by
  have hn : s.http ≠ .none ∧ s.grpc ≠ .none := by
    have : ∀ {es : List Ev} {s s' : St}, run k s es = some s' → (s.phase ≠ .serving → s.http ≠ .none ∧ s.grpc ≠ .none) →
        (s'.phase ≠ .serving → s'.http ≠ .none ∧ s'.grpc ≠ .none) := by
      intro es
      induction es with
      | nil => intro s s' h; cases h; exact id
      | cons e es ih =>
        intro s s' h h0
        rw [run] at h
        cases hs : step k s e with
        | none => rw [hs] at h; cases h
        | some s1 =>
          rw [hs] at h
          refine ih h ?_
          cases e <;> simp only [step] at hs <;> grind (splits := 30)
    exact this hr (by simp [St.init]) (by rw [hp]; simp)
  -- the HTTP server
  obtain ⟨e1, s1, h1, h2, h3, h4, h5, h6⟩ : ∃ es' s', run k s es' = some s' ∧ s'.phase = .draining ∧ s'.expired = true ∧
      s'.http = .done ∧ s'.grpc = s.grpc ∧ es'.length ≤ 2 := by
    cases hh : s.http with
    | none => exact absurd hh hn.1
    | pending =>
      refine ⟨[.goHttp, .goHttp], { s with http := .done, accepting := false }, ?_, hp, he, rfl, rfl, by decide⟩
      simp [run, step, hh, hp, he, St.over]
    | waiting =>
      refine ⟨[.goHttp], { s with http := .done }, ?_, hp, he, rfl, rfl, by decide⟩
      simp [run, step, hh, hp, he, St.over]
    | done => exact ⟨[], s, rfl, hp, he, hh, rfl, by decide⟩
  -- the gRPC server
  obtain ⟨e2, s2, g1, g2, g3, g4, g5⟩ : ∃ es' s', run k s1 es' = some s' ∧ s'.phase = .draining ∧
      s'.http = .done ∧ s'.grpc = .done ∧ es'.length ≤ 2 := by
    cases hh : s.grpc with
    | none => exact absurd hh hn.2
    | pending =>
      by_cases hf : s1.flying .grpc = []
      · refine ⟨[.goGrpc, .goGrpc], { s1 with grpc := .done }, ?_, h2, h4, rfl, by decide⟩
        have hf' : List.filter (fun x => decide (x.2 = Via.grpc)) s1.inflight = [] := hf
        simp [run, step, h5, hh, h2, St.flying, St.over, h3, -List.filter_eq_nil_iff]
        rw [if_pos hf']
      · refine ⟨[.goGrpc, .goGrpc], { s1 with grpc := .done, inflight := s1.flying .http, cut := s1.flying .grpc ++ s1.cut },
          ?_, h2, h4, rfl, by decide⟩
        have hf' : ¬ List.filter (fun x => decide (x.2 = Via.grpc)) s1.inflight = [] := hf
        simp [run, step, h5, hh, h2, h3, St.over, St.flying, -List.filter_eq_nil_iff]
        rw [if_neg hf']
    | waiting =>
      by_cases hf : s1.flying .grpc = []
      · refine ⟨[.goGrpc], { s1 with grpc := .done }, ?_, h2, h4, rfl, by decide⟩
        simp [run, step, h5, hh, h2, hf]
      · refine ⟨[.goGrpc], { s1 with grpc := .done, inflight := s1.flying .http, cut := s1.flying .grpc ++ s1.cut },
          ?_, h2, h4, rfl, by decide⟩
        simp [run, step, h5, hh, h2, hf, h3, St.over]
    | done => exact ⟨[], s1, rfl, h2, h4, h5.trans hh, by decide⟩
  have happ : ∀ (es es' : List Ev) (s s' : St), run k s es = some s' → run k s (es ++ es') = run k s' es' := by
    intro es
    induction es with
    | nil => intro es' s s' h; cases h; rfl
    | cons e es ih =>
      intro es' s s' h
      rw [List.cons_append, run] at *
      cases hs : step k s e with
      | none => rw [hs] at h; cases h
      | some s1 => rw [hs] at h; exact ih es' s1 s' h
  refine ⟨e1 ++ (e2 ++ [.proceed]), { s2 with phase := .cleaning }, ?_, rfl, ?_⟩
  · rw [happ _ _ _ _ h1, happ _ _ _ _ g1]
    simp [run, step, g2, g3, g4]
  · simp only [List.length_append, List.length_cons, List.length_nil]; omega

/-- The API server answers a request that is under way, and only then goes on. -/
example : ((run apiServer .init [.accept (1, .http), .signal, .goHttp, .answer (1, .http), .goHttp, .proceed, .close, .exit]).map
      fun s => (s.phase, s.answered, s.cut)) = some (.exited, [(1, .http)], []) ∧
    run apiServer .init [.accept (1, .http), .signal, .goHttp, .goHttp] = none ∧
    run apiServer .init [.accept (1, .http), .signal, .proceed] = none := by
  decide

/-- When the time is over it goes on nevertheless. -/
example : ((run apiServer .init [.accept (1, .http), .signal, .goHttp, .expire, .goHttp, .proceed, .close, .exit]).map
      fun s => (s.phase, s.answered, s.cut)) = some (.exited, [], [(1, .http)]) := by
  decide

/-- **C95**, the statement for all servers. -/
def C95_statement (k : Kind) : Prop :=
  ∀ (es : List Ev) (s : St), run k .init es = some s → s.phase = .exited → s.expired = false →
    ∀ r, .accept r ∈ es → r ∈ s.answered

theorem C95_api : C95_statement apiServer :=
  fun _ _ hr hp he => (C95_drained rfl hr (.inr (.inr hp)) he).1

/-- **C95, refuted.** The data server and the metadata server do not wait: the process ends at once, with the requests
it has accepted. -/
theorem C95_store_statement_fails : ¬ C95_statement storeServer := by
  intro h
  have := h [.accept (1, .http), .signal, .proceed, .close, .exit]
    ⟨.exited, true, [], [], [], [(1, .http)], .pending, .pending, false⟩ (by decide) rfl rfl (1, .http) (by decide)
  revert this; decide

/-- **C95, refuted.** A call is aborted without any time, because the return of `Shutdown` ends the context of the
shutdown; a request is accepted after the databases were closed, because the goroutine that closes the listener has not
run yet, and is answered by a server that has no database. -/
theorem C95_store_no_time :
    ((run storeServer .init [.accept (1, .grpc), .signal, .goGrpc, .proceed, .goGrpc]).map fun s => (s.expired, s.cut)) =
      some (false, [(1, .grpc)]) ∧
    ((run storeServer .init [.signal, .proceed, .close, .accept (2, .http), .answer (2, .http)]).map
      fun s => (s.expired, s.spoiled)) = some (false, [(2, .http)]) := by
  decide

/-- **C95** for these servers, partial: nothing is cut off if no request was under way when the signal came and none came
after it.  Missing: everything else (`C95_store_statement_fails`). -/
theorem C95_store_partial {k : Kind} {es es' : List Ev} {s s' : St} (hr : run k .init es = some s) (hs : s.phase = .serving)
    (hi : s.inflight = []) (hr' : run k s (.signal :: es') = some s') (hn : ∀ r, .accept r ∉ es') :
    (∀ r, .accept r ∈ es → r ∈ s'.answered) ∧ s'.cut = [] ∧ s'.spoiled = [] := by
  have h0 : s.cut = [] ∧ s.spoiled = [] := by
    have : ∀ {es : List Ev} {s s' : St}, run k s es = some s' →
        (s.phase = .serving → s.cut = [] ∧ s.spoiled = [] ∧ s.http = .none ∧ s.grpc = .none) →
        (s'.phase = .serving → s'.cut = [] ∧ s'.spoiled = [] ∧ s'.http = .none ∧ s'.grpc = .none) := by
      intro es
      induction es with
      | nil => intro s s' h; cases h; exact id
      | cons e es ih =>
        intro s s' h h0
        rw [run] at h
        cases hs : step k s e with
        | none => rw [hs] at h; cases h
        | some s1 =>
          rw [hs] at h
          refine ih h ?_
          cases e <;> simp only [step] at hs <;> grind (splits := 30)
    have := this hr (by simp [St.init]) hs
    exact ⟨this.1, this.2.1⟩
  have h1 : ∀ {es : List Ev} {s s' : St}, run k s es = some s' → (∀ r, .accept r ∉ es) →
      s.inflight = [] ∧ s.cut = [] ∧ s.spoiled = [] → s'.inflight = [] ∧ s'.cut = [] ∧ s'.spoiled = [] := by
    intro es
    induction es with
    | nil => intro s s' h _; cases h; exact id
    | cons e es ih =>
      intro s s' h hn h0
      rw [run] at h
      cases hs : step k s e with
      | none => rw [hs] at h; cases h
      | some s1 =>
        rw [hs] at h
        refine ih h (fun r hr => hn r (List.mem_cons_of_mem _ hr)) ?_
        have hn' : ∀ r, e ≠ .accept r := fun r hr => hn r (by simp [hr])
        have hf : ∀ v, s.flying v = [] := fun v => by simp [St.flying, h0.1]
        cases e <;> simp only [step] at hs <;> grind (splits := 30)
  have h2 := h1 hr' (by simpa using hn) ⟨hi, h0⟩
  refine ⟨fun r hr2 => ?_, h2.2⟩
  have h3 := (run_accounts hr).1 r (.inl hr2)
  rw [hi, h0.1, h0.2] at h3
  exact (run_accounts hr').2 r (by simpa using h3)

example : (run storeServer .init [.accept (1, .http), .answer (1, .http), .signal, .goHttp, .proceed, .close, .exit]).map
    (fun s => (s.answered, s.cut)) = some ([(1, .http)], []) := by
  decide

end Verif.Shutdown
