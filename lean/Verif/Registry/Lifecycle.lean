import Verif.Registry.Discovery

/-!
# Keeping a server registered (C69)

`Lifecycle.DeadLoop` obtains a lease, tells the subscribers (who register under it), keeps it
alive, and starts again when it is lost; src/common/registry/etcd_lifecycle.go.

Modelled: the loop as a function of etcd's answers, with the mutex explicit: a goroutine that
locks a Go mutex which is already locked — also by itself — waits for ever.  The subscribers
run at once (in the code each runs in its own goroutine); the waiting times are left out.
-/

namespace Verif.Lifecycle

/-- How keeping a lease alive ends: refused at once, the channel closes because the lease is
lost, or because `Close` was called. -/
inductive Alive where
  | refused
  | lost
  | closed
deriving DecidableEq

/-- What etcd answers in one round of the loop. -/
inductive Round where
  | noGrant
  | grant (lease : Nat) (alive : Alive)
deriving DecidableEq

/-- The loop: the mutex, the current lease, the leases the subscribers were told, the leases
known to be revoked, whether the loop has returned; etcd_lifecycle.go:11-19. -/
structure St where
  locked : Bool
  lease : Option Nat
  told : List Nat
  revoked : List Nat
  ended : Bool
deriving DecidableEq

/-- `NewLifecycle`; etcd_lifecycle.go:21-30. -/
def St.init : St := ⟨false, none, [], [], false⟩

/-- The end of a round: `Close` revokes the lease and returns, otherwise the loop goes on;
etcd_lifecycle.go:66-84. -/
def afterAlive (s : St) (id : Nat) : Alive → St
  | .refused => s
  | .lost => s
  | .closed => { s with revoked := s.revoked ++ [id], ended := true }

/-- One round; etcd_lifecycle.go:49-84.  `mux.Lock` on a locked mutex never returns: the state
stays as it is.  When `Grant` fails, `continue` is reached with the mutex still locked (53-57). -/
def round (s : St) (r : Round) : St :=
  if s.ended || s.locked then s
  else match r with
    | .noGrant => { s with locked := true }
    | .grant id alive =>
      afterAlive { s with locked := false, lease := some id, told := s.told ++ [id] } id alive

/-- The loop over the answers of etcd. -/
def run (rs : List Round) : St := rs.foldl round St.init

/-- `Lease()`: waits for ever (`none`) while the mutex is locked; etcd_lifecycle.go:41-45. -/
def leaseCall (s : St) : Option (Option Nat) := if s.locked then none else some s.lease

/-- Specification: the leases granted, in order. -/
def granted : List Round → List Nat
  | [] => []
  | .noGrant :: rs => granted rs
  | .grant id _ :: rs => id :: granted rs

/-- The property: as long as `Close` was not called, the subscribers are told every lease that
etcd grants when asked, so the server registers again as soon as etcd answers; and `Lease()`
answers with the latest one. -/
def C69_statement : Prop :=
  ∀ rs : List Round, (∀ id, Round.grant id .closed ∉ rs) →
    (run rs).told = granted rs ∧ leaseCall (run rs) = some (granted rs).getLast?

theorem run_told (rs : List Round) : ∀ s : St, s.locked = false → s.ended = false →
    (∀ id, Round.grant id .closed ∉ rs) → Round.noGrant ∉ rs →
    (rs.foldl round s).told = s.told ++ granted rs ∧ (rs.foldl round s).locked = false ∧
      (rs.foldl round s).ended = false ∧
      (rs.foldl round s).lease = ((granted rs).getLast?.or s.lease) := by
  induction rs with
  | nil => intro s h1 h2 _ _; simp [granted, h1, h2]
  | cons r rs ih =>
    intro s h1 h2 hc hn
    simp only [List.foldl_cons]
    cases r with
    | noGrant => exact absurd List.mem_cons_self hn
    | grant id al =>
      have hal : al ≠ .closed := by rintro rfl; exact hc id List.mem_cons_self
      have hs : round s (.grant id al) = { s with locked := false, lease := some id, told := s.told ++ [id] } := by
        cases al with
        | closed => exact absurd rfl hal
        | refused => simp [round, h1, h2, afterAlive]
        | lost => simp [round, h1, h2, afterAlive]
      rw [hs]
      obtain ⟨a, b, c, d⟩ := ih { s with locked := false, lease := some id, told := s.told ++ [id] } rfl h2
        (fun id hm => hc id (List.mem_cons_of_mem _ hm)) (fun hm => hn (List.mem_cons_of_mem _ hm))
      refine ⟨by rw [a]; simp [granted], b, c, ?_⟩
      rw [d]
      simp only [granted]
      cases hg : granted rs with
      | nil => simp
      | cons x xs => simp [List.getLast?_cons]

/-- As long as etcd grants every lease it is asked for, the subscribers are told every lease in
order, however often leases are lost or keeping them alive is refused.  Missing for the full
property: a failed grant (see `C69_stuck`). -/
theorem C69_renewed_partial (rs : List Round) (hc : ∀ id, Round.grant id .closed ∉ rs)
    (hn : Round.noGrant ∉ rs) :
    (run rs).told = granted rs ∧ leaseCall (run rs) = some (granted rs).getLast? := by
  obtain ⟨a, b, -, d⟩ := run_told rs St.init rfl rfl hc hn
  refine ⟨by simpa [St.init, run] using a, ?_⟩
  simp only [leaseCall, run, b, Bool.false_eq_true, if_false, d]
  simp [St.init]

example : (run [.grant 1 .lost, .grant 2 .refused, .grant 3 .lost]).told = [1, 2, 3] ∧
    leaseCall (run [.grant 1 .lost, .grant 2 .refused, .grant 3 .lost]) = some (some 3) := by decide

/-- After `Close` the lease is revoked and no other is asked for. -/
theorem C69_close (rs rest : List Round) (id : Nat) (hc : ∀ id, Round.grant id .closed ∉ rs)
    (hn : Round.noGrant ∉ rs) :
    (run (rs ++ .grant id .closed :: rest)).told = granted rs ++ [id] ∧
      id ∈ (run (rs ++ .grant id .closed :: rest)).revoked := by
  obtain ⟨a, b, c, -⟩ := run_told rs St.init rfl rfl hc hn
  have stop : ∀ (rest : List Round) (s : St), s.ended = true → rest.foldl round s = s := by
    intro rest
    induction rest with
    | nil => intro s _; rfl
    | cons r rest ih =>
      intro s h
      have : round s r = s := by simp [round, h]
      simp only [List.foldl_cons, this, ih s h]
  simp only [run, List.foldl_append, List.foldl_cons]
  have hr : round (rs.foldl round St.init) (.grant id .closed) =
      { (rs.foldl round St.init) with
          locked := false, lease := some id, told := (rs.foldl round St.init).told ++ [id],
          revoked := (rs.foldl round St.init).revoked ++ [id], ended := true } := by
    simp [round, b, c, afterAlive]
  rw [hr, stop rest _ rfl]
  constructor
  · simp only [a]
    simp [St.init]
  · simp

example : (run [.grant 1 .lost, .grant 2 .closed, .grant 3 .lost]).told = [1, 2] := by decide

/-- FINDING.  One failed `Grant` stops the loop for ever: the mutex stays locked, so the loop
waits for itself at the next round, whatever etcd answers later. -/
theorem C69_stuck (rs rest : List Round) (hc : ∀ id, Round.grant id .closed ∉ rs)
    (hn : Round.noGrant ∉ rs) :
    (run (rs ++ .noGrant :: rest)).told = granted rs ∧
      leaseCall (run (rs ++ .noGrant :: rest)) = none := by
  obtain ⟨a, b, c, -⟩ := run_told rs St.init rfl rfl hc hn
  have stop : ∀ (rest : List Round) (s : St), s.locked = true → rest.foldl round s = s := by
    intro rest
    induction rest with
    | nil => intro s _; rfl
    | cons r rest ih =>
      intro s h
      have : round s r = s := by simp [round, h]
      simp only [List.foldl_cons, this, ih s h]
  have hr : (round (rs.foldl round St.init) .noGrant) = { (rs.foldl round St.init) with locked := true } := by
    simp [round, b, c]
  simp only [run, List.foldl_append, List.foldl_cons]
  rw [hr, stop rest _ rfl]
  constructor
  · simpa [St.init] using a
  · simp [leaseCall]

example : (run [.grant 1 .lost, .noGrant, .grant 2 .lost, .grant 3 .lost]).told = [1] := by decide

theorem C69_statement_fails : ¬ C69_statement := by
  intro h
  have := (h [.grant 1 .lost, .noGrant, .grant 2 .lost] (by
    intro id hm
    simp only [List.mem_cons, List.not_mem_nil, or_false] at hm
    rcases hm with hm | hm | hm <;> cases hm)).1
  revert this
  decide

/-- The consequence for discovery: the registration of a data server under its first lease goes
with that lease, and is never renewed although etcd answers again. -/
theorem C69_gone (serv i addr : Str) (rest : List Round) :
    let st := run (.grant 1 .lost :: .noGrant :: rest)
    -- one registration per lease told, then the loss of each lost lease
    let ls : List Discovery.Life := st.told.flatMap fun _ => [.lease true, .expire]
    ∀ ro, Discovery.standing (ls.foldl (Discovery.life serv i addr) (.plain, [])).2 ⟨serv, i, ro⟩ = none := by
  intro st ls ro
  have ht : st.told = [1] := by
    have := (C69_stuck [.grant 1 .lost] rest (by
      intro id hm
      simp only [List.mem_cons, List.not_mem_nil, or_false] at hm
      cases hm) (by decide)).1
    simpa [granted] using this
  have hl : ls = [.lease true, .expire] := by simp [ls, ht]
  rw [hl]
  cases ro <;> simp [Discovery.life, Discovery.standing]

end Verif.Lifecycle
