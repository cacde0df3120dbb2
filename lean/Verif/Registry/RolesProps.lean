import Verif.Registry.Roles

/-!
# C91 — a metadata server is registered in the role it has

`C91_serial_partial`: when at most one change of leadership or lease is being handled at a time, a server with a
valid lease is registered exactly once, as master when it is the leader and as slave otherwise.  Every change
runs in a goroutine of its own, though, and two that overlap leave the server registered in the wrong role or
in both, for as long as its lease lives; a change that comes before the subscription is lost.
-/

namespace Verif.Registry.Roles

/-- Registered in exactly the role the server has. -/
def Right (s : State) : Prop := key s s.leader = some s.lease ∧ key s (!s.leader) = none

/-- **C91**, the full statement: whenever no goroutine is under way and the lease is valid the server is
registered in exactly its role. -/
def C91_statement : Prop := ∀ acts : List Act, (exec init acts).gs = [] → (exec init acts).valid = true →
  Right (exec init acts)

/-- One thing at a time: changes come after the subscription and only when nothing is being handled, and so do
new leases.  Leases may be lost at any time. -/
def Serial (s : State) : Act → Prop
  | .change _ => s.subscribed = true ∧ s.gs = []
  | .grant => s.gs = []
  | _ => True

def SerialRun : State → List Act → Prop
  | _, [] => True
  | s, a :: r => Serial s a ∧ SerialRun (step s a) r

instance (s : State) (a : Act) : Decidable (Serial s a) := by
  cases a <;> dsimp only [Serial] <;> infer_instance
instance instSerialRun : (s : State) → (l : List Act) → Decidable (SerialRun s l)
  | _, [] => .isTrue trivial
  | s, a :: r => @instDecidableAnd _ _ _ (instSerialRun (step s a) r)

/-- The state while at most one change is being handled. -/
inductive Inv (s : State) : Prop where
  | idle (hg : s.gs = []) (hr : s.role = s.leader) (ho : key s (!s.role) = none)
      (hk : s.valid = true → key s s.role = some s.lease)
  | del (hg : s.gs = [.del s.leader]) (ho : key s (!s.role) = none)
  | name (hg : s.gs = [.name s.leader]) (hm : s.master = none) (hs : s.slave = none)
  | ask (b : Bool) (hg : s.gs = [.ask b]) (hr : s.role = s.leader) (hm : s.master = none) (hs : s.slave = none)
  | put (l : Nat) (hg : s.gs = [.put l]) (hr : s.role = s.leader) (hm : s.master = none) (hs : s.slave = none)
      (hl : s.valid = true → l = s.lease)
  | renew (hg : s.gs = [.renew]) (hr : s.role = s.leader) (ho : key s (!s.role) = none)

theorem key_set (s : State) (r q : Bool) (v : Option Nat) : key (setKey s r v) q = if q = r then v else key s q := by
  cases r <;> cases q <;> rfl

theorem set_fields (s : State) (r : Bool) (v : Option Nat) :
    (setKey s r v).leader = s.leader ∧ (setKey s r v).role = s.role ∧ (setKey s r v).lease = s.lease ∧
      (setKey s r v).valid = s.valid ∧ (setKey s r v).gs = s.gs ∧ (setKey s r v).subscribed = s.subscribed := by
  cases r <;> exact ⟨rfl, rfl, rfl, rfl, rfl, rfl⟩

theorem both_none {s : State} {r : Bool} (h1 : key s r = none) (h2 : key s (!r) = none) :
    s.master = none ∧ s.slave = none := by
  cases r
  · exact ⟨h2, h1⟩
  · exact ⟨h1, h2⟩

theorem key_none {s : State} (hm : s.master = none) (hs : s.slave = none) (r : Bool) : key s r = none := by
  cases r
  · exact hs
  · exact hm

/-- A put under the valid lease, or under one that may be gone, by the only goroutine. -/
theorem Inv.registered {s : State} {l : Nat} (hr : s.role = s.leader) (ho : key s (!s.role) = none)
    (hl : s.valid = true → l = s.lease) : Inv { register s l with gs := [] } := by
  unfold register
  by_cases hc : l = 0 ∨ (s.valid = true ∧ l = s.lease)
  · rw [if_pos hc]
    have hf := set_fields s s.role (some l)
    refine .idle rfl (by show (setKey s s.role (some l)).role = (setKey s s.role (some l)).leader; rw [hf.1, hf.2.1, hr]) ?_ ?_
    · show key (setKey s s.role (some l)) (!(setKey s s.role (some l)).role) = none
      rw [hf.2.1, key_set, if_neg (by cases s.role <;> simp)]
      exact ho
    · intro hv
      have hv : (setKey s s.role (some l)).valid = true := hv
      rw [hf.2.2.2.1] at hv
      show key (setKey s s.role (some l)) (setKey s s.role (some l)).role = some (setKey s s.role (some l)).lease
      rw [hf.2.1, hf.2.2.1, key_set, if_pos rfl, hl hv]
  · rw [if_neg hc]
    refine .idle rfl hr ho ?_
    intro hv
    exact absurd (.inr ⟨hv, hl hv⟩) hc

theorem lose_key {s : State} {r : Bool} (h : key s r = none) : key (lose s) r = none := by
  unfold lose
  split
  · cases r
    · show (if s.slave = some s.lease then none else s.slave) = none
      rw [show s.slave = none from h]; rfl
    · show (if s.master = some s.lease then none else s.master) = none
      rw [show s.master = none from h]; rfl
  · exact h

theorem lose_fields (s : State) : (lose s).leader = s.leader ∧ (lose s).role = s.role ∧ (lose s).gs = s.gs ∧
    (lose s).valid = false := by
  unfold lose
  split
  · exact ⟨rfl, rfl, rfl, rfl⟩
  · rename_i h; exact ⟨rfl, rfl, rfl, by simpa using h⟩

theorem Inv.lose {s : State} (h : Inv s) : Inv (lose s) := by
  obtain ⟨h1, h2, h3, h4⟩ := lose_fields s
  cases h with
  | idle hg hr ho hk =>
    refine .idle (h3.trans hg) (by rw [h1, h2, hr]) (by rw [h2]; exact lose_key ho) ?_
    intro hv
    rw [h4] at hv
    exact nomatch hv
  | del hg ho => exact .del (by rw [h3, h1, hg]) (by rw [h2]; exact lose_key ho)
  | name hg hm hs => exact .name (by rw [h3, h1, hg]) (lose_key (r := true) hm) (lose_key (r := false) hs)
  | ask b hg hr hm hs => exact .ask b (h3.trans hg) (by rw [h1, h2, hr]) (lose_key (r := true) hm) (lose_key (r := false) hs)
  | put l hg hr hm hs hl =>
    refine .put l (h3.trans hg) (by rw [h1, h2, hr]) (lose_key (r := true) hm) (lose_key (r := false) hs) ?_
    intro hv
    rw [h4] at hv
    exact nomatch hv
  | renew hg hr ho => exact .renew (h3.trans hg) (by rw [h1, h2, hr]) (by rw [h2]; exact lose_key ho)

theorem run_one {s : State} {g : G} (hg : s.gs = [g]) (i : Nat) :
    run s i = s ∨ run s i = (match (advance s g).2 with
      | some g' => { (advance s g).1 with gs := [g'] }
      | none => { (advance s g).1 with gs := [] }) := by
  cases i with
  | zero => refine .inr ?_; simp only [run, hg, List.getElem?_cons_zero]; cases g <;> rfl
  | succ i => refine .inl ?_; simp [run, hg]

theorem Inv.run {s : State} (h : Inv s) (i : Nat) : Inv (run s i) := by
  have keep : Inv s := h
  cases h with
  | idle hg hr ho hk =>
    have : Roles.run s i = s := by simp [Roles.run, hg]
    rw [this]; exact keep
  | del hg ho =>
    rcases run_one hg i with e | e <;> rw [e]
    · exact keep
    · have hf := set_fields s s.role none
      have h1 : key (setKey s s.role none) s.role = none := by rw [key_set, if_pos rfl]
      have h2 : key (setKey s s.role none) (!s.role) = none := by
        rw [key_set, if_neg (by cases s.role <;> simp)]; exact ho
      have hb := both_none h1 h2
      refine .name ?_ hb.1 hb.2
      show [G.name s.leader] = [G.name (setKey s s.role none).leader]
      rw [hf.1]
  | name hg hm hs =>
    rcases run_one hg i with e | e <;> rw [e]
    · exact keep
    · exact .ask s.leader rfl rfl hm hs
  | ask b hg hr hm hs =>
    rcases run_one hg i with e | e <;> rw [e]
    · exact keep
    · exact .put s.lease rfl hr hm hs fun _ => rfl
  | put l hg hr hm hs hl =>
    rcases run_one hg i with e | e <;> rw [e]
    · exact keep
    · exact Inv.registered hr (key_none hm hs _) hl
  | renew hg hr ho =>
    rcases run_one hg i with e | e <;> rw [e]
    · exact keep
    · exact Inv.registered hr ho fun _ => rfl

theorem Inv.step {s : State} (h : Inv s) {a : Act} (hs : Serial s a) : Inv (step s a) := by
  cases a with
  | change b =>
    obtain ⟨hsub, hg⟩ := hs
    cases h with
    | idle hg' hr ho hk =>
      refine .del ?_ ho
      show (if s.subscribed then s.gs ++ [.del b] else s.gs) = [G.del b]
      rw [hsub, hg]; rfl
    | del hg' => rw [hg] at hg'; exact nomatch hg'
    | name hg' => rw [hg] at hg'; exact nomatch hg'
    | ask b hg' => rw [hg] at hg'; exact nomatch hg'
    | put l hg' => rw [hg] at hg'; exact nomatch hg'
    | renew hg' => rw [hg] at hg'; exact nomatch hg'
  | subscribe =>
    cases h with
    | idle hg hr ho hk => exact .idle hg hr ho hk
    | del hg ho => exact .del hg ho
    | name hg hm hs => exact .name hg hm hs
    | ask b hg hr hm hs => exact .ask b hg hr hm hs
    | put l hg hr hm hs hl => exact .put l hg hr hm hs hl
    | renew hg hr ho => exact .renew hg hr ho
  | grant =>
    have hg : s.gs = [] := hs
    show Inv (if s.valid then s else { s with lease := s.lease + 1, valid := true, gs := s.gs ++ [.renew] })
    by_cases hv : s.valid = true
    · rw [if_pos hv]; exact h
    · rw [if_neg hv]
      cases h with
      | idle hg' hr ho hk => exact .renew (by rw [hg]; rfl) hr ho
      | del hg' => rw [hg] at hg'; exact nomatch hg'
      | name hg' => rw [hg] at hg'; exact nomatch hg'
      | ask b hg' => rw [hg] at hg'; exact nomatch hg'
      | put l hg' => rw [hg] at hg'; exact nomatch hg'
      | renew hg' => rw [hg] at hg'; exact nomatch hg'
  | lose => exact h.lose
  | run i => exact h.run i

theorem Inv.exec {s : State} (h : Inv s) {acts : List Act} (hs : SerialRun s acts) : Inv (exec s acts) := by
  induction acts generalizing s with
  | nil => exact h
  | cons a r ih => exact ih (h.step hs.1) hs.2

theorem Inv.init : Inv init := .idle rfl rfl rfl fun h => (nomatch h)

/-- **C91** (partial: one change of leadership or lease at a time, none before the subscription): a server with
a valid lease and no goroutine under way is registered exactly once, in its role. -/
theorem C91_serial_partial {acts : List Act} (hs : SerialRun init acts) (hg : (exec init acts).gs = [])
    (hv : (exec init acts).valid = true) : Right (exec init acts) := by
  have h := Inv.init.exec hs
  cases h with
  | idle _ hr ho hk =>
    exact ⟨by rw [← hr]; exact hk hv, by rw [← hr]; exact ho⟩
  | del hg' => rw [hg] at hg'; exact nomatch hg'
  | name hg' => rw [hg] at hg'; exact nomatch hg'
  | ask b hg' => rw [hg] at hg'; exact nomatch hg'
  | put l hg' => rw [hg] at hg'; exact nomatch hg'
  | renew hg' => rw [hg] at hg'; exact nomatch hg'

/-- The server becomes leader before its first lease, loses the lease while it is registering as slave again,
and gets a new one. -/
def serialActs : List Act :=
  [.subscribe, .change true, .run 0, .run 0, .run 0, .run 0, .grant, .run 0, .change false, .run 0, .run 0, .lose,
   .run 0, .run 0, .grant, .run 0]

example : SerialRun init serialActs ∧ (exec init serialActs).gs = [] ∧ (exec init serialActs).valid = true ∧
    (exec init serialActs).slave = some 2 ∧ (exec init serialActs).master = none := by decide

/-- **C91** (never twice under one name, in any execution): whatever overlaps, the keys of a server hang on its
present lease or on none. -/
theorem C91_leases (acts : List Act) : ∀ r l, key (exec init acts) r = some l →
    l = 0 ∨ ((exec init acts).valid = true ∧ l = (exec init acts).lease) := by
  have reg : ∀ (s : State) (l : Nat), (∀ r m, key s r = some m → m = 0 ∨ (s.valid = true ∧ m = s.lease)) →
      ∀ (g : List G) r m, key { register s l with gs := g } r = some m →
        m = 0 ∨ ({ register s l with gs := g }.valid = true ∧ m = { register s l with gs := g }.lease) := by
    intro s l h g r m hm
    have hm : key (register s l) r = some m := hm
    show m = 0 ∨ ((register s l).valid = true ∧ m = (register s l).lease)
    unfold register at hm ⊢
    by_cases hc : l = 0 ∨ (s.valid = true ∧ l = s.lease)
    · rw [if_pos hc] at hm ⊢
      have hf := set_fields s s.role (some l)
      rw [hf.2.2.1, hf.2.2.2.1]
      rw [key_set] at hm
      by_cases hr : r = s.role
      · rw [if_pos hr] at hm
        cases hm
        exact hc
      · rw [if_neg hr] at hm
        exact h r m hm
    · rw [if_neg hc] at hm ⊢
      exact h r m hm
  have st : ∀ (s : State) (a : Act), (∀ r m, key s r = some m → m = 0 ∨ (s.valid = true ∧ m = s.lease)) →
      ∀ r m, key (step s a) r = some m → m = 0 ∨ ((step s a).valid = true ∧ m = (step s a).lease) := by
    intro s a h
    cases a with
    | change b => exact h
    | subscribe => exact h
    | grant =>
      show ∀ r m, key (if s.valid then s else { s with lease := s.lease + 1, valid := true, gs := s.gs ++ [.renew] }) r = some m → _
      by_cases hv : s.valid = true
      · simp only [step, if_pos hv]; exact h
      · simp only [step, if_neg hv]
        intro r m hm
        rcases h r m hm with h0 | h0
        · exact .inl h0
        · exact absurd h0.1 hv
    | lose =>
      show ∀ r m, key (lose s) r = some m → m = 0 ∨ ((lose s).valid = true ∧ m = (lose s).lease)
      intro r m hm
      unfold lose at hm ⊢
      by_cases hv : s.valid = true
      · rw [if_pos hv] at hm
        have hk : key s r = some m ∧ m ≠ s.lease := by
          cases r
          · have hm : (if s.slave = some s.lease then none else s.slave) = some m := hm
            by_cases he : s.slave = some s.lease
            · rw [if_pos he] at hm; exact nomatch hm
            · rw [if_neg he] at hm
              exact ⟨hm, by rintro rfl; exact he hm⟩
          · have hm : (if s.master = some s.lease then none else s.master) = some m := hm
            by_cases he : s.master = some s.lease
            · rw [if_pos he] at hm; exact nomatch hm
            · rw [if_neg he] at hm
              exact ⟨hm, by rintro rfl; exact he hm⟩
        rcases h r m hk.1 with h0 | h0
        · exact .inl h0
        · exact absurd h0.2 hk.2
      · rw [if_neg hv] at hm ⊢
        exact h r m hm
    | run i =>
      show ∀ r m, key (run s i) r = some m → m = 0 ∨ ((run s i).valid = true ∧ m = (run s i).lease)
      unfold run
      cases hi : s.gs[i]? with
      | none => exact h
      | some g =>
        cases g with
        | del b =>
          intro r m hm
          have hf := set_fields s s.role none
          have hm : key (setKey s s.role none) r = some m := hm
          show m = 0 ∨ ((setKey s s.role none).valid = true ∧ m = (setKey s s.role none).lease)
          rw [hf.2.2.1, hf.2.2.2.1]
          rw [key_set] at hm
          by_cases hr : r = s.role
          · rw [if_pos hr] at hm; exact nomatch hm
          · rw [if_neg hr] at hm; exact h r m hm
        | name b => exact h
        | ask b => exact h
        | put l => exact reg s l h _
        | renew => exact reg s s.lease h _
  have all : ∀ (acts : List Act) (s : State), (∀ r m, key s r = some m → m = 0 ∨ (s.valid = true ∧ m = s.lease)) →
      ∀ r m, key (exec s acts) r = some m → m = 0 ∨ ((exec s acts).valid = true ∧ m = (exec s acts).lease) := by
    intro acts
    induction acts with
    | nil => intro s h; exact h
    | cons a r ih => intro s h; exact ih (step s a) (st s a h)
  exact all acts init fun r m hm => by cases r <;> exact nomatch hm

/-! ## What overlapping changes lead to -/

/-- A server with a lease, registered as slave. -/
def slaveActs : List Act := [.subscribe, .grant, .run 0]

example : Right (exec init slaveActs) := ⟨by decide, by decide⟩

/-- **C91** (refutation, order): leadership is won and lost again, and the goroutine of the gain comes second:
the server stays registered as master and is not the leader. -/
theorem C91_wrong_role :
    let s := exec init (slaveActs ++ [.change true, .change false] ++ [.run 1, .run 1, .run 1, .run 1] ++
      [.run 0, .run 0, .run 0, .run 0])
    s.gs = [] ∧ s.valid = true ∧ s.leader = false ∧ s.master = some 1 ∧ s.slave = none := by decide

/-- **C91** (refutation, interleaving): both keys at once. -/
theorem C91_both_roles :
    let s := exec init (slaveActs ++ [.change true, .change false, .run 0, .run 1] ++ [.run 0, .run 0, .run 0] ++
      [.run 0, .run 0, .run 0])
    s.gs = [] ∧ s.valid = true ∧ s.leader = false ∧ s.master = some 1 ∧ s.slave = some 1 := by decide

/-- **C91** (refutation, new lease): a lease that comes while the server becomes leader registers it as slave
once more. -/
theorem C91_lease_meanwhile :
    let s := exec init (slaveActs ++ [.change true, .run 0, .lose, .grant, .run 1, .run 0, .run 0, .run 0])
    s.gs = [] ∧ s.valid = true ∧ s.leader = true ∧ s.master = some 2 ∧ s.slave = some 2 := by decide

/-- A leader registered as slave under its `n`th lease. -/
def late (n : Nat) : State := ⟨true, false, true, none, some n, n, true, []⟩

/-- **C91** (refutation, missed change): a server that becomes leader before the subscription is registered as
slave, through all leases, until leadership changes again. -/
theorem C91_missed_change (k : Nat) :
    let s := exec init (.change true :: .subscribe :: .grant :: .run 0 ::
      (List.replicate k [Act.lose, .grant, .run 0]).flatten)
    s.gs = [] ∧ s.valid = true ∧ s.leader = true ∧ s.master = none ∧ s.slave = some (k + 1) := by
  have key : ∀ (k n : Nat), exec (late n) (List.replicate k [Act.lose, .grant, .run 0]).flatten = late (n + k) := by
    intro k
    induction k with
    | zero => intro n; rfl
    | succ k ih =>
      intro n
      rw [List.replicate_succ, List.flatten_cons]
      have h3 : ∀ l : List Act, exec (late n) ([Act.lose, .grant, .run 0] ++ l) = exec (late (n + 1)) l := by
        intro l
        simp [exec, step, lose, run, advance, register, setKey, late]
      rw [h3, ih (n + 1), Nat.add_assoc, Nat.add_comm 1 k]
  have h0 : ∀ l : List Act, exec init (.change true :: .subscribe :: .grant :: .run 0 :: l) = exec (late 1) l :=
    fun l => rfl
  intro s
  have hs : s = _ := (h0 _).trans (key k 1)
  rw [hs]
  exact ⟨rfl, rfl, rfl, rfl, by simp [late, Nat.add_comm]⟩

theorem C91_statement_fails : ¬ C91_statement := by
  intro h
  have := (h (slaveActs ++ [.change true, .change false, .run 0, .run 1] ++ [.run 0, .run 0, .run 0] ++
      [.run 0, .run 0, .run 0]) (by decide) (by decide)).2
  exact absurd this (by decide)

end Verif.Registry.Roles
