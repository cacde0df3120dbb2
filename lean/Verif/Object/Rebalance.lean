import Verif.Common.Str

/-!
# Capacity based migration of shards (C53)

Models src/objectserver/internal/usecase/service/migration_service.go: `DeviationValues` and the
distribution of files in `SendingTo`, as used by the commands of
src/objectserver/internal/controller/grpc/migration_server.go (`JoinCommand`, `LeaveCommand`,
`RequireSend`).  What happens to one file is `Verif.Object.Relocate`.

Simplified: `total` and the quotient are exact integers (in the code float64, exact below 2^53 bytes); a
Go map is a list of pairs, in the arbitrary order of an iteration.
-/

namespace Verif.Rebalance

/-- `math.Ceil(t / n)`, migration_service.go:80. -/
def ceilDiv (t : Int) (n : Nat) : Int := -((-t) / (n : Int))

/-- The sum of the capacities of a table. -/
def sum (l : List (Str × Int)) : Int := (l.map (·.2)).sum

/-- `size`, migration_service.go:69. -/
def servers (join : Bool) (peers : List (Str × Int)) : Nat := if join then peers.length + 1 else peers.length

/-- The average of `DeviationValues`, migration_service.go:68-80. -/
def average (join : Bool) (own : Int) (peers : List (Str × Int)) : Int :=
  ceilDiv (own + sum peers) (servers join peers)

/-- `util.IfElse(join, v-avg, avg-v)`, migration_service.go:83. -/
def excess (join : Bool) (avg v : Int) : Int := if join then v - avg else avg - v

/-- The loop of migration_service.go:82-86. -/
def deviants (join : Bool) (avg : Int) (peers : List (Str × Int)) : List (Str × Int) :=
  peers.filterMap fun p => if 0 < excess join avg p.2 then some (p.1, excess join avg p.2) else none

/-- `DeviationValues(join)`, migration_service.go:67-92: `own` is the capacity of this server, `peers` the
capacities of those that answered; `none` is an error. -/
def deviation (join : Bool) (own : Int) (peers : List (Str × Int)) : Option (List (Str × Int)) :=
  if servers join peers = 0 then none
  else if own + sum peers = 0 then none
  else if deviants join (average join own peers) peers = [] then none
  else some (deviants join (average join own peers) peers)

/-- A file: its name and size. -/
structure File where
  name : Str
  size : Nat
  deriving DecidableEq

/-- The walk of `SendingTo(…, sizeMap)`, migration_service.go:192-246: the files with their receivers.  The
first server of the list is `cur`, with what it may still get (`leftSize`); the others are `addrs`.  The
walk stops when the last server has got enough (`io.EOF`, line 235). -/
def assign : List (Str × Int) → List File → List (File × Str)
  | [], _ => []
  | _ :: _, [] => []
  | (a, q) :: r, f :: fs => (f, a) :: if q - f.size ≤ 0 then assign r fs else assign ((a, q - f.size) :: r) fs

/-- The bytes sent to a server. -/
def received (l : List (File × Str)) (a : Str) : Int := ((l.filter fun x => x.2 = a).map fun x => (x.1.size : Int)).sum

def sizes (files : List File) : Int := (files.map fun f => (f.size : Int)).sum

/-! ## Specification -/

/-- `a` is the average of `total` over `n` servers, rounded up. -/
def IsAverage (a total : Int) (n : Nat) : Prop := (n : Int) * (a - 1) < total ∧ total ≤ n * a

/-- What is planned for a server; 0 if nothing. -/
def planned (plan : List (Str × Int)) (a : Str) : Int := ((plan.filter fun p => p.1 = a).map (·.2)).sum

/-- **C53**, the full statement: nobody is sent more than planned, and afterwards nobody has more than
the average. -/
def C53_statement : Prop :=
  (∀ (own : Int) (peers plan : List (Str × Int)) (files : List File), (peers.map (·.1)).Nodup →
    (∀ p ∈ peers, 0 ≤ p.2) → 0 ≤ own → sizes files ≤ own → deviation false own peers = some plan →
    ∀ a, received (assign plan files) a ≤ planned plan a) ∧
  (∀ (own : Int) (peers plan : List (Str × Int)), (peers.map (·.1)).Nodup → (∀ p ∈ peers, 0 ≤ p.2) → 0 ≤ own →
    deviation true own peers = some plan → own + sum plan ≤ average true own peers)

/-! ## Proofs -/

theorem ceilDiv_average {t : Int} {n : Nat} (hn : 0 < n) : IsAverage (ceilDiv t n) t n := by
  unfold IsAverage ceilDiv
  have h1 := Int.mul_ediv_add_emod (-t) n
  have h2 := Int.emod_nonneg (-t) (show (n : Int) ≠ 0 by omega)
  have h3 := Int.emod_lt_of_pos (-t) (show (0 : Int) < n by omega)
  have e1 : (n : Int) * (-((-t) / n) - 1) = -((n : Int) * ((-t) / n)) - n := by
    rw [Int.mul_sub, Int.mul_neg]; omega
  have e2 : (n : Int) * (-((-t) / n)) = -((n : Int) * ((-t) / n)) := Int.mul_neg ..
  omega

theorem deviation_some {join : Bool} {own : Int} {peers plan : List (Str × Int)}
    (h : deviation join own peers = some plan) :
    0 < servers join peers ∧ plan ≠ [] ∧ plan = deviants join (average join own peers) peers := by
  unfold deviation at h
  split at h
  · cases h
  · rename_i h0
    split at h
    · cases h
    · split at h
      · cases h
      · rename_i hne
        injection h with h
        subst h
        exact ⟨by omega, hne, rfl⟩

theorem mem_deviants {join : Bool} {avg : Int} {peers : List (Str × Int)} {p : Str × Int}
    (h : p ∈ deviants join avg peers) : ∃ c, (p.1, c) ∈ peers ∧ p.2 = excess join avg c ∧ 0 < p.2 := by
  obtain ⟨y, hy, he⟩ := List.mem_filterMap.1 h
  by_cases hx : 0 < excess join avg y.2
  · rw [if_pos hx] at he
    cases he
    exact ⟨y.2, hy, rfl, hx⟩
  · rw [if_neg hx] at he; cases he

theorem deviants_cons (join : Bool) (avg : Int) (p : Str × Int) (ps : List (Str × Int)) :
    deviants join avg (p :: ps) =
      (if 0 < excess join avg p.2 then [(p.1, excess join avg p.2)] else []) ++ deviants join avg ps := by
  unfold deviants
  rw [List.filterMap_cons]
  by_cases h : 0 < excess join avg p.2
  · simp [h]
  · simp [h]

theorem planned_append (l l' : List (Str × Int)) (a : Str) : planned (l ++ l') a = planned l a + planned l' a := by
  simp [planned]

theorem planned_zero {l : List (Str × Int)} {a : Str} (h : a ∉ l.map (·.1)) : planned l a = 0 := by
  have : l.filter (fun p => p.1 = a) = [] := by
    rw [List.filter_eq_nil_iff]
    intro x hx
    simp only [decide_eq_true_eq]
    rintro rfl
    exact h (List.mem_map.2 ⟨x, hx, rfl⟩)
  rw [planned, this]; rfl

theorem deviants_names {join : Bool} {avg : Int} {peers : List (Str × Int)} {a : Str}
    (h : a ∉ peers.map (·.1)) : a ∉ (deviants join avg peers).map (·.1) := by
  intro hm
  obtain ⟨p, hp, rfl⟩ := List.mem_map.1 hm
  obtain ⟨c, hc, _⟩ := mem_deviants hp
  exact h (List.mem_map.2 ⟨_, hc, rfl⟩)

/-- The plan of one server. -/
theorem planned_deviants {join : Bool} {avg : Int} {peers : List (Str × Int)} (hd : (peers.map (·.1)).Nodup)
    {a : Str} {c : Int} (hm : (a, c) ∈ peers) :
    planned (deviants join avg peers) a = max (excess join avg c) 0 := by
  induction peers with
  | nil => simp at hm
  | cons p ps ih =>
    rw [List.map_cons, List.nodup_cons] at hd
    rw [deviants_cons, planned_append]
    rcases List.mem_cons.1 hm with he | he
    · subst he
      rw [planned_zero (deviants_names hd.1)]
      by_cases hg : 0 < excess join avg c
      · rw [if_pos hg]
        simp only [planned, List.filter_cons, decide_true, ↓reduceIte, List.filter_nil, List.map_cons, List.map_nil,
          List.sum_cons, List.sum_nil]
        omega
      · rw [if_neg hg]
        simp only [planned, List.filter_nil, List.map_nil, List.sum_nil]
        omega
    · rw [ih hd.2 he, planned_zero, Int.zero_add]
      intro hx
      have : p.1 = a := by
        split at hx
        · exact (List.mem_singleton.1 hx).symm
        · simp at hx
      subst this
      exact hd.1 (List.mem_map.2 ⟨_, he, rfl⟩)

/-- **C53** (the plan of a join): the average is the mean of all servers including the new one, rounded up,
and what every server is asked to send leaves it with its old capacity or the average, whichever is
smaller. -/
theorem C53_join_plan {own : Int} {peers plan : List (Str × Int)} (hd : (peers.map (·.1)).Nodup)
    (h : deviation true own peers = some plan) :
    IsAverage (average true own peers) (own + sum peers) (peers.length + 1) ∧
      ∀ a c, (a, c) ∈ peers → c - planned plan a = min c (average true own peers) := by
  obtain ⟨hn, _, hp⟩ := deviation_some h
  refine ⟨ceilDiv_average hn, fun a c hm => ?_⟩
  rw [hp, planned_deviants hd hm]
  simp only [excess, ↓reduceIte]
  omega

/-- **C53** (the plan of a leave): the average is the mean of the remaining servers with the capacity of
the leaving one shared among them, rounded up, and what every server is to receive brings it to the
average, unless it has more already. -/
theorem C53_leave_plan {own : Int} {peers plan : List (Str × Int)} (hd : (peers.map (·.1)).Nodup)
    (h : deviation false own peers = some plan) :
    IsAverage (average false own peers) (own + sum peers) peers.length ∧
      ∀ a c, (a, c) ∈ peers → c + planned plan a = max c (average false own peers) := by
  obtain ⟨hn, _, hp⟩ := deviation_some h
  refine ⟨ceilDiv_average hn, fun a c hm => ?_⟩
  rw [hp, planned_deviants hd hm]
  simp only [excess, Bool.false_eq_true, ↓reduceIte]
  omega

theorem sum_append (l l' : List (Str × Int)) : sum (l ++ l') = sum l + sum l' := by
  simp [sum]

theorem sum_deviants (join : Bool) (avg : Int) (peers : List (Str × Int)) :
    sum (deviants join avg peers) = (peers.map fun p => max (excess join avg p.2) 0).sum := by
  induction peers with
  | nil => rfl
  | cons p ps ih =>
    rw [deviants_cons, sum_append, ih, List.map_cons, List.sum_cons]
    by_cases hg : 0 < excess join avg p.2
    · rw [if_pos hg]
      simp only [sum, List.map_cons, List.map_nil, List.sum_cons, List.sum_nil]
      omega
    · rw [if_neg hg]
      simp only [sum, List.map_nil, List.sum_nil]
      omega

theorem sum_diff_le (a : Int) (peers : List (Str × Int)) :
    peers.length * a - sum peers ≤ (peers.map fun p => max (a - p.2) 0).sum := by
  induction peers with
  | nil => simp [sum]
  | cons p ps ih =>
    rw [List.map_cons, List.sum_cons, sum, List.map_cons, List.sum_cons, ← sum, List.length_cons]
    have : ((ps.length + 1 : Nat) : Int) * a = ps.length * a + a := by
      rw [Int.natCast_succ, Int.add_mul, Int.one_mul]
    omega

theorem sum_surplus_le (a : Int) (peers : List (Str × Int)) :
    sum peers - peers.length * a ≤ (peers.map fun p => max (p.2 - a) 0).sum := by
  induction peers with
  | nil => simp [sum]
  | cons p ps ih =>
    rw [List.map_cons, List.sum_cons, sum, List.map_cons, List.sum_cons, ← sum, List.length_cons]
    have : ((ps.length + 1 : Nat) : Int) * a = ps.length * a + a := by
      rw [Int.natCast_succ, Int.add_mul, Int.one_mul]
    omega

theorem sum_surplus_eq (a : Int) (peers : List (Str × Int)) (h : ∀ p ∈ peers, a ≤ p.2) :
    (peers.map fun p => max (p.2 - a) 0).sum = sum peers - peers.length * a := by
  induction peers with
  | nil => simp [sum]
  | cons p ps ih =>
    have ih := ih fun q hq => h q (by simp [hq])
    have hp := h p (by simp)
    rw [List.map_cons, List.sum_cons, ih, sum, sum, List.map_cons, List.sum_cons, ← sum, List.length_cons]
    have : ((ps.length + 1 : Nat) : Int) * a = ps.length * a + a := by
      rw [Int.natCast_succ, Int.add_mul, Int.one_mul]
    omega

/-- **C53** (a leave has room for everything): what the remaining servers are to receive is together at
least the capacity of the leaving one. -/
theorem C53_leave_room {own : Int} {peers plan : List (Str × Int)} (h : deviation false own peers = some plan) :
    own ≤ sum plan := by
  obtain ⟨hn, _, hp⟩ := deviation_some h
  have hn : 0 < peers.length := hn
  rw [hp, sum_deviants]
  simp only [excess, Bool.false_eq_true, ↓reduceIte]
  have h1 := sum_diff_le (average false own peers) peers
  have h2 := (ceilDiv_average (t := own + sum peers) hn).2
  have h3 : average false own peers = ceilDiv (own + sum peers) peers.length := rfl
  rw [← h3] at h2
  omega

/-- **C53** (a join gets enough): the new server ends with at least the average, up to rounding; the
rounding is less than one byte for every server. -/
theorem C53_join_enough {own : Int} {peers plan : List (Str × Int)} (h : deviation true own peers = some plan) :
    average true own peers - (peers.length + 1) < own + sum plan := by
  obtain ⟨_, _, hp⟩ := deviation_some h
  rw [hp, sum_deviants]
  simp only [excess, ↓reduceIte]
  have h1 := sum_surplus_le (average true own peers) peers
  have h2 := (ceilDiv_average (t := own + sum peers) (n := peers.length + 1) (by omega)).1
  have h3 : average true own peers = ceilDiv (own + sum peers) (peers.length + 1) := rfl
  rw [← h3] at h2
  rw [Int.natCast_succ, Int.add_mul, Int.one_mul, Int.mul_sub, Int.mul_one] at h2
  omega

/-- **C53** (a join balances; partial): when no other server is below the average, the new server ends
with at most the average.

Missing: `C53_join_overfills`. -/
theorem C53_join_balanced_partial {own : Int} {peers plan : List (Str × Int)}
    (hall : ∀ p ∈ peers, average true own peers ≤ p.2) (h : deviation true own peers = some plan) :
    own + sum plan ≤ average true own peers := by
  obtain ⟨_, _, hp⟩ := deviation_some h
  rw [hp, sum_deviants]
  simp only [excess, ↓reduceIte]
  rw [sum_surplus_eq _ _ hall]
  have h2 := (ceilDiv_average (t := own + sum peers) (n := peers.length + 1) (by omega)).2
  have h3 : average true own peers = ceilDiv (own + sum peers) (peers.length + 1) := rfl
  rw [← h3, Int.natCast_succ, Int.add_mul, Int.one_mul] at h2
  omega

theorem sizes_cons (f : File) (fs : List File) : sizes (f :: fs) = f.size + sizes fs := by
  simp [sizes]

theorem sum_cons (p : Str × Int) (l : List (Str × Int)) : sum (p :: l) = p.2 + sum l := by
  simp [sum]

theorem sizes_nonneg (fs : List File) : 0 ≤ sizes fs := by
  induction fs with
  | nil => simp [sizes]
  | cons f fs ih => rw [sizes_cons]; omega

theorem assign_all {quota : List (Str × Int)} {fs : List File} (hq : quota ≠ [] ∨ fs = [])
    (hpos : ∀ f ∈ fs, 0 < f.size) (hfit : sizes fs ≤ sum quota) : (assign quota fs).map (·.1) = fs := by
  induction fs generalizing quota with
  | nil => cases quota <;> rfl
  | cons f fs ih =>
    match quota, hq, hfit with
    | [], hq, _ => rcases hq with h | h <;> simp at h
    | (a, q) :: r, _, hfit =>
      rw [sizes_cons, sum_cons] at hfit
      simp only at hfit
      have hp : ∀ g ∈ fs, 0 < g.size := fun g hg => hpos g (by simp [hg])
      rw [assign, List.map_cons]
      congr 1
      split
      · rename_i hle
        refine ih ?_ hp (by omega)
        match r, hfit with
        | [], hfit =>
          right
          match fs, hp, hfit with
          | [], _, _ => rfl
          | g :: gs, hp, hfit =>
            exfalso
            rw [sizes_cons] at hfit
            have := sizes_nonneg gs
            have := hp g (by simp)
            simp only [sum, List.map_nil, List.sum_nil] at hfit
            omega
        | x :: r, _ => exact .inl (by simp)
      · exact ih (.inl (by simp)) hp (by rw [sum_cons]; simp only; omega)

theorem perm_sum {l l' : List Int} (h : l.Perm l') : l.sum = l'.sum := by
  induction h with
  | nil => rfl
  | cons x _ ih => simp [ih]
  | swap x y l => simp only [List.sum_cons]; omega
  | trans _ _ ih1 ih2 => exact ih1.trans ih2

/-- **C53** (a leave sends everything): when no file is empty and the recorded capacity covers the files
that are there, every file is sent to exactly one server, whatever the order of the servers. -/
theorem C53_leave_sends_all {own : Int} {peers plan plan' : List (Str × Int)} {files : List File}
    (h : deviation false own peers = some plan) (hp : plan'.Perm plan) (hpos : ∀ f ∈ files, 0 < f.size)
    (hcap : sizes files ≤ own) : (assign plan' files).map (·.1) = files := by
  have hroom := C53_leave_room h
  have hsum : sum plan' = sum plan := perm_sum (hp.map _)
  obtain ⟨_, hne, _⟩ := deviation_some h
  refine assign_all (.inl ?_) hpos (by omega)
  rintro rfl
  exact hne hp.symm.eq_nil

theorem received_cons (x : File × Str) (l : List (File × Str)) (a : Str) :
    received (x :: l) a = (if x.2 = a then (x.1.size : Int) else 0) + received l a := by
  unfold received
  by_cases h : x.2 = a
  · rw [List.filter_cons_of_pos (by simpa using h)]; simp [h]
  · rw [List.filter_cons_of_neg (by simpa using h)]; simp [h]

theorem assign_other {quota : List (Str × Int)} {fs : List File} {a : Str} (h : a ∉ quota.map (·.1)) :
    ∀ x ∈ assign quota fs, x.2 ≠ a := by
  induction fs generalizing quota with
  | nil => cases quota <;> simp [assign]
  | cons f fs ih =>
    match quota, h with
    | [], _ => simp [assign]
    | (b, q) :: r, h =>
      simp only [List.map_cons, List.mem_cons, not_or] at h
      intro x hx
      rw [assign] at hx
      rcases List.mem_cons.1 hx with rfl | hx
      · exact fun e => h.1 e.symm
      · split at hx
        · exact ih h.2 x hx
        · exact ih (by simp only [List.map_cons, List.mem_cons, not_or]; exact h) x hx

theorem received_zero {l : List (File × Str)} {a : Str} (h : ∀ x ∈ l, x.2 ≠ a) : received l a = 0 := by
  unfold received
  rw [List.filter_eq_nil_iff.2 (by simpa using h)]; rfl

/-- What the walk gives the servers: each one less than its quota and one file. -/
theorem assign_bound {quota : List (Str × Int)} {fs : List File} (big : Int)
    (hbig : ∀ f ∈ fs, (f.size : Int) ≤ big) (hb0 : 0 ≤ big) (hq : ∀ p ∈ quota, 0 < p.2)
    (hnd : (quota.map (·.1)).Nodup) : ∀ p ∈ quota, received (assign quota fs) p.1 < p.2 + big := by
  induction fs generalizing quota with
  | nil =>
    intro p hp
    have := hq p hp
    have : received (assign quota []) p.1 = 0 := by cases quota <;> rfl
    omega
  | cons f fs ih =>
    have hf := hbig f (by simp)
    have hbig' : ∀ g ∈ fs, (g.size : Int) ≤ big := fun g hg => hbig g (by simp [hg])
    match quota, hq, hnd with
    | [], _, _ => simp
    | (a, q) :: r, hq, hnd =>
      rw [List.map_cons, List.nodup_cons] at hnd
      have hqa := hq (a, q) (by simp)
      simp only at hqa
      intro p hp
      rw [assign, received_cons]
      have hpa : p ∈ r → a ≠ p.1 := by
        rintro hp' rfl
        exact hnd.1 (List.mem_map.2 ⟨p, hp', rfl⟩)
      by_cases hle : q - (f.size : Int) ≤ 0
      · rw [if_pos hle]
        rcases List.mem_cons.1 hp with rfl | hp
        · rw [if_pos rfl, received_zero (assign_other hnd.1)]
          simp only
          omega
        · rw [if_neg (hpa hp), Int.zero_add]
          exact ih hbig' (fun x hx => hq x (by simp [hx])) hnd.2 p hp
      · rw [if_neg hle]
        have hq' : ∀ x ∈ (a, q - (f.size : Int)) :: r, 0 < x.2 := by
          intro x hx
          rcases List.mem_cons.1 hx with rfl | hx
          · simp only; omega
          · exact hq x (by simp [hx])
        have ih' := ih hbig' hq' (by rw [List.map_cons, List.nodup_cons]; exact hnd)
        rcases List.mem_cons.1 hp with rfl | hp
        · have := ih' (a, q - (f.size : Int)) (by simp)
          rw [if_pos rfl]
          simp only at this ⊢
          omega
        · rw [if_neg (hpa hp), Int.zero_add]
          exact ih' p (by simp [hp])

theorem plan_pos {join : Bool} {own : Int} {peers plan : List (Str × Int)} (h : deviation join own peers = some plan) :
    ∀ p ∈ plan, 0 < p.2 := by
  obtain ⟨_, _, hp⟩ := deviation_some h
  intro p hm
  rw [hp] at hm
  obtain ⟨_, _, _, h⟩ := mem_deviants hm
  exact h

theorem plan_nodup {join : Bool} {own : Int} {peers plan : List (Str × Int)} (hd : (peers.map (·.1)).Nodup)
    (h : deviation join own peers = some plan) : (plan.map (·.1)).Nodup := by
  have hp := (deviation_some h).2.2
  rw [hp]
  generalize (average join own peers) = av
  clear hp h
  induction peers with
  | nil => simp [deviants]
  | cons p ps ih =>
    rw [List.map_cons, List.nodup_cons] at hd
    rw [deviants_cons]
    split
    · rw [List.singleton_append, List.map_cons, List.nodup_cons]
      exact ⟨deviants_names hd.1, ih hd.2⟩
    · exact ih hd.2

/-- **C53** (quotas; partial): joining or leaving, whatever the order of the servers: a server is sent less
than what was planned for it plus the largest file; a server without a plan is sent nothing.

Missing: `C53_exceeds_quota`. -/
theorem C53_quota_partial {join : Bool} {own : Int} {peers plan plan' : List (Str × Int)} {files : List File} {big : Int}
    (hd : (peers.map (·.1)).Nodup) (h : deviation join own peers = some plan) (hp : plan'.Perm plan)
    (hbig : ∀ f ∈ files, (f.size : Int) ≤ big) (hb : 0 ≤ big) :
    (∀ p ∈ plan', received (assign plan' files) p.1 < p.2 + big) ∧
      ∀ a, a ∉ plan'.map (·.1) → received (assign plan' files) a = 0 := by
  have hpos : ∀ p ∈ plan', 0 < p.2 := fun p hm => plan_pos h p (hp.mem_iff.1 hm)
  have hnd : (plan'.map (·.1)).Nodup := (hp.map (·.1)).nodup_iff.2 (plan_nodup hd h)
  exact ⟨assign_bound big hbig hb hpos hnd, fun a ha => received_zero (assign_other ha)⟩

/-! ## Examples and findings -/

def A : Str := "a:1".toList
def B : Str := "b:1".toList

example : deviation false 9 [(A, 1), (B, 4)] = some [(A, 6), (B, 3)] := by decide

example : deviation true 0 [(A, 7), (B, 6)] = some [(A, 2), (B, 1)] ∧
    ∀ p ∈ [(A, (7 : Int)), (B, 6)], average true 0 [(A, 7), (B, 6)] ≤ p.2 := by decide

example : assign [(A, 6), (B, 3)] [⟨"x".toList, 4⟩, ⟨"y".toList, 2⟩, ⟨"z".toList, 3⟩] =
    [(⟨"x".toList, 4⟩, A), (⟨"y".toList, 2⟩, A), (⟨"z".toList, 3⟩, B)] := by decide

/-- **C53** (finding): a join takes the whole surplus of the servers above the average for the new server,
although others are below it, too: it may end far above the average. -/
theorem C53_join_overfills :
    deviation true 0 [(A, 10), (B, 0)] = some [(A, 6)] ∧ average true 0 [(A, 10), (B, 0)] = 4 := by decide

/-- **C53** (finding): the last file sent to a server may exceed what was planned for it by nearly its
whole size. -/
theorem C53_exceeds_quota :
    deviation false 9 [(A, 1), (B, 4)] = some [(A, 6), (B, 3)] ∧
      received (assign [(A, 6), (B, 3)] [⟨"x".toList, 5⟩, ⟨"y".toList, 4⟩]) A = 9 := by decide

theorem C53_statement_fails : ¬ C53_statement := by
  rintro ⟨_, h⟩
  have := h 0 [(A, 10), (B, 0)] [(A, 6)] (by decide) (by decide) (by decide) (by decide)
  revert this
  decide

/-- **C53** (finding): the recorded capacity is kept in memory and is not increased by commits of
compressed files.  When it is too small, a leaving server keeps files and reports success. -/
theorem C53_leave_leaves_files :
    deviation false 2 [(A, 4)] = some [(A, 2)] ∧
      (assign [(A, 2)] [⟨"x".toList, 5⟩, ⟨"y".toList, 4⟩]).map (·.1.name) = ["x".toList] := by decide

/-- **C53** (finding): a server whose recorded capacity makes all servers together zero cannot leave, and
its files are not sent. -/
theorem C53_zero_total : deviation false 0 [(A, 0)] = none := by decide

end Verif.Rebalance
