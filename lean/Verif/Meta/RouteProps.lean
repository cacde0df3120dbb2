import Verif.Meta.Route

/-! # How old a routing table may be (C81) -/

namespace Verif.Meta.Route

variable {σ ρ : Type}

/-- What holds for one call. -/
def CallOk (w : World σ ρ) (D : Nat) (s : St ρ) (c : Call ρ) : Prop :=
  c.start ≤ s.now ∧ c.old ≤ s.ptr ∧
  (∀ b, s.prov = some b → c.old = s.ptr → b.1 ≤ c.start) ∧
  (c.old < s.ptr → ∃ b, s.prov = some b ∧ c.start ≤ b.1 + D) ∧
  match c.pc with
  | .loaded => True
  | .need => True
  | .failed => True
  | .panicked => False
  | .built b => c.start ≤ b.1 ∧ b.1 ≤ s.now ∧ w.wrap (w.hist b.1) = some b.2
  | .swapped τ => c.old < s.ptr ∧ ∃ b, s.prov = some b ∧ τ ≤ b.1
  | .timed τ v => c.old < s.ptr ∧ (∃ b, s.prov = some b ∧ τ ≤ b.1) ∧ w.k * v ≤ τ + D
  | .last => ∃ b, s.prov = some b ∧ c.start < b.1 + D + (maxExpire + 1) * w.k ∧
      (c.reload = true → c.start ≤ b.1 + D)
  | .done t => w.wrap (w.hist t.1) = some t.2 ∧ t.1 ≤ s.now ∧ (∃ b, s.prov = some b ∧ t.1 ≤ b.1) ∧
      c.start < t.1 + D + (maxExpire + 1) * w.k ∧ (c.reload = true → c.start ≤ t.1 + D)

structure Inv (w : World σ ρ) (D : Nat) (s : St ρ) : Prop where
  kpos : 0 < w.k
  late : (maxExpire + 1) * w.k ≤ s.now
  none_stamp : s.prov = none → s.updatedAt = 0
  prov_ok : ∀ b, s.prov = some b → b.1 ≤ s.now ∧ w.wrap (w.hist b.1) = some b.2 ∧ w.k * s.updatedAt ≤ b.1 + D
  calls : ∀ i c, s.calls i = some c → CallOk w D s c

theorem Inv.init {w : World σ ρ} (D now : Nat) (hk : 0 < w.k) (hn : (maxExpire + 1) * w.k ≤ now) :
    Inv w D (St.init now) where
  kpos := hk
  late := hn
  none_stamp _ := rfl
  prov_ok b h := by simp [St.init] at h
  calls i c h := by simp [St.init] at h

/-- The other calls do not notice that one call goes on, as long as shared data stays. -/
theorem Inv.local {w : World σ ρ} {D : Nat} {s : St ρ} (h : Inv w D s) {i : Nat} {c : Call ρ}
    {pc : Pc ρ} (hok : CallOk w D s { c with pc := pc }) :
    Inv w D { s with calls := setPc s i c pc } where
  kpos := h.kpos
  late := h.late
  none_stamp := h.none_stamp
  prov_ok := h.prov_ok
  calls j cj hj := by
    simp only [setPc] at hj
    split at hj
    · simp only [Option.some.injEq] at hj; subst hj; exact hok
    · exact h.calls j cj hj

theorem div_bound {n k u : Nat} (hk : 0 < k) (h : ¬ n / k > u + maxExpire) : n < k * u + (maxExpire + 1) * k := by
  have h1 : n / k < u + maxExpire + 1 := by omega
  have h2 := (Nat.div_lt_iff_lt_mul hk).1 h1
  rw [Nat.add_assoc, Nat.add_mul] at h2
  rw [Nat.mul_comm k u]; exact h2

theorem Inv.step {w : World σ ρ} {D : Nat} {s s' : St ρ} (h : Inv w D s) {e : Ev} (ht : Timely D s e)
    (hs : step w s e = some s') : Inv w D s' := by
  cases e with
  | tick =>
    simp only [Route.step, Option.some.injEq] at hs
    subst hs
    refine ⟨h.kpos, Nat.le_succ_of_le h.late, h.none_stamp, fun b hb => ?_, fun i c hc => ?_⟩
    · obtain ⟨h1, h2, h3⟩ := h.prov_ok b hb
      exact ⟨Nat.le_succ_of_le h1, h2, h3⟩
    · obtain ⟨h1, h2, h3, h4, h5⟩ := h.calls i c hc
      refine ⟨Nat.le_succ_of_le h1, h2, h3, h4, ?_⟩
      revert h5
      cases c.pc with
      | built b => exact fun h5 => ⟨h5.1, Nat.le_succ_of_le h5.2.1, h5.2.2⟩
      | done t => exact fun h5 => ⟨h5.1, Nat.le_succ_of_le h5.2.1, h5.2.2⟩
      | _ => exact fun h5 => h5
  | call i reload =>
    simp only [Route.step] at hs
    split at hs
    · exact absurd hs (by simp)
    · simp only [Option.some.injEq] at hs
      subst hs
      refine ⟨h.kpos, h.late, h.none_stamp, h.prov_ok, fun j c hc => ?_⟩
      simp only at hc
      split at hc
      · simp only [Option.some.injEq] at hc
        subst hc
        exact ⟨Nat.le_refl _, Nat.le_refl _, fun b hb _ => (h.prov_ok b hb).1,
          fun hlt => absurd hlt (Nat.lt_irrefl _), trivial⟩
      · exact h.calls j c hc
  | check i =>
    simp only [Route.step] at hs
    split at hs
    · next t r o hc =>
      simp only [Option.some.injEq] at hs
      subst hs
      obtain ⟨h1, h2, h3, h4, _⟩ := h.calls _ _ hc
      refine h.local ⟨h1, h2, h3, h4, ?_⟩
      by_cases hx : (expired w s || r) = true
      · simp only [hx, if_true]
      · simp only [Bool.not_eq_true] at hx
        simp only [hx, Bool.false_eq_true, if_false]
        simp only [Bool.or_eq_false_iff, expired, decide_eq_false_iff_not] at hx
        obtain ⟨hx, hr⟩ := hx
        have hb := div_bound h.kpos hx
        cases hp : s.prov with
        | none =>
          rw [h.none_stamp hp] at hb
          have := h.late
          omega
        | some b =>
          obtain ⟨h5, h6, h7⟩ := h.prov_ok b hp
          refine ⟨b, rfl, ?_, fun hrt => ?_⟩
          · have : t ≤ s.now := h1
            omega
          · simp only [hr] at hrt
            exact absurd hrt (by simp)
    · exact absurd hs (by simp)
  | fetch i ok =>
    simp only [Route.step] at hs
    split at hs
    · next t r o hc =>
      obtain ⟨h1, h2, h3, h4, _⟩ := h.calls _ _ hc
      split at hs
      · next d hd =>
        simp only [Option.some.injEq] at hs
        subst hs
        exact h.local ⟨h1, h2, h3, h4, h1, Nat.le_refl _, hd⟩
      · simp only [Option.some.injEq] at hs
        subst hs
        exact h.local ⟨h1, h2, h3, h4, trivial⟩
    · exact absurd hs (by simp)
  | swap i =>
    simp only [Route.step] at hs
    split at hs
    · next t r o b hc =>
      obtain ⟨h1, h2, h3, h4, h5, h6, h7⟩ := h.calls _ _ hc
      have hD : s.now ≤ b.1 + D := ht _ b hc rfl
      split at hs
      · next hptr =>
        simp only [Option.some.injEq] at hs
        subst hs
        have hmono : ∀ b', s.prov = some b' → b'.1 ≤ b.1 := fun b' hb' =>
          Nat.le_trans (h3 b' hb' hptr.symm) h5
        refine ⟨h.kpos, h.late, fun hn => absurd hn (by simp), fun b' hb' => ?_, fun j c hj => ?_⟩
        · simp only [Option.some.injEq] at hb'
          subst hb'
          refine ⟨h6, h7, ?_⟩
          simp only
          cases hp : s.prov with
          | none => rw [h.none_stamp hp]; omega
          | some b' =>
            have := hmono b' hp
            have := (h.prov_ok b' hp).2.2
            omega
        · simp only [setPc] at hj
          split at hj
          · simp only [Option.some.injEq] at hj
            subst hj
            have hlt : o < s.ptr + 1 := by omega
            refine ⟨h1, by simp only; omega, fun b' _ he => by simp only at he; omega, fun _ => ⟨b, rfl, ?_⟩, hlt, b, rfl, Nat.le_refl _⟩
            simp only at h5 ⊢; omega
          · obtain ⟨g1, g2, g3, g4, g5⟩ := h.calls j c hj
            refine ⟨g1, by simp only; omega, fun b' _ he => by simp only at he; omega,
              fun _ => ⟨b, rfl, by omega⟩, ?_⟩
            revert g5
            cases c.pc with
            | swapped τ =>
              rintro ⟨q1, b', hb', q2⟩
              exact ⟨by simp only; omega, b, rfl, Nat.le_trans q2 (hmono b' hb')⟩
            | timed τ v =>
              rintro ⟨q1, ⟨b', hb', q2⟩, q3⟩
              exact ⟨by simp only; omega, ⟨b, rfl, Nat.le_trans q2 (hmono b' hb')⟩, q3⟩
            | last =>
              rintro ⟨b', hb', q2, q3⟩
              have := hmono b' hb'
              exact ⟨b, rfl, by omega, fun hr => by have := q3 hr; omega⟩
            | done t' =>
              rintro ⟨q1, q2, ⟨b', hb', q3⟩, q4⟩
              exact ⟨q1, q2, ⟨b, rfl, Nat.le_trans q3 (hmono b' hb')⟩, q4⟩
            | loaded => exact id
            | need => exact id
            | failed => exact id
            | panicked => exact id
            | built b' => exact id
      · next hptr =>
        simp only [Option.some.injEq] at hs
        subst hs
        refine h.local ⟨h1, h2, h3, h4, ?_⟩
        obtain ⟨b', hb', h8⟩ := h4 (by simp only at h2 ⊢; omega)
        refine ⟨b', hb', ?_, fun _ => h8⟩
        have : 0 < (maxExpire + 1) * w.k := Nat.mul_pos (by decide) h.kpos
        simp only at h8 ⊢
        omega
    · exact absurd hs (by simp)
  | clock i =>
    simp only [Route.step] at hs
    split at hs
    · next t r o τ hc =>
      simp only [Option.some.injEq] at hs
      subst hs
      obtain ⟨h1, h2, h3, h4, h5, h6⟩ := h.calls _ _ hc
      have hD : s.now ≤ τ + D := ht _ τ hc rfl
      refine h.local ⟨h1, h2, h3, h4, h5, h6, ?_⟩
      exact Nat.le_trans (Nat.mul_div_le _ _) hD
    · exact absurd hs (by simp)
  | store i =>
    simp only [Route.step] at hs
    split at hs
    · next t r o τ v hc =>
      simp only [Option.some.injEq] at hs
      subst hs
      obtain ⟨h1, h2, h3, h4, h5, ⟨b, hb, h6⟩, h7⟩ := h.calls _ _ hc
      refine ⟨h.kpos, h.late, fun hn => ?_, fun b' hb' => ?_, fun j c hj => ?_⟩
      · simp only at hn; rw [hb] at hn; exact absurd hn (by simp)
      · obtain ⟨g1, g2, _⟩ := h.prov_ok b' hb'
        simp only at hb'
        rw [hb] at hb'
        simp only [Option.some.injEq] at hb'
        subst hb'
        exact ⟨g1, g2, by simp only; omega⟩
      · simp only [setPc] at hj
        split at hj
        · simp only [Option.some.injEq] at hj
          subst hj
          obtain ⟨b', hb', h8⟩ := h4 h5
          refine ⟨h1, h2, h3, h4, b', hb', ?_, fun _ => h8⟩
          have : 0 < (maxExpire + 1) * w.k := Nat.mul_pos (by decide) h.kpos
          simp only at h8 ⊢
          omega
        · exact h.calls j c hj
    · exact absurd hs (by simp)
  | ret i =>
    simp only [Route.step] at hs
    split at hs
    · next t r o hc =>
      obtain ⟨h1, h2, h3, h4, b, hb, h5, h6⟩ := h.calls _ _ hc
      obtain ⟨g1, g2, _⟩ := h.prov_ok b hb
      split at hs
      · next b' hb' =>
        rw [hb] at hb'
        simp only [Option.some.injEq] at hb' hs
        subst hb' hs
        exact h.local (c := ⟨t, r, o, .last⟩) ⟨h1, h2, h3, h4, g2, g1, ⟨b, hb, Nat.le_refl _⟩, h5, h6⟩
      · next hb' => rw [hb] at hb'; exact absurd hb' (by simp)
    · exact absurd hs (by simp)

theorem Steps.inv {w : World σ ρ} {D : Nat} {s s' : St ρ} (h : Inv w D s) (hs : Steps w D s s') : Inv w D s' := by
  induction hs with
  | refl => exact h
  | tail e _ ht he ih => exact ih.step ht he

/-- **C81** Every table that is returned is what etcd held at some moment, and that moment is at most 301
seconds, plus the time one refresh takes, before the call.  This holds for any number of concurrent
callers.  Missing for the full property: a call that asks for a reload may get a table from before it
(`C81_reload_fails`). -/
theorem C81_age_partial {w : World σ ρ} {D now : Nat} (hk : 0 < w.k) (hn : (maxExpire + 1) * w.k ≤ now)
    {s : St ρ} (hs : Steps w D (St.init now) s) {i : Nat} {c : Call ρ} {t : Table ρ}
    (hc : s.calls i = some c) (hd : c.pc = .done t) :
    w.wrap (w.hist t.1) = some t.2 ∧ t.1 ≤ s.now ∧ c.start < t.1 + D + 301 * w.k := by
  obtain ⟨_, _, _, _, h5⟩ := (hs.inv (Inv.init D now hk hn)).calls i c hc
  rw [hd] at h5
  exact ⟨h5.1, h5.2.1, h5.2.2.2.1⟩

/-- **C81** With `reload` the moment lies no further before the call than the time one refresh takes. -/
theorem C81_reload_partial {w : World σ ρ} {D now : Nat} (hk : 0 < w.k) (hn : (maxExpire + 1) * w.k ≤ now)
    {s : St ρ} (hs : Steps w D (St.init now) s) {i : Nat} {c : Call ρ} {t : Table ρ}
    (hc : s.calls i = some c) (hd : c.pc = .done t) (hr : c.reload = true) : c.start ≤ t.1 + D := by
  obtain ⟨_, _, _, _, h5⟩ := (hs.inv (Inv.init D now hk hn)).calls i c hc
  rw [hd] at h5
  exact h5.2.2.2.2 hr

/-- **C81** No call dereferences a nil table, provided the clock is later than five minutes after 1970. -/
theorem C81_no_panic {w : World σ ρ} {D now : Nat} (hk : 0 < w.k) (hn : (maxExpire + 1) * w.k ≤ now)
    {s : St ρ} (hs : Steps w D (St.init now) s) {i : Nat} {c : Call ρ} (hc : s.calls i = some c) :
    c.pc ≠ .panicked := by
  obtain ⟨_, _, _, _, h5⟩ := (hs.inv (Inv.init D now hk hn)).calls i c hc
  intro hp
  rw [hp] at h5
  exact h5

/-- Along a history the stored table only becomes newer, and answers stay. -/
theorem Steps.mono {w : World σ ρ} {D : Nat} {s s' : St ρ} (h : Inv w D s) (hs : Steps w D s s') {τ : Nat}
    (hb : ∃ b, s.prov = some b ∧ τ ≤ b.1) : ∃ b, s'.prov = some b ∧ τ ≤ b.1 := by
  induction hs with
  | refl => exact hb
  | tail e hs' ht he ih =>
    next s1 s2 =>
    obtain ⟨b, hb1, hb2⟩ := ih
    have hinv := hs'.inv h
    cases e with
    | swap i =>
      simp only [Route.step] at he
      split at he
      · next t r o b' hc =>
        split at he
        · next hptr =>
          simp only [Option.some.injEq] at he
          subst he
          obtain ⟨_, _, h3, _, h5, _⟩ := hinv.calls _ _ hc
          exact ⟨b', rfl, Nat.le_trans hb2 (Nat.le_trans (h3 b hb1 hptr.symm) h5)⟩
        · simp only [Option.some.injEq] at he
          subst he
          exact ⟨b, hb1, hb2⟩
      · exact absurd he (by simp)
    | tick => simp only [Route.step, Option.some.injEq] at he; subst he; exact ⟨b, hb1, hb2⟩
    | call i r =>
      simp only [Route.step] at he
      split at he <;> simp only [Option.some.injEq, reduceCtorEq] at he
      subst he; exact ⟨b, hb1, hb2⟩
    | check i =>
      simp only [Route.step] at he
      split at he <;> simp only [Option.some.injEq, reduceCtorEq] at he
      subst he; exact ⟨b, hb1, hb2⟩
    | fetch i ok =>
      simp only [Route.step] at he
      split at he
      · split at he
        · simp only [Option.some.injEq] at he; subst he; exact ⟨b, hb1, hb2⟩
        · simp only [Option.some.injEq] at he; subst he; exact ⟨b, hb1, hb2⟩
      · exact absurd he (by simp)
    | clock i =>
      simp only [Route.step] at he
      split at he <;> simp only [Option.some.injEq, reduceCtorEq] at he
      subst he; exact ⟨b, hb1, hb2⟩
    | store i =>
      simp only [Route.step] at he
      split at he <;> simp only [Option.some.injEq, reduceCtorEq] at he
      subst he; exact ⟨b, hb1, hb2⟩
    | ret i =>
      simp only [Route.step] at he
      split at he
      · rw [hb1] at he
        simp only [Option.some.injEq] at he
        subst he; exact ⟨b, rfl, hb2⟩
      · exact absurd he (by simp)

/-- Calls that return in state `s'` but had not returned in state `s`. -/
theorem ret_newer {w : World σ ρ} {D : Nat} {s s' : St ρ} (h : Inv w D s) (hs : Steps w D s s') {τ : Nat}
    (hb : ∃ b, s.prov = some b ∧ τ ≤ b.1) {j : Nat} (hj : ∀ c t, s.calls j = some c → c.pc ≠ .done t)
    {c : Call ρ} {t : Table ρ} (hc : s'.calls j = some c) (hd : c.pc = .done t) : τ ≤ t.1 := by
  induction hs generalizing c t with
  | refl => exact absurd hd (hj c t hc)
  | tail e hs' ht he ih =>
    next s1 s2 =>
    obtain ⟨b, hb1, hb2⟩ := hs'.mono h hb
    have key : s2.calls j = s1.calls j ∨ (∃ c', s2.calls j = some c' ∧ (∀ t, c'.pc ≠ .done t)) ∨
        ∃ c', s2.calls j = some c' ∧ c'.pc = .done b := by
      cases e with
      | tick => simp only [Route.step, Option.some.injEq] at he; subst he; exact Or.inl rfl
      | call i r =>
        simp only [Route.step] at he
        split at he
        · exact absurd he (by simp)
        · simp only [Option.some.injEq] at he
          subst he
          simp only
          by_cases hji : j = i
          · rw [if_pos hji]; exact Or.inr (Or.inl ⟨_, rfl, by simp⟩)
          · rw [if_neg hji]; exact Or.inl rfl
      | check i =>
        simp only [Route.step] at he
        split at he
        · simp only [Option.some.injEq] at he
          subst he
          simp only [setPc]
          by_cases hji : j = i
          · rw [if_pos hji]; refine Or.inr (Or.inl ⟨_, rfl, ?_⟩)
            intro t; simp only; split <;> simp
          · rw [if_neg hji]; exact Or.inl rfl
        · exact absurd he (by simp)
      | fetch i ok =>
        simp only [Route.step] at he
        split at he
        · split at he
          · simp only [Option.some.injEq] at he
            subst he
            simp only [setPc]
            by_cases hji : j = i
            · rw [if_pos hji]; exact Or.inr (Or.inl ⟨_, rfl, by simp⟩)
            · rw [if_neg hji]; exact Or.inl rfl
          · simp only [Option.some.injEq] at he
            subst he
            simp only [setPc]
            by_cases hji : j = i
            · rw [if_pos hji]; exact Or.inr (Or.inl ⟨_, rfl, by simp⟩)
            · rw [if_neg hji]; exact Or.inl rfl
        · exact absurd he (by simp)
      | swap i =>
        simp only [Route.step] at he
        split at he
        · split at he
          · simp only [Option.some.injEq] at he
            subst he
            simp only [setPc]
            by_cases hji : j = i
            · rw [if_pos hji]; exact Or.inr (Or.inl ⟨_, rfl, by simp⟩)
            · rw [if_neg hji]; exact Or.inl rfl
          · simp only [Option.some.injEq] at he
            subst he
            simp only [setPc]
            by_cases hji : j = i
            · rw [if_pos hji]; exact Or.inr (Or.inl ⟨_, rfl, by simp⟩)
            · rw [if_neg hji]; exact Or.inl rfl
        · exact absurd he (by simp)
      | clock i =>
        simp only [Route.step] at he
        split at he
        · simp only [Option.some.injEq] at he
          subst he
          simp only [setPc]
          by_cases hji : j = i
          · rw [if_pos hji]; exact Or.inr (Or.inl ⟨_, rfl, by simp⟩)
          · rw [if_neg hji]; exact Or.inl rfl
        · exact absurd he (by simp)
      | store i =>
        simp only [Route.step] at he
        split at he
        · simp only [Option.some.injEq] at he
          subst he
          simp only [setPc]
          by_cases hji : j = i
          · rw [if_pos hji]; exact Or.inr (Or.inl ⟨_, rfl, by simp⟩)
          · rw [if_neg hji]; exact Or.inl rfl
        · exact absurd he (by simp)
      | ret i =>
        simp only [Route.step] at he
        split at he
        · rw [hb1] at he
          simp only [Option.some.injEq] at he
          subst he
          simp only [setPc]
          by_cases hji : j = i
          · rw [if_pos hji]; exact Or.inr (Or.inr ⟨_, rfl, rfl⟩)
          · rw [if_neg hji]; exact Or.inl rfl
        · exact absurd he (by simp)
    rcases key with hk | ⟨c', hk, hno⟩ | ⟨c', hk, hyes⟩
    · rw [hk] at hc; exact ih hc hd
    · rw [hk] at hc
      simp only [Option.some.injEq] at hc
      subst hc
      exact absurd hd (hno t)
    · rw [hk] at hc
      simp only [Option.some.injEq] at hc
      subst hc
      rw [hyes] at hd
      simp only [Pc.done.injEq] at hd
      rw [← hd]; exact hb2

/-- **C81** Tables never go back: a call that returns after another one has returned gets a table that is
at least as new. -/
theorem C81_monotone {w : World σ ρ} {D now : Nat} (hk : 0 < w.k) (hn : (maxExpire + 1) * w.k ≤ now)
    {s s' : St ρ} (h1 : Steps w D (St.init now) s) (h2 : Steps w D s s') {i j : Nat} {ci cj : Call ρ}
    {ti tj : Table ρ} (hi : s.calls i = some ci) (hdi : ci.pc = .done ti)
    (hj : ∀ c t, s.calls j = some c → c.pc ≠ .done t)
    (hj' : s'.calls j = some cj) (hdj : cj.pc = .done tj) : ti.1 ≤ tj.1 := by
  have hinv := h1.inv (Inv.init D now hk hn)
  obtain ⟨_, _, _, _, h5⟩ := hinv.calls i ci hi
  rw [hdi] at h5
  exact ret_newer hinv h2 h5.2.2.1 hj hj' hdj

/-! ## Cases -/

/-- Test for `Timely`. -/
def timelyB (D : Nat) (s : St ρ) : Ev → Bool
  | .swap i => match s.calls i with
    | some ⟨_, _, _, .built b⟩ => decide (s.now ≤ b.1 + D)
    | _ => true
  | .clock i => match s.calls i with
    | some ⟨_, _, _, .swapped τ⟩ => decide (s.now ≤ τ + D)
    | _ => true
  | _ => true

theorem timelyB_ok {D : Nat} {s : St ρ} {e : Ev} (h : timelyB D s e = true) : Timely D s e := by
  cases e with
  | swap i =>
    rintro ⟨t, r, o, pc⟩ b hc hp
    simp only at hp
    subst hp
    simpa [timelyB, hc] using h
  | clock i =>
    rintro ⟨t, r, o, pc⟩ τ hc hp
    simp only at hp
    subst hp
    simpa [timelyB, hc] using h
  | _ => trivial

/-- A list of steps with the test. -/
def playT (w : World σ ρ) (D : Nat) : St ρ → List Ev → Option (St ρ)
  | s, [] => some s
  | s, e :: es => if timelyB D s e then (step w s e).bind fun s' => playT w D s' es else none

theorem playT_steps {w : World σ ρ} {D : Nat} (es : List Ev) : ∀ {s0 s s' : St ρ}, Steps w D s0 s →
    playT w D s es = some s' → Steps w D s0 s' := by
  induction es with
  | nil => intro s0 s s' h hp; simp only [playT, Option.some.injEq] at hp; subst hp; exact h
  | cons e es ih =>
    intro s0 s s' h hp
    simp only [playT] at hp
    split at hp
    · next ht =>
      cases hs : step w s e with
      | none => rw [hs] at hp; exact absurd hp (by simp)
      | some s1 =>
        rw [hs] at hp
        exact ih (h.tail e (timelyB_ok ht) hs) hp
    · exact absurd hp (by simp)

/-- What call `i` returned. -/
def answer (s : St ρ) (i : Nat) : Option (Table ρ) :=
  match s.calls i with
  | some ⟨_, _, _, .done t⟩ => some t
  | _ => none

theorem answer_done {s : St ρ} {i : Nat} {t : Table ρ} (h : answer s i = some t) :
    ∃ c, s.calls i = some c ∧ c.pc = .done t := by
  unfold answer at h
  split at h
  · next hc => simp only [Option.some.injEq] at h; subst h; exact ⟨_, hc, rfl⟩
  · exact absurd h (by simp)

/-- One tick to the second; the slots move from server 0 to server 1 at second 302. -/
def exWorld : World Nat Nat := ⟨1, fun t => if t < 302 then 0 else 1, some⟩

/-- A call that asks for a reload gets what etcd held at the time of the call or later. -/
def ReloadFresh : Prop := ∀ (σ ρ : Type) (w : World σ ρ) (D now : Nat), 0 < w.k → (maxExpire + 1) * w.k ≤ now →
  ∀ s : St ρ, Steps w D (St.init now) s → ∀ i c t, s.calls i = some c → c.pc = .done t → c.reload = true →
    c.start ≤ t.1

/-- Two callers at once: the slower one stores its older table, the reload of the other is thrown away. -/
def exRace : List Ev := [.call 0 false, .check 0, .fetch 0 true, .tick, .call 1 true, .check 1, .swap 0,
  .fetch 1 true, .swap 1, .ret 1]

/-- **C81, refuted** -/
theorem C81_reload_fails : ¬ ReloadFresh := by
  intro h
  cases hs : playT exWorld 1 (St.init 301) exRace with
  | none => exact absurd (congrArg Option.isSome hs) (by decide)
  | some s =>
    have hc : s.calls 1 = some ⟨302, true, 0, .done (301, 0)⟩ := by
      have : (playT exWorld 1 (St.init 301) exRace).bind (fun s => s.calls 1) = some ⟨302, true, 0, .done (301, 0)⟩ := rfl
      rw [hs] at this
      exact this
    have := h Nat Nat exWorld 1 301 (by decide) (by decide) s (playT_steps exRace (.refl _) hs) 1 _ (301, 0) hc rfl rfl
    exact absurd this (by decide)

set_option maxRecDepth 40000 in
/-- **C81, how stale** A call may get a table although the slots moved 299 seconds before: the bound of
`C81_age_partial` is nearly reached. -/
theorem C81_stale : ∃ s : St Nat, Steps exWorld 0 (St.init 301) s ∧ s.now = 601 ∧
    s.calls 1 = some ⟨601, false, 1, .done (301, 0)⟩ ∧ exWorld.hist 302 = 1 := by
  cases hs : playT exWorld 0 (St.init 301) ([.call 0 false, .check 0, .fetch 0 true, .swap 0, .clock 0, .store 0,
    .ret 0] ++ List.replicate 300 .tick ++ [.call 1 false, .check 1, .ret 1]) with
  | none => exact absurd (congrArg Option.isSome hs) (by decide)
  | some s =>
    refine ⟨s, playT_steps _ (.refl _) hs, ?_, ?_, rfl⟩
    · have := congrArg (Option.map St.now) hs
      simp only [Option.map_some] at this
      exact (Option.some.inj (this.symm.trans rfl))
    · have := congrArg (fun o => Option.bind o (fun s => s.calls 1)) hs
      simp only [Option.bind_some] at this
      exact this.symm.trans rfl

/-- The hypotheses of the theorems above are met: a call that has returned, then another one. -/
example : (playT exWorld 1 (St.init 301) [.call 0 true, .check 0, .fetch 0 true, .swap 0, .clock 0, .store 0,
    .ret 0]).bind (fun s => answer s 0) = some (301, 0) ∧
    (playT exWorld 1 (St.init 301) [.call 0 true, .check 0, .fetch 0 true, .swap 0, .clock 0, .store 0, .ret 0,
      .tick, .call 1 true, .check 1, .fetch 1 true, .swap 1, .clock 1, .store 1, .ret 1]).bind
      (fun s => answer s 1) = some (302, 1) ∧ 0 < exWorld.k ∧ (maxExpire + 1) * exWorld.k ≤ 301 :=
  ⟨rfl, rfl, by decide, by decide⟩

end Verif.Meta.Route
