import Verif.Object.Temp

/-! # Temporary objects: what is answered, and what stays behind (C80) -/

namespace Verif.Temp

open Verif.Object (Bytes appendAligned getFile padded upd AlignedPieces pageSize)

theorem at_inj {c : Conf} {m m' : Path} {x x' : Str} : c.at m x = c.at m' x' ↔ m = m' ∧ x = x' := by
  constructor
  · intro h
    have h2 := List.append_inj' h (by simp)
    have h3 := List.append_inj h2.2 rfl
    exact ⟨h2.1, by simpa using h3.2⟩
  · rintro ⟨rfl, rfl⟩; rfl

theorem upd_same {α : Type} (m : Str → Option α) (k : Str) (v : Option α) : upd m k v k = v := by simp [upd]
theorem upd_other {α : Type} (m : Str → Option α) {k x : Str} (v : Option α) (h : x ≠ k) :
    upd m k v x = m x := by simp [upd, h]
theorem updF_same {α : Type} (m : Path → Option α) (k : Path) (v : Option α) : updF m k v k = v := by
  simp [updF]
theorem updF_other {α : Type} (m : Path → Option α) {k x : Path} (v : Option α) (h : x ≠ k) :
    updF m k v x = m x := by simp [updF, h]

/-- Entries on their way to a cleaner. -/
def Pending (s : St) (e : Info) : Prop :=
  (∃ r, (e, r) ∈ s.notes) ∨ ∃ q, q ∈ s.chans ∧ e ∈ q.queue

/-- The state agrees with the specification. -/
structure R (c : Conf) (u : List Str) (m : Sp) (s : St) : Prop where
  none_iff : ∀ id, m.ups id = none ↔ s.infos id = none
  info : ∀ id ti, s.infos id = some ti → ti.id = id ∧ id ∈ u ∧ hasPrefix ti.name tempPrefix = false
  pieces : ∀ id ti ps, m.ups id = some (ti, ps) → s.infos id = some ti ∧
    s.files (c.at ti.mount id) = if ps = [] then none else some (content ps)
  objs : ∀ mp x, hasPrefix x tempPrefix = false → m.objs mp x = s.files (c.at mp x)
  pend : ∀ e, Pending s e → e.id ∈ u ∧ s.infos e.id = none
  used : ∀ id, id ∈ u → hasPrefix id tempPrefix = true
  unused : ∀ mp x, hasPrefix x tempPrefix = true → x ∉ u → s.files (c.at mp x) = none

theorem pending_drop {s : St} {id : Str} {e : Info} (h : Pending (drop s id) e) :
    Pending s e ∨ s.infos id = some e := by
  unfold drop at h
  split at h
  · exact Or.inl h
  · next ti hti =>
    rcases h with ⟨r, hr⟩ | ⟨q, hq, he⟩
    · simp only [List.mem_append, List.mem_singleton, Prod.mk.injEq] at hr
      rcases hr with hr | ⟨rfl, _⟩
      · exact Or.inl (Or.inl ⟨r, hr⟩)
      · exact Or.inr hti
    · exact Or.inl (Or.inr ⟨q, hq, he⟩)

theorem drop_files (s : St) (id : Str) : (drop s id).files = s.files := by
  unfold drop; split <;> rfl

theorem drop_infos (s : St) (id : Str) : (drop s id).infos = upd s.infos id none := by
  unfold drop
  split
  · next h => funext x; by_cases hx : x = id
              · rw [hx, upd_same, h]
              · rw [upd_other _ _ hx]
  · rfl

/-- Closing an upload. -/
theorem R.drop {c : Conf} {u : List Str} {m : Sp} {s : St} (h : R c u m s) (id : Str) :
    R c u { m with ups := upd m.ups id none } (drop s id) where
  none_iff x := by
    rw [drop_infos]
    by_cases hx : x = id
    · subst hx; simp [upd_same]
    · simp only [upd_other _ _ hx]; exact h.none_iff x
  info x ti hx := by
    rw [drop_infos] at hx
    by_cases hxi : x = id
    · subst hxi; rw [upd_same] at hx; exact absurd hx (by simp)
    · rw [upd_other _ _ hxi] at hx; exact h.info x ti hx
  pieces x ti ps hx := by
    rw [drop_infos, drop_files]
    by_cases hxi : x = id
    · subst hxi; simp only [upd_same] at hx; exact absurd hx (by simp)
    · simp only [upd_other _ _ hxi] at hx ⊢; exact h.pieces x ti ps hx
  objs mp x hx := by rw [drop_files]; exact h.objs mp x hx
  pend e he := by
    rw [drop_infos]
    rcases pending_drop he with he | he
    · obtain ⟨h1, h2⟩ := h.pend e he
      refine ⟨h1, ?_⟩
      by_cases hx : e.id = id
      · rw [hx, upd_same]
      · rw [upd_other _ _ hx]; exact h2
    · obtain ⟨h1, h2, _⟩ := h.info _ _ he
      rw [h1, upd_same]; exact ⟨h2, rfl⟩
  used := h.used
  unused mp x := by rw [drop_files]; exact h.unused mp x

theorem pending_send {s : St} {i : Nat} {e : Info} (h : Pending (send s i) e) : Pending s e := by
  unfold send at h
  split at h
  · exact h
  · rcases h with ⟨r, hr⟩ | h
    · exact Or.inl ⟨r, List.mem_of_mem_eraseIdx hr⟩
    · exact Or.inr h
  · next e' ch rest hi =>
    have hmem := List.mem_of_getElem? hi
    split at h
    · exact h
    · next q hq =>
      split at h
      · rcases h with ⟨r, hr⟩ | ⟨q', hq', he⟩
        · simp only at hr
          split at hr
          · exact Or.inl ⟨r, List.mem_of_mem_eraseIdx hr⟩
          · rcases List.mem_or_eq_of_mem_set hr with hr | hr
            · exact Or.inl ⟨r, hr⟩
            · simp only [Prod.mk.injEq] at hr
              rw [hr.1]; exact Or.inl ⟨_, hmem⟩
        · rcases List.mem_or_eq_of_mem_set hq' with hq' | hq'
          · exact Or.inr ⟨q', hq', he⟩
          · subst hq'
            simp only [List.mem_append, List.mem_singleton] at he
            rcases he with he | he
            · exact Or.inr ⟨q, List.mem_of_getElem? hq, he⟩
            · rw [he]; exact Or.inl ⟨_, hmem⟩
      · exact h

theorem send_files (s : St) (i : Nat) : (send s i).files = s.files := by
  unfold send; repeat' split
  all_goals rfl

theorem send_infos (s : St) (i : Nat) : (send s i).infos = s.infos := by
  unfold send; repeat' split
  all_goals rfl

/-- What a cleaner does: nothing, or it takes an entry that is pending. -/
theorem clean_cases (c : Conf) (s : St) (ch : Nat) :
    clean c s ch = s ∨ ∃ q e rest, s.chans[ch]? = some q ∧ q.live = true ∧ q.queue = e :: rest ∧
      clean c s ch = { s with chans := s.chans.set ch { q with queue := rest },
                              files := updF s.files (c.at [] e.id) none } := by
  unfold clean
  split
  · exact Or.inl rfl
  · next q hq =>
    split
    · next e rest h1 h2 => exact Or.inr ⟨q, e, rest, hq, h1, h2, rfl⟩
    · exact Or.inl rfl

theorem content_append (ps : List Bytes) (b : Bytes) : content (ps ++ [b]) = content ps ++ padded b := by
  simp [content]

/-- Only notifications and channels change, and no entry is added. -/
theorem R.quiet {c : Conf} {u : List Str} {m : Sp} {s s' : St} (h : R c u m s) (hi : s'.infos = s.infos)
    (hf : s'.files = s.files) (hp : ∀ e, Pending s' e → Pending s e) : R c u m s' where
  none_iff := by rw [hi]; exact h.none_iff
  info := by rw [hi]; exact h.info
  pieces := by rw [hi, hf]; exact h.pieces
  objs := by rw [hf]; exact h.objs
  pend e he := by rw [hi]; exact h.pend e (hp e he)
  used := h.used
  unused := by rw [hf]; exact h.unused

theorem ne_of_prefix {x y : Str} (hx : hasPrefix x tempPrefix = true) (hy : hasPrefix y tempPrefix = false) :
    x ≠ y := by rintro rfl; rw [hx] at hy; exact absurd hy (by simp)

theorem R.ups_of_info {c : Conf} {u : List Str} {m : Sp} {s : St} (h : R c u m s) {id : Str} {ti : Info}
    (hi : s.infos id = some ti) : ∃ ps, m.ups id = some (ti, ps) := by
  cases hm : m.ups id with
  | none => rw [(h.none_iff id).1 hm] at hi; exact absurd hi (by simp)
  | some v =>
    obtain ⟨t, ps⟩ := v
    have := (h.pieces id t ps hm).1
    rw [hi] at this
    exact ⟨ps, by simp_all⟩

theorem getFile_inside {c : Conf} (hl : c.lost < pageSize) {f : Bytes} {n : Nat} (hn : n ≠ 0)
    (h : n ≤ f.length) : getFile c.lost f 0 n = some (f.take n) :=
  Object.getFile_start hl f n (by omega) h

theorem content_ne {ps : List Bytes} {n : Nat} (hn : n ≠ 0) (h : n ≤ (content ps).length) : ps ≠ [] := by
  rintro rfl
  simp [content] at h
  omega

/-- Identifiers used after a step. -/
def usedAfter (u : List Str) : Op → List Str
  | .post id _ _ _ _ => id :: u
  | _ => u

/-- What `Fresh` asks of one step. -/
def FreshOp (u : List Str) : Op → Prop
  | .post id name _ _ _ => id ∉ u ∧ hasPrefix id tempPrefix = true ∧ hasPrefix name tempPrefix = false
  | _ => True

theorem fresh_cons {u : List Str} {op : Op} {ops : List Op} (h : Fresh u (op :: ops)) :
    FreshOp u op ∧ Fresh (usedAfter u op) ops := by
  cases op <;> simp_all [Fresh, FreshOp, usedAfter]

set_option maxHeartbeats 1000000 in
/-- One step keeps the agreement and gives the answer. -/
theorem R.step {c : Conf} (hB : 0 < c.B) (hp : pageSize ∣ c.B) (hl : c.lost < pageSize)
    {u : List Str} {m : Sp} {s : St} (h : R c u m s) (op : Op) (hf : FreshOp u op) :
    R c (usedAfter u op) (specStep c.comp m op).1 (step c s op).1 ∧
      ∀ x, (specStep c.comp m op).2 = some x → (step c s op).2 = some x := by
  cases op with
  | post id name size mount stored =>
    obtain ⟨hu, hid, hname⟩ := hf
    have hno : s.infos id = none := by
      cases hi : s.infos id with
      | none => rfl
      | some ti => exact absurd (h.info _ _ hi).2.1 hu
    have keep : R c (id :: u) m s :=
      { h with
        info := fun x ti hx => by have := h.info x ti hx; exact ⟨this.1, List.mem_cons_of_mem _ this.2.1, this.2.2⟩
        pend := fun e he => ⟨List.mem_cons_of_mem _ (h.pend e he).1, (h.pend e he).2⟩
        used := fun x hx => by
          rcases List.mem_cons.1 hx with rfl | hx
          · exact hid
          · exact h.used x hx
        unused := fun mp x hx hxu => h.unused mp x hx fun hx' => hxu (List.mem_cons_of_mem _ hx') }
    simp only [specStep, Temp.step, usedAfter]
    by_cases h0 : size = 0
    · rw [if_pos h0, if_pos h0]; exact ⟨keep, fun x hx => hx⟩
    · rw [if_neg h0, if_neg h0]
      cases stored with
      | false => exact ⟨keep, fun x hx => hx⟩
      | true =>
        refine ⟨?_, fun x hx => hx⟩
        refine ⟨fun x => ?_, fun x ti hx => ?_, fun x ti ps hx => ?_, keep.objs, fun e he => ?_, keep.used,
          keep.unused⟩
        · by_cases hx : x = id
          · subst hx; simp [upd_same]
          · simp only [if_true, upd_other _ _ hx]; exact h.none_iff x
        · by_cases hxi : x = id
          · subst hxi
            simp only [if_true, upd_same, Option.some.injEq] at hx
            subst hx
            exact ⟨rfl, List.mem_cons_self, hname⟩
          · simp only [if_true, upd_other _ _ hxi] at hx; exact keep.info x ti hx
        · by_cases hxi : x = id
          · subst hxi
            simp only [if_true, upd_same, Option.some.injEq, Prod.mk.injEq] at hx
            obtain ⟨rfl, rfl⟩ := hx
            simp only [if_true, upd_same]
            exact ⟨trivial, h.unused mount x hid hu⟩
          · simp only [if_true, upd_other _ _ hxi] at hx ⊢; exact h.pieces x ti ps hx
        · have he' : Pending s e := he
          refine ⟨(keep.pend e he').1, ?_⟩
          have hne : e.id ≠ id := by rintro hx; exact hu (hx ▸ (h.pend e he').1)
          simp only [if_true, upd_other _ _ hne]
          exact (h.pend e he').2
  | patch id body =>
    simp only [specStep, Temp.step, usedAfter]
    cases hi : s.infos id with
    | none => rw [(h.none_iff id).2 hi]; exact ⟨h, fun x hx => hx⟩
    | some ti =>
      obtain ⟨ps, hm⟩ := h.ups_of_info hi
      rw [hm]
      simp only
      by_cases hb : body = []
      · rw [if_pos hb, if_pos hb]; exact ⟨h, fun x hx => hx⟩
      · rw [if_neg hb, if_neg hb]
        refine ⟨?_, fun x hx => hx⟩
        obtain ⟨hid, hidu, hnm⟩ := h.info _ _ hi
        have hfile := (h.pieces _ _ _ hm).2
        have hpre := h.used _ hidu
        rw [hid]
        refine ⟨fun x => ?_, h.info, fun x t qs hx => ?_, fun mp x hx => ?_, h.pend, h.used, fun mp x hx hxu => ?_⟩
        · by_cases hx : x = id
          · subst hx; simp [upd_same, hi]
          · simp only [upd_other _ _ hx]; exact h.none_iff x
        · by_cases hxi : x = id
          · subst hxi
            simp only [upd_same, Option.some.injEq, Prod.mk.injEq] at hx
            obtain ⟨rfl, rfl⟩ := hx
            refine ⟨hi, ?_⟩
            simp only
            rw [updF_same, Object.appendAligned_ok hB hp, if_neg (by simp), content_append, hfile]
            by_cases hps : ps = []
            · subst hps; simp [content]
            · simp [hps]
          · simp only [upd_other _ _ hxi] at hx
            obtain ⟨h1, h2⟩ := h.pieces x t qs hx
            refine ⟨h1, ?_⟩
            simp only
            rw [updF_other _ _ (by rw [ne_eq, at_inj]; exact fun hh => hxi hh.2)]
            exact h2
        · simp only
          rw [updF_other _ _ (by rw [ne_eq, at_inj]; exact fun hh => ne_of_prefix hpre hx hh.2.symm)]
          exact h.objs mp x hx
        · simp only
          rw [updF_other _ _ (by rw [ne_eq, at_inj]; rintro ⟨_, rfl⟩; exact hxu hidu)]
          exact h.unused mp x hx hxu
  | head id =>
    simp only [specStep, Temp.step, usedAfter]
    cases hi : s.infos id with
    | none => rw [(h.none_iff id).2 hi]; exact ⟨h, fun x hx => hx⟩
    | some ti =>
      obtain ⟨ps, hm⟩ := h.ups_of_info hi
      have hfile := (h.pieces _ _ _ hm).2
      rw [hm]
      simp only [(h.info _ _ hi).1, hfile]
      by_cases hps : ps = []
      · subst hps; rw [if_pos rfl]; refine ⟨h, fun x hx => ?_⟩
        simpa [content] using hx
      · rw [if_neg hps]; exact ⟨h, fun x hx => hx⟩
  | get id n =>
    simp only [specStep, Temp.step, usedAfter]
    cases hi : s.infos id with
    | none => rw [(h.none_iff id).2 hi]; exact ⟨h, fun x hx => hx⟩
    | some ti =>
      obtain ⟨ps, hm⟩ := h.ups_of_info hi
      have hfile := (h.pieces _ _ _ hm).2
      rw [hm]
      simp only [(h.info _ _ hi).1, hfile]
      by_cases hn : n = 0
      · rw [if_pos hn, if_pos hn]; exact ⟨h, fun x hx => hx⟩
      · rw [if_neg hn, if_neg hn]
        by_cases hps : ps = []
        · rw [if_pos hps, if_pos hps]; exact ⟨h, fun x hx => hx⟩
        · rw [if_neg hps, if_neg hps]
          by_cases hle : n ≤ (content ps).length
          · rw [if_pos hle]
            simp only [getFile_inside hl hn hle]
            exact ⟨h, fun x hx => hx⟩
          · rw [if_neg hle]
            refine ⟨?_, fun x hx => absurd hx (by simp)⟩
            simp only
            split <;> exact h
  | put id compress =>
    simp only [specStep, Temp.step, usedAfter]
    cases hi : s.infos id with
    | none => rw [(h.none_iff id).2 hi]; exact ⟨h, fun x hx => hx⟩
    | some ti =>
      obtain ⟨ps, hm⟩ := h.ups_of_info hi
      obtain ⟨hid, hidu, hnm⟩ := h.info _ _ hi
      have hfile := (h.pieces _ _ _ hm).2
      have hpre := h.used _ hidu
      have hobj := h.objs ti.mount ti.name hnm
      rw [hm]
      simp only [commit, ← hobj]
      cases ho : m.objs ti.mount ti.name with
      | some b => exact ⟨h.drop id, fun x hx => hx⟩
      | none =>
        simp only [hfile]
        by_cases hps : ps = []
        · simp only [hps, if_true]; exact ⟨h, fun x hx => hx⟩
        · simp only [hps, if_false]
          have base : ∀ fs : Path → Option Bytes,
              (∀ mp x, hasPrefix x tempPrefix = false → fs (c.at mp x) =
                if mp = ti.mount ∧ x = ti.name then
                  some (if compress = true then c.comp (content ps) else content ps) else m.objs mp x) →
              (∀ mp x, hasPrefix x tempPrefix = true → x ≠ id → fs (c.at mp x) = s.files (c.at mp x)) →
              R c u ⟨upd m.ups id none, fun mp x => if mp = ti.mount ∧ x = ti.name then
                  some (if compress = true then c.comp (content ps) else content ps) else m.objs mp x⟩
                (Temp.drop { s with files := fs } id) := by
            intro fs h1 h2
            have hd := h.drop id
            have e1 : (Temp.drop { s with files := fs } id).infos = (Temp.drop s id).infos := by
              rw [drop_infos, drop_infos]
            have e2 : ∀ e, Pending (Temp.drop { s with files := fs } id) e → Pending (Temp.drop s id) e := by
              intro e he
              simp only [Temp.drop, hi] at he ⊢
              exact he
            refine ⟨?_, ?_, fun x t qs hx => ?_, fun mp x hx => ?_, fun e he => ?_, hd.used, fun mp x hx hxu => ?_⟩
            · rw [e1]; exact hd.none_iff
            · rw [e1]; exact hd.info
            · obtain ⟨h3, h4⟩ := hd.pieces x t qs hx
              refine ⟨by rw [e1]; exact h3, ?_⟩
              have hxu := (hd.info _ _ h3).2.1
              have hxne : x ≠ id := by rintro rfl; simp only [upd_same] at hx; exact absurd hx (by simp)
              rw [drop_files]
              rw [drop_files] at h4
              simp only
              rw [h2 _ _ (h.used _ hxu) hxne, h4]
            · rw [drop_files]; exact (h1 mp x hx).symm
            · rw [e1]; exact hd.pend e (e2 e he)
            · rw [drop_files]
              simp only
              rw [h2 _ _ hx (by rintro rfl; exact hxu hidu)]
              exact h.unused mp x hx hxu
          cases compress with
          | true =>
            refine ⟨base _ (fun mp x hx => ?_) (fun mp x hx hne => ?_), fun x hx => hx⟩
            · simp only [updF, at_inj, if_true]
              split
              · rfl
              · exact (h.objs mp x hx).symm
            · exact updF_other _ _ (by rw [ne_eq, at_inj]; exact fun hh => ne_of_prefix hx hnm hh.2)
          | false =>
            refine ⟨base _ (fun mp x hx => ?_) (fun mp x hx hne => ?_), fun x hx => hx⟩
            · simp only [updF, at_inj, Bool.false_eq_true, if_false]
              split
              · rfl
              · rw [if_neg (fun hh => ne_of_prefix hpre hx hh.2.symm)]; exact (h.objs mp x hx).symm
            · rw [updF_other _ _ (by rw [ne_eq, at_inj]; exact fun hh => ne_of_prefix hx hnm hh.2),
                updF_other _ _ (by rw [ne_eq, at_inj]; exact fun hh => hne hh.2)]
  | delete id =>
    simp only [specStep, Temp.step, usedAfter]
    cases hi : s.infos id with
    | none => rw [(h.none_iff id).2 hi]; exact ⟨h, fun x hx => hx⟩
    | some ti =>
      obtain ⟨ps, hm⟩ := h.ups_of_info hi
      rw [hm]
      exact ⟨h.drop id, fun x hx => hx⟩
  | expire id => exact ⟨h.drop id, fun x hx => hx⟩
  | send i =>
    exact ⟨h.quiet (send_infos s i) (send_files s i) (fun e => pending_send), fun x hx => hx⟩
  | clean ch =>
    refine ⟨?_, fun x hx => hx⟩
    simp only [specStep, Temp.step, usedAfter]
    rcases clean_cases c s ch with he | ⟨q, e, rest, hq, hlive, hqe, he⟩
    · rw [he]; exact h
    · rw [he]
      have hpe : Pending s e := Or.inr ⟨q, List.mem_of_getElem? hq, by rw [hqe]; exact List.mem_cons_self⟩
      obtain ⟨heu, hen⟩ := h.pend e hpe
      refine ⟨h.none_iff, h.info, fun x t qs hx => ?_, fun mp x hx => ?_, fun e' he' => ?_, h.used,
        fun mp x hx hxu => ?_⟩
      · obtain ⟨h1, h2⟩ := h.pieces x t qs hx
        refine ⟨h1, ?_⟩
        simp only
        rw [updF_other _ _ (by rw [ne_eq, at_inj]; rintro ⟨_, rfl⟩; rw [hen] at h1; exact absurd h1 (by simp))]
        exact h2
      · simp only
        rw [updF_other _ _ (by rw [ne_eq, at_inj]; exact fun hh => ne_of_prefix (h.used _ heu) hx hh.2.symm)]
        exact h.objs mp x hx
      · apply h.pend e'
        rcases he' with he' | ⟨q', hq', he'⟩
        · exact Or.inl he'
        · rcases List.mem_or_eq_of_mem_set hq' with hq' | hq'
          · exact Or.inr ⟨q', hq', he'⟩
          · subst hq'
            exact Or.inr ⟨q, List.mem_of_getElem? hq, by rw [hqe]; exact List.mem_cons_of_mem _ he'⟩
      · simp only [updF]
        split
        · rfl
        · exact h.unused mp x hx hxu
  | leave =>
    refine ⟨?_, fun x hx => hx⟩
    simp only [specStep, Temp.step, usedAfter]
    split
    · refine h.quiet rfl rfl fun e he => ?_
      rcases he with he | ⟨q, hq, he⟩
      · exact Or.inl he
      · obtain ⟨q', hq', rfl⟩ := List.mem_map.1 hq
        exact Or.inr ⟨q', hq', he⟩
    · exact h
  | join =>
    refine ⟨?_, fun x hx => hx⟩
    simp only [specStep, Temp.step, usedAfter]
    split
    · exact h
    · refine h.quiet rfl rfl fun e he => ?_
      rcases he with he | ⟨q, hq, he⟩
      · exact Or.inl he
      · rcases List.mem_append.1 hq with hq | hq
        · exact Or.inr ⟨q, hq, he⟩
        · rw [List.mem_singleton.1 hq] at he
          exact absurd he (by simp)
  | restart =>
    refine ⟨?_, fun x hx => hx⟩
    refine ⟨fun x => by simp [specStep, Temp.step, St.start], fun x t hx => absurd hx (by simp [Temp.step, St.start]),
      fun x t ps hx => absurd hx (by simp [specStep]), h.objs, fun e he => ?_, h.used, h.unused⟩
    rcases he with ⟨r, hr⟩ | ⟨q, hq, he⟩
    · exact absurd hr (by simp [Temp.step, St.start])
    · simp only [Temp.step, St.start, List.mem_singleton] at hq
      rw [hq] at he
      exact absurd he (by simp)

theorem R.start {c : Conf} {files : Path → Option Bytes} (hn : NoTemps c files) :
    R c [] ⟨fun _ => none, fun mp x => files (c.at mp x)⟩ (St.start files) where
  none_iff _ := by simp [St.start]
  info _ _ h := absurd h (by simp [St.start])
  pieces _ _ _ h := absurd h (by simp)
  objs _ _ _ := rfl
  pend e he := by
    rcases he with ⟨r, hr⟩ | ⟨q, hq, he⟩
    · exact absurd hr (by simp [St.start])
    · simp only [St.start, List.mem_singleton] at hq
      rw [hq] at he
      exact absurd he (by simp)
  used _ h := absurd h (by simp)
  unused mp x hx _ := hn mp x hx

def usedAll (u : List Str) (ops : List Op) : List Str := ops.foldl usedAfter u

theorem R.run {c : Conf} (hB : 0 < c.B) (hp : pageSize ∣ c.B) (hl : c.lost < pageSize) (ops : List Op) :
    ∀ {u : List Str} {m : Sp} {s : St}, R c u m s → Fresh u ops →
      R c (usedAll u ops) (specRun c.comp m ops).1 (run c s ops).1 ∧
        Agree (run c s ops).2 (specRun c.comp m ops).2 := by
  induction ops with
  | nil => intro u m s h _; exact ⟨h, trivial⟩
  | cons op ops ih =>
    intro u m s h hf
    obtain ⟨hf1, hf2⟩ := fresh_cons hf
    obtain ⟨h1, h2⟩ := h.step hB hp hl op hf1
    obtain ⟨h3, h4⟩ := ih h1 hf2
    exact ⟨h3, h2, h4⟩

/-- The specification at the start. -/
def Sp.start (c : Conf) (files : Path → Option Bytes) : Sp := ⟨fun _ => none, fun mp x => files (c.at mp x)⟩

/-- **C80** Every request is answered as the specification says: an upload consists of its own bodies
until it is committed, deleted, expires or the server restarts, whatever other uploads, cleaners, leaving
and joining do in between; and committed objects are kept.  Missing for the full property: that nothing
stays behind of uploads that ended (`C80_statement_fails`). -/
theorem C80_answers_partial {c : Conf} (hB : 0 < c.B) (hp : pageSize ∣ c.B) (hl : c.lost < pageSize)
    (files : Path → Option Bytes) (hn : NoTemps c files) (ops : List Op) (hf : Fresh [] ops) :
    Agree (run c (St.start files) ops).2 (specRun c.comp (Sp.start c files) ops).2 ∧
      ∀ mp x, hasPrefix x tempPrefix = false →
        (run c (St.start files) ops).1.files (c.at mp x) = (specRun c.comp (Sp.start c files) ops).1.objs mp x := by
  obtain ⟨h1, h2⟩ := (R.start hn).run hB hp hl ops hf
  exact ⟨h2, fun mp x hx => (h1.objs mp x hx).symm⟩

/-- **C80** Bodies of which all but the last have a length that is a multiple of 4096 are read back as
they were sent. -/
theorem C80_read {c : Conf} (hB : 0 < c.B) (hp : pageSize ∣ c.B) (hl : c.lost < pageSize)
    (files : Path → Option Bytes) (hn : NoTemps c files) (ops : List Op) (hf : Fresh [] ops)
    {id : Str} {ti : Info} {ps : List Bytes}
    (hu : (specRun c.comp (Sp.start c files) ops).1.ups id = some (ti, ps)) (ha : AlignedPieces ps)
    (hne : ps.flatten ≠ []) :
    (step c (run c (St.start files) ops).1 (.get id ps.flatten.length)).2 = some (.data ps.flatten) := by
  obtain ⟨h1, _⟩ := (R.start hn).run hB hp hl ops hf
  have hpos : ps.flatten.length ≠ 0 := fun h => hne (List.length_eq_zero_iff.1 h)
  have hc : content ps = padded ps.flatten := Object.alignedPieces_flatten ps ha
  have hle : ps.flatten.length ≤ (content ps).length := by
    rw [hc, Object.padded_length]; exact Object.le_alignedSize _
  refine (h1.step hB hp hl (.get id ps.flatten.length) trivial).2 _ ?_
  have hu' : (specRun c.comp ⟨fun _ => none, fun mp x => files (c.at mp x)⟩ ops).1.ups id = some (ti, ps) := hu
  simp only [specStep, hu', if_neg hpos, if_neg (content_ne hpos hle), hc]
  simp [padded]

/-! ## Removal on a server whose only mount point is the root -/

/-- The steps of a server that stores everything below `/` and neither leaves the cluster nor restarts. -/
def Rooted : Op → Prop
  | .post _ _ _ mount _ => mount = []
  | .leave => False
  | .restart => False
  | _ => True

structure K (c : Conf) (s : St) : Prop where
  chan : ∃ q, s.chans = [⟨true, q⟩]
  opened : s.opened = true
  notes : ∀ n, n ∈ s.notes → n.2 = [0]
  info : ∀ id ti, s.infos id = some ti → ti.id = id ∧ ti.mount = [] ∧ hasPrefix ti.name tempPrefix = false
  temps : ∀ mp x, hasPrefix x tempPrefix = true → s.files (c.at mp x) ≠ none →
    mp = [] ∧ (s.infos x ≠ none ∨ ∃ e, Pending s e ∧ e.id = x)

theorem pending_of_drop {s : St} {id : Str} {e : Info} (h : Pending s e) : Pending (drop s id) e := by
  unfold drop
  split
  · exact h
  · rcases h with ⟨r, hr⟩ | h
    · exact Or.inl ⟨r, List.mem_append_left _ hr⟩
    · exact Or.inr h

theorem pending_dropped {s : St} {id : Str} {e : Info} (h : s.infos id = some e) : Pending (drop s id) e := by
  unfold drop
  rw [h]
  exact Or.inl ⟨_, List.mem_append_right _ (List.mem_singleton.2 rfl)⟩

theorem K.drop {c : Conf} {s : St} (h : K c s) (id : Str) : K c (drop s id) where
  chan := by unfold Temp.drop; split <;> exact h.chan
  opened := by unfold Temp.drop; split <;> exact h.opened
  notes n hn := by
    obtain ⟨q, hq⟩ := h.chan
    unfold Temp.drop at hn
    split at hn
    · exact h.notes n hn
    · rcases List.mem_append.1 hn with hn | hn
      · exact h.notes n hn
      · rw [List.mem_singleton.1 hn, hq]; rfl
  info x ti hx := by
    rw [drop_infos] at hx
    by_cases hxi : x = id
    · subst hxi; rw [upd_same] at hx; exact absurd hx (by simp)
    · rw [upd_other _ _ hxi] at hx; exact h.info x ti hx
  temps mp x hx hne := by
    rw [drop_files] at hne
    rw [drop_infos]
    obtain ⟨h1, h2⟩ := h.temps mp x hx hne
    refine ⟨h1, ?_⟩
    rcases h2 with h2 | ⟨e, he, hex⟩
    · by_cases hxi : x = id
      · subst hxi
        cases hi : s.infos x with
        | none => exact absurd hi h2
        | some ti => exact Or.inr ⟨ti, pending_dropped hi, (h.info _ _ hi).1⟩
      · rw [upd_other _ _ hxi]; exact Or.inl h2
    · exact Or.inr ⟨e, pending_of_drop he, hex⟩

theorem send_pending {s : St} {i : Nat} {e : Info} (hn : ∀ n, n ∈ s.notes → n.2 ≠ [])
    (h : Pending s e) : Pending (send s i) e := by
  unfold send
  split
  · exact h
  · next hi => exact absurd rfl (hn _ (List.mem_of_getElem? hi))
  · next e' ch rest hi =>
    split
    · exact h
    · next q hq =>
      split
      · have hlt : ch < s.chans.length := (List.getElem?_eq_some_iff.1 hq).1
        have hset : ({ q with queue := q.queue ++ [e'] } : Chan) ∈
            s.chans.set ch { q with queue := q.queue ++ [e'] } := by
          rw [List.mem_iff_getElem]
          exact ⟨ch, by simpa using hlt, by simp⟩
        rcases h with ⟨r, hr⟩ | ⟨q', hq', he⟩
        · by_cases hee : e = e'
          · rw [hee]
            exact Or.inr ⟨_, hset, List.mem_append_right _ (List.mem_singleton.2 rfl)⟩
          · left
            refine ⟨r, ?_⟩
            obtain ⟨j, hj, hjr⟩ := List.mem_iff_getElem.1 hr
            have hji : j ≠ i := by
              rintro rfl
              rw [List.getElem?_eq_getElem hj, hjr] at hi
              simp only [Option.some.injEq, Prod.mk.injEq] at hi
              exact hee hi.1
            simp only
            split
            · rw [List.mem_eraseIdx_iff_getElem]
              exact ⟨j, hj, hji, hjr⟩
            · rw [List.mem_iff_getElem]
              exact ⟨j, by simpa using hj, by rw [List.getElem_set_ne (Ne.symm hji)]; exact hjr⟩
        · obtain ⟨j, hj, hjr⟩ := List.mem_iff_getElem.1 hq'
          right
          by_cases hjc : j = ch
          · subst hjc
            rw [List.getElem?_eq_getElem hj, hjr] at hq
            simp only [Option.some.injEq] at hq
            subst hq
            exact ⟨_, hset, List.mem_append_left _ he⟩
          · refine ⟨q', ?_, he⟩
            rw [List.mem_iff_getElem]
            exact ⟨j, by simpa using hj, by rw [List.getElem_set_ne (Ne.symm hjc)]; exact hjr⟩
      · exact h

theorem K.send {c : Conf} {s : St} (h : K c s) (i : Nat) : K c (send s i) where
  chan := by
    obtain ⟨q, hq⟩ := h.chan
    unfold Temp.send
    split
    · exact ⟨q, hq⟩
    · exact ⟨q, hq⟩
    · next e ch rest hi =>
      have := h.notes _ (List.mem_of_getElem? hi)
      simp only [List.cons.injEq] at this
      obtain ⟨rfl, rfl⟩ := this
      rw [hq]
      simp only [List.getElem?_cons_zero]
      split
      · exact ⟨q ++ [e], rfl⟩
      · exact ⟨q, hq⟩
  opened := by
    unfold Temp.send
    repeat' split
    all_goals exact h.opened
  notes n hn := by
    unfold Temp.send at hn
    split at hn
    · exact h.notes n hn
    · exact h.notes n (List.mem_of_mem_eraseIdx hn)
    · next e ch rest hi =>
      have := h.notes _ (List.mem_of_getElem? hi)
      simp only [List.cons.injEq] at this
      obtain ⟨rfl, rfl⟩ := this
      split at hn
      · exact h.notes n hn
      · split at hn
        · exact h.notes n (List.mem_of_mem_eraseIdx hn)
        · exact h.notes n hn
  info := by rw [send_infos]; exact h.info
  temps mp x hx hne := by
    rw [send_files] at hne
    rw [send_infos]
    obtain ⟨h1, h2⟩ := h.temps mp x hx hne
    refine ⟨h1, ?_⟩
    rcases h2 with h2 | ⟨e, he, hex⟩
    · exact Or.inl h2
    · exact Or.inr ⟨e, send_pending (fun n hn => by rw [h.notes n hn]; simp) he, hex⟩

theorem K.clean {c : Conf} {s : St} (h : K c s) (ch : Nat) : K c (clean c s ch) := by
  rcases clean_cases c s ch with he | ⟨q, e, rest, hq, hlive, hqe, he⟩
  · rw [he]; exact h
  · rw [he]
    obtain ⟨q0, hq0⟩ := h.chan
    have hch : ch = 0 := by
      have := (List.getElem?_eq_some_iff.1 hq).1
      rw [hq0] at this
      simpa using this
    subst hch
    rw [hq0] at hq
    simp only [List.getElem?_cons_zero, Option.some.injEq] at hq
    subst hq
    simp only at hqe
    subst hqe
    refine ⟨⟨rest, by rw [hq0]; rfl⟩, h.opened, h.notes, h.info, fun mp x hx hne => ?_⟩
    simp only [updF, at_inj] at hne
    split at hne
    · exact absurd rfl hne
    · next hnot =>
      obtain ⟨h1, h2⟩ := h.temps mp x hx hne
      refine ⟨h1, ?_⟩
      rcases h2 with h2 | ⟨e', he', hex⟩
      · exact Or.inl h2
      · right
        refine ⟨e', ?_, hex⟩
        rcases he' with he' | ⟨q', hq', he'⟩
        · exact Or.inl he'
        · rw [hq0, List.mem_singleton] at hq'
          subst hq'
          rcases List.mem_cons.1 he' with rfl | he'
          · exact absurd ⟨h1, hex.symm⟩ hnot
          · exact Or.inr ⟨⟨true, rest⟩, by rw [hq0]; simp, he'⟩

theorem K.files {c : Conf} {s : St} (h : K c s) (fs : Path → Option Bytes)
    (hfs : ∀ mp x, hasPrefix x tempPrefix = true → fs (c.at mp x) ≠ none →
      s.files (c.at mp x) ≠ none ∨ (mp = [] ∧ s.infos x ≠ none)) : K c { s with files := fs } where
  chan := h.chan
  opened := h.opened
  notes := h.notes
  info := h.info
  temps mp x hx hne := by
    rcases hfs mp x hx hne with h1 | ⟨h1, h2⟩
    · exact h.temps mp x hx h1
    · exact ⟨h1, Or.inl h2⟩

theorem K.step {c : Conf} {s : St} (h : K c s) (u : List Str) (op : Op) (hf : FreshOp u op) (hr : Rooted op) :
    K c (step c s op).1 := by
  cases op with
  | post id name size mount stored =>
    simp only [Temp.step]
    split
    · exact h
    · split
      · refine ⟨h.chan, h.opened, h.notes, fun x ti hx => ?_, fun mp x hx hne => ?_⟩
        · by_cases hxi : x = id
          · subst hxi
            simp only [upd_same, Option.some.injEq] at hx
            subst hx
            exact ⟨rfl, hr, hf.2.2⟩
          · simp only [upd_other _ _ hxi] at hx; exact h.info x ti hx
        · obtain ⟨h1, h2⟩ := h.temps mp x hx hne
          refine ⟨h1, ?_⟩
          by_cases hxi : x = id
          · subst hxi; simp [upd_same]
          · simp only [upd_other _ _ hxi]; exact h2
      · exact h
  | patch id body =>
    simp only [Temp.step]
    split
    · exact h
    · next ti hi =>
      split
      · exact h
      · obtain ⟨h1, h2, _⟩ := h.info _ _ hi
        refine h.files _ fun mp x hx hne => ?_
        simp only [updF, at_inj, h1, h2] at hne
        split at hne
        · next hh => exact Or.inr ⟨hh.1, by rw [hh.2, hi]; simp⟩
        · exact Or.inl hne
  | head id => simp only [Temp.step]; repeat' split
               all_goals exact h
  | get id n => simp only [Temp.step]; repeat' split
                all_goals exact h
  | put id compress =>
    simp only [Temp.step]
    split
    · exact h
    · next ti hi =>
      obtain ⟨h1, h2, h3⟩ := h.info _ _ hi
      split
      · exact h
      · next fs hfs =>
        refine K.drop (h.files fs fun mp x hx hne => ?_) id
        unfold commit at hfs
        split at hfs
        · simp only [Option.some.injEq] at hfs; rw [hfs]; exact Or.inl hne
        · split at hfs
          · exact absurd hfs (by simp)
          · split at hfs
            · simp only [Option.some.injEq] at hfs
              rw [← hfs, updF_other _ _ (by rw [ne_eq, at_inj]; exact fun hh => ne_of_prefix hx h3 hh.2)] at hne
              exact Or.inl hne
            · simp only [Option.some.injEq] at hfs
              rw [← hfs, updF_other _ _ (by rw [ne_eq, at_inj]; exact fun hh => ne_of_prefix hx h3 hh.2)] at hne
              simp only [updF] at hne
              split at hne
              · exact absurd rfl hne
              · exact Or.inl hne
  | delete id =>
    simp only [Temp.step]
    split
    · exact h
    · exact h.drop id
  | expire id => exact h.drop id
  | send i => exact h.send i
  | clean ch => exact h.clean ch
  | leave => exact absurd hr (by simp [Rooted])
  | join =>
    simp only [Temp.step, h.opened, if_true]
    exact h
  | restart => exact absurd hr (by simp [Rooted])

theorem K.run {c : Conf} (ops : List Op) : ∀ {u : List Str} {s : St}, K c s → Fresh u ops →
    (∀ op, op ∈ ops → Rooted op) → K c (run c s ops).1 := by
  induction ops with
  | nil => intro u s h _ _; exact h
  | cons op ops ih =>
    intro u s h hf hr
    obtain ⟨hf1, hf2⟩ := fresh_cons hf
    exact ih (h.step u op hf1 (hr op List.mem_cons_self)) hf2 fun o ho => hr o (List.mem_cons_of_mem _ ho)

theorem K.start {c : Conf} {files : Path → Option Bytes} (hn : NoTemps c files) : K c (St.start files) where
  chan := ⟨[], rfl⟩
  opened := rfl
  notes n hn' := absurd hn' (by simp [St.start])
  info id ti h := absurd h (by simp [St.start])
  temps mp x hx hne := absurd (hn mp x hx) hne

/-- **C80** On a server that stores everything below the root directory and neither leaves the cluster nor
restarts, once all notifications are handled the only temporary files are those of open uploads. -/
theorem C80_cleanup_partial {c : Conf} (hB : 0 < c.B) (hp : pageSize ∣ c.B) (hl : c.lost < pageSize)
    (files : Path → Option Bytes) (hn : NoTemps c files) (ops : List Op) (hf : Fresh [] ops)
    (hr : ∀ op, op ∈ ops → Rooted op) (hq : Quiet (run c (St.start files) ops).1)
    (mp : Path) (x : Str) (hx : hasPrefix x tempPrefix = true)
    (hfile : (run c (St.start files) ops).1.files (c.at mp x) ≠ none) :
    (specRun c.comp (Sp.start c files) ops).1.ups x ≠ none := by
  obtain ⟨h1, _⟩ := (R.start hn).run hB hp hl ops hf
  have hk := (K.start hn).run ops hf hr
  intro hu
  obtain ⟨_, h2⟩ := hk.temps mp x hx hfile
  rcases h2 with h2 | ⟨e, he, _⟩
  · exact h2 ((h1.none_iff x).1 hu)
  · rcases he with ⟨r, hr'⟩ | ⟨q, hq', he⟩
    · rw [hq.1] at hr'; exact absurd hr' (by simp)
    · rw [hq.2 q hq'] at he; exact absurd he (by simp)

/-- Steps of the goroutines alone. -/
def Background : Op → Prop
  | .send _ => True
  | .clean _ => True
  | _ => False

theorem run_append (c : Conf) (s : St) (a b : List Op) : (run c s (a ++ b)).1 = (run c (run c s a).1 b).1 := by
  induction a generalizing s with
  | nil => rfl
  | cons op a ih => exact ih _

theorem drain_queue (c : Conf) (q : List Info) : ∀ s : St, s.chans = [⟨true, q⟩] →
    ∃ ops, (∀ op, op ∈ ops → Background op) ∧ (run c s ops).1.chans = [⟨true, []⟩] ∧
      (run c s ops).1.notes = s.notes := by
  induction q with
  | nil => intro s h; exact ⟨[], by simp, h, rfl⟩
  | cons e q ih =>
    intro s h
    have hc : (step c s (.clean 0)).1.chans = [⟨true, q⟩] ∧ (step c s (.clean 0)).1.notes = s.notes := by
      simp [Temp.step, Temp.clean, h]
    obtain ⟨ops, h1, h2, h3⟩ := ih _ hc.1
    refine ⟨.clean 0 :: ops, ?_, h2, h3.trans hc.2⟩
    intro op hop
    rcases List.mem_cons.1 hop with rfl | hop
    · trivial
    · exact h1 op hop

/-- **C80** There, the notifications can always be handled by running the goroutines. -/
theorem C80_drains {c : Conf} (files : Path → Option Bytes) (hn : NoTemps c files) (ops : List Op)
    (hf : Fresh [] ops) (hr : ∀ op, op ∈ ops → Rooted op) :
    ∃ more, (∀ op, op ∈ more → Background op) ∧ Quiet (run c (St.start files) (ops ++ more)).1 := by
  have hk := (K.start hn).run ops hf hr
  have main : ∀ (n : Nat) (s : St), K c s → s.notes.length = n →
      ∃ more, (∀ op, op ∈ more → Background op) ∧ Quiet (run c s more).1 := by
    intro n
    induction n with
    | zero =>
      intro s h hlen
      obtain ⟨q, hq⟩ := h.chan
      obtain ⟨m, h1, h2, h3⟩ := drain_queue c q s hq
      refine ⟨m, h1, by rw [h3]; exact List.length_eq_zero_iff.1 hlen, fun x hx => ?_⟩
      rw [h2, List.mem_singleton] at hx
      rw [hx]
    | succ n ih =>
      intro s h hlen
      obtain ⟨q, hq⟩ := h.chan
      obtain ⟨m, h1, h2, h3⟩ := drain_queue c q s hq
      have hk1 : ∀ l : List Op, (∀ op, op ∈ l → Background op) → ∀ s : St, K c s → K c (run c s l).1 := by
        intro l hl s hs
        induction l generalizing s with
        | nil => exact hs
        | cons op l ih2 =>
          have := hl op List.mem_cons_self
          refine ih2 (fun o ho => hl o (List.mem_cons_of_mem _ ho)) _ ?_
          cases op with
          | send i => exact hs.send i
          | clean ch => exact hs.clean ch
          | post | patch | head | get | put | delete | expire | leave | join | restart => exact absurd this (by simp [Background])
      have hks := hk1 m h1 s h
      have hs2 := hks.send 0
      have hlen2 : (send (run c s m).1 0).notes.length = n := by
        cases hnotes : s.notes with
        | nil => rw [hnotes] at hlen; exact absurd hlen (by simp)
        | cons a rest =>
          obtain ⟨e, r⟩ := a
          have hr0 : r = [0] := h.notes (e, r) (by rw [hnotes]; exact List.mem_cons_self)
          subst hr0
          rw [hnotes] at hlen
          simp only [Temp.send, h3, hnotes, h2, List.getElem?_cons_zero, chanCap]
          simpa using hlen
      obtain ⟨m2, h4, h5⟩ := ih _ hs2 hlen2
      refine ⟨m ++ (.send 0 :: m2), fun op hop => ?_, ?_⟩
      · rcases List.mem_append.1 hop with hop | hop
        · exact h1 op hop
        · rcases List.mem_cons.1 hop with rfl | hop
          · trivial
          · exact h4 op hop
      · rw [run_append]; exact h5
  obtain ⟨more, h1, h2⟩ := main _ _ hk rfl
  exact ⟨more, h1, by rw [run_append]; exact h2⟩

/-! ## What stays behind -/

/-- The first channel has no cleaners any more and is full. -/
def Full (s : St) : Prop := ∃ q, s.chans[0]? = some q ∧ q.live = false ∧ chanCap ≤ q.queue.length

/-- No cleaner will ever remove the temporary file of `id` on mount point `mp`: cleaners look below the
root; or nobody knows the file any more; or all notifications wait for a channel without cleaners. -/
def Hopeless (s : St) (mp : Path) (id : Str) : Prop :=
  mp ≠ [] ∨ (∀ e, Pending s e → e.id ≠ id) ∨
    (Full s ∧ (∀ q, q ∈ s.chans → ∀ e, e ∈ q.queue → e.id ≠ id) ∧
      ∀ e r, (e, r) ∈ s.notes → e.id = id → ∃ r', r = 0 :: r')

theorem Hopeless.drop {s : St} {mp : Path} {id : Str} (h : Hopeless s mp id) (x : Str)
    (hx : ∀ ti, s.infos x = some ti → ti.id ≠ id) : Hopeless (drop s x) mp id := by
  rcases h with h | h | ⟨h1, h2, h3⟩
  · exact Or.inl h
  · refine Or.inr (Or.inl fun e he => ?_)
    rcases pending_drop he with he | he
    · exact h e he
    · exact hx e he
  · refine Or.inr (Or.inr ?_)
    unfold Temp.drop
    split
    · exact ⟨h1, h2, h3⟩
    · next ti hti =>
      refine ⟨h1, h2, fun e r he hid => ?_⟩
      rcases List.mem_append.1 he with he | he
      · exact h3 e r he hid
      · simp only [List.mem_singleton, Prod.mk.injEq] at he
        exact absurd hid (he.1 ▸ hx ti hti)

theorem full_set {s : St} (h : Full s) {ch : Nat} (hc : ch ≠ 0) (q : Chan) : 
    ∃ q', (s.chans.set ch q)[0]? = some q' ∧ q'.live = false ∧ chanCap ≤ q'.queue.length := by
  obtain ⟨q', h1, h2⟩ := h
  exact ⟨q', by rw [List.getElem?_set_ne hc]; exact h1, h2⟩

theorem Hopeless.send {s : St} {mp : Path} {id : Str} (h : Hopeless s mp id) (i : Nat) :
    Hopeless (send s i) mp id := by
  rcases h with h | h | ⟨h1, h2, h3⟩
  · exact Or.inl h
  · exact Or.inr (Or.inl fun e he => h e (pending_send he))
  · refine Or.inr (Or.inr ?_)
    unfold Temp.send
    split
    · exact ⟨h1, h2, h3⟩
    · exact ⟨h1, h2, fun e r he hid => h3 e r (List.mem_of_mem_eraseIdx he) hid⟩
    · next e ch rest hi =>
      split
      · exact ⟨h1, h2, h3⟩
      · next q hq =>
        split
        · next hlt =>
          have hc : ch ≠ 0 := by
            rintro rfl
            obtain ⟨q', h4, _, h5⟩ := h1
            rw [hq] at h4
            simp only [Option.some.injEq] at h4
            subst h4
            omega
          have hne : e.id ≠ id := by
            intro hid
            obtain ⟨r', hr'⟩ := h3 e _ (List.mem_of_getElem? hi) hid
            simp only [List.cons.injEq] at hr'
            exact hc hr'.1
          refine ⟨full_set h1 hc _, fun q' hq' e' he' => ?_, fun e' r he' hid => ?_⟩
          · rcases List.mem_or_eq_of_mem_set hq' with hq' | hq'
            · exact h2 q' hq' e' he'
            · subst hq'
              rcases List.mem_append.1 he' with he' | he'
              · exact h2 q (List.mem_of_getElem? hq) e' he'
              · rw [List.mem_singleton.1 he']; exact hne
          · simp only at he'
            split at he'
            · exact h3 e' r (List.mem_of_mem_eraseIdx he') hid
            · rcases List.mem_or_eq_of_mem_set he' with he' | he'
              · exact h3 e' r he' hid
              · simp only [Prod.mk.injEq] at he'
                exact absurd hid (he'.1 ▸ hne)
        · exact ⟨h1, h2, h3⟩

theorem Hopeless.clean {c : Conf} {s : St} {mp : Path} {id : Str} (h : Hopeless s mp id) (ch : Nat) :
    Hopeless (clean c s ch) mp id ∧ (clean c s ch).files (c.at mp id) = s.files (c.at mp id) := by
  rcases clean_cases c s ch with he | ⟨q, e, rest, hq, hlive, hqe, he⟩
  · rw [he]; exact ⟨h, rfl⟩
  · rw [he]
    have hmem := List.mem_of_getElem? hq
    have hee : e ∈ q.queue := by rw [hqe]; exact List.mem_cons_self
    refine ⟨?_, ?_⟩
    · rcases h with h | h | ⟨h1, h2, h3⟩
      · exact Or.inl h
      · refine Or.inr (Or.inl fun e' he' => h e' ?_)
        rcases he' with he' | ⟨q', hq', he'⟩
        · exact Or.inl he'
        · rcases List.mem_or_eq_of_mem_set hq' with hq' | hq'
          · exact Or.inr ⟨q', hq', he'⟩
          · subst hq'
            exact Or.inr ⟨q, hmem, by rw [hqe]; exact List.mem_cons_of_mem _ he'⟩
      · refine Or.inr (Or.inr ⟨?_, fun q' hq' e' he' => ?_, h3⟩)
        · refine full_set h1 ?_ _
          rintro rfl
          obtain ⟨q', h4, h5, _⟩ := h1
          rw [hq] at h4
          simp only [Option.some.injEq] at h4
          subst h4
          rw [hlive] at h5
          exact absurd h5 (by simp)
        · rcases List.mem_or_eq_of_mem_set hq' with hq' | hq'
          · exact h2 q' hq' e' he'
          · subst hq'
            exact h2 q hmem e' (by rw [hqe]; exact List.mem_cons_of_mem _ he')
    · refine updF_other _ _ ?_
      rw [ne_eq, at_inj]
      rintro ⟨hm, hid⟩
      rcases h with h | h | ⟨_, h2, _⟩
      · exact h hm
      · exact h e (Or.inr ⟨q, hmem, hee⟩) hid.symm
      · exact h2 q hmem e hee hid.symm

theorem commit_other {c : Conf} {files fs : Path → Option Bytes} {mount : Path} {tmp name : Str}
    {compress : Bool} (h : commit c files mount tmp name compress = some fs) {mp : Path} {id : Str}
    (h1 : id ≠ tmp) (h2 : id ≠ name) : fs (c.at mp id) = files (c.at mp id) := by
  unfold commit at h
  split at h
  · simp only [Option.some.injEq] at h; rw [h]
  · split at h
    · exact absurd h (by simp)
    · split at h
      · simp only [Option.some.injEq] at h
        rw [← h, updF_other _ _ (by rw [ne_eq, at_inj]; exact fun hh => h2 hh.2)]
      · simp only [Option.some.injEq] at h
        rw [← h, updF_other _ _ (by rw [ne_eq, at_inj]; exact fun hh => h2 hh.2),
          updF_other _ _ (by rw [ne_eq, at_inj]; exact fun hh => h1 hh.2)]

/-- One step leaves a hopeless file alone. -/
theorem hopeless_step {c : Conf} {u : List Str} {m : Sp} {s : St} (h : R c u m s) (op : Op)
    (hf : FreshOp u op) {mp : Path} {id : Str} (hid : id ∈ u) (hi : s.infos id = none)
    (hh : Hopeless s mp id) :
    (step c s op).1.files (c.at mp id) = s.files (c.at mp id) ∧ (step c s op).1.infos id = none ∧
      Hopeless (step c s op).1 mp id := by
  have hpre := h.used _ hid
  have hne : ∀ x ti, s.infos x = some ti → ti.id ≠ id := by
    intro x ti hx he
    rw [(h.info _ _ hx).1] at he
    rw [he, hi] at hx
    exact absurd hx (by simp)
  have hdrop : ∀ x, (drop s x).files (c.at mp id) = s.files (c.at mp id) ∧ (drop s x).infos id = none ∧
      Hopeless (drop s x) mp id := by
    intro x
    refine ⟨by rw [drop_files], ?_, hh.drop x (hne x)⟩
    rw [drop_infos]
    unfold upd
    split
    · rfl
    · exact hi
  cases op with
  | post x name size mount stored =>
    simp only [Temp.step]
    split
    · exact ⟨rfl, hi, hh⟩
    · split
      · refine ⟨rfl, ?_, hh⟩
        simp only
        rw [upd_other _ _ (by rintro rfl; exact hf.1 hid)]
        exact hi
      · exact ⟨rfl, hi, hh⟩
  | patch x body =>
    simp only [Temp.step]
    split
    · exact ⟨rfl, hi, hh⟩
    · next ti hx =>
      split
      · exact ⟨rfl, hi, hh⟩
      · refine ⟨?_, hi, hh⟩
        simp only
        exact updF_other _ _ (by rw [ne_eq, at_inj]; exact fun he => hne x ti hx he.2.symm)
  | head x => simp only [Temp.step]; repeat' split
              all_goals exact ⟨rfl, hi, hh⟩
  | get x n => simp only [Temp.step]; repeat' split
               all_goals exact ⟨rfl, hi, hh⟩
  | put x compress =>
    simp only [Temp.step]
    split
    · exact ⟨rfl, hi, hh⟩
    · next ti hx =>
      split
      · exact ⟨rfl, hi, hh⟩
      · next fs hfs =>
        have hxid : id ≠ x := by rintro rfl; rw [hi] at hx; exact absurd hx (by simp)
        refine ⟨?_, ?_, ?_⟩
        · rw [drop_files]
          exact commit_other hfs hxid (ne_of_prefix hpre (h.info _ _ hx).2.2)
        · rw [drop_infos, upd_other _ _ hxid]; exact hi
        · exact Hopeless.drop (s := { s with files := fs }) hh x (hne x)
  | delete x =>
    simp only [Temp.step]
    split
    · exact ⟨rfl, hi, hh⟩
    · exact hdrop x
  | expire x => exact hdrop x
  | send i => exact ⟨by simp only [Temp.step, send_files], by simp only [Temp.step, send_infos]; exact hi, hh.send i⟩
  | clean ch =>
    refine ⟨(hh.clean ch).2, ?_, (hh.clean ch).1⟩
    simp only [Temp.step]
    rcases clean_cases c s ch with he | ⟨q, e, rest, _, _, _, he⟩
    · rw [he]; exact hi
    · rw [he]; exact hi
  | leave =>
    simp only [Temp.step]
    split
    · refine ⟨rfl, hi, ?_⟩
      rcases hh with h0 | h0 | ⟨h1, h2, h3⟩
      · exact Or.inl h0
      · refine Or.inr (Or.inl fun e he => h0 e ?_)
        rcases he with he | ⟨q, hq, he⟩
        · exact Or.inl he
        · obtain ⟨q', hq', rfl⟩ := List.mem_map.1 hq
          exact Or.inr ⟨q', hq', he⟩
      · refine Or.inr (Or.inr ⟨?_, fun q hq e he => ?_, h3⟩)
        · obtain ⟨q, h4, h5, h6⟩ := h1
          exact ⟨{ q with live := false }, by simp [h4], rfl, h6⟩
        · obtain ⟨q', hq', rfl⟩ := List.mem_map.1 hq
          exact h2 q' hq' e he
    · exact ⟨rfl, hi, hh⟩
  | join =>
    simp only [Temp.step]
    split
    · exact ⟨rfl, hi, hh⟩
    · refine ⟨rfl, hi, ?_⟩
      rcases hh with h0 | h0 | ⟨h1, h2, h3⟩
      · exact Or.inl h0
      · refine Or.inr (Or.inl fun e he => h0 e ?_)
        rcases he with he | ⟨q, hq, he⟩
        · exact Or.inl he
        · rcases List.mem_append.1 hq with hq | hq
          · exact Or.inr ⟨q, hq, he⟩
          · rw [List.mem_singleton.1 hq] at he
            exact absurd he (by simp)
      · refine Or.inr (Or.inr ⟨?_, fun q hq e he => ?_, h3⟩)
        · obtain ⟨q, h4, h5⟩ := h1
          refine ⟨q, ?_, h5⟩
          have := (List.getElem?_eq_some_iff.1 h4).1
          rw [List.getElem?_append_left this]; exact h4
        · rcases List.mem_append.1 hq with hq | hq
          · exact h2 q hq e he
          · rw [List.mem_singleton.1 hq] at he
            exact absurd he (by simp)
  | restart =>
    refine ⟨rfl, rfl, Or.inr (Or.inl fun e he => ?_)⟩
    rcases he with ⟨r, hr⟩ | ⟨q, hq, he⟩
    · exact absurd hr (by simp [Temp.step, St.start])
    · simp only [Temp.step, St.start, List.mem_singleton] at hq
      rw [hq] at he
      exact absurd he (by simp)

theorem hopeless_run {c : Conf} (hB : 0 < c.B) (hp : pageSize ∣ c.B) (hl : c.lost < pageSize) (ops : List Op) :
    ∀ {u : List Str} {m : Sp} {s : St} {mp : Path} {id : Str}, R c u m s → Fresh u ops → id ∈ u →
      s.infos id = none → Hopeless s mp id → (run c s ops).1.files (c.at mp id) = s.files (c.at mp id) := by
  induction ops with
  | nil => intro u m s mp id _ _ _ _ _; rfl
  | cons op ops ih =>
    intro u m s mp id h hf hid hi hh
    obtain ⟨hf1, hf2⟩ := fresh_cons hf
    obtain ⟨h1, h2, h3⟩ := hopeless_step h op hf1 hid hi hh
    have hid' : id ∈ usedAfter u op := by
      cases op <;> first | exact hid | exact List.mem_cons_of_mem _ hid
    rw [← h1]
    exact ih (h.step hB hp hl op hf1).1 hf2 hid' h2 h3

theorem fresh_append {a b : List Op} : ∀ {u : List Str}, Fresh u (a ++ b) → Fresh u a ∧ Fresh (usedAll u a) b := by
  induction a with
  | nil => intro u h; exact ⟨trivial, h⟩
  | cons op a ih =>
    intro u h
    obtain ⟨h1, h2⟩ := fresh_cons h
    obtain ⟨h3, h4⟩ := ih h2
    refine ⟨?_, h4⟩
    cases op <;> simp_all [Fresh, FreshOp, usedAfter]

/-- An identifier that was given out. -/
def Posted (id : Str) (ops : List Op) : Prop := ∃ name size mount stored, Op.post id name size mount stored ∈ ops

theorem posted_used {id : Str} (ops : List Op) : ∀ {u : List Str}, (id ∈ u ∨ Posted id ops) → id ∈ usedAll u ops := by
  induction ops with
  | nil =>
    rintro u (h | ⟨_, _, _, _, h⟩)
    · exact h
    · exact absurd h (by simp)
  | cons op ops ih =>
    rintro u h
    apply ih
    rcases h with h | ⟨n, sz, mo, st, h⟩
    · left; cases op <;> first | exact h | exact List.mem_cons_of_mem _ h
    · rcases List.mem_cons.1 h with h | h
      · left; rw [← h]; exact List.mem_cons_self
      · exact Or.inr ⟨n, sz, mo, st, h⟩

/-- **C80, refuted part** The temporary file of an upload that ended stays for ever, whatever happens
later, if it lies on a mount point other than the root, or if the server was restarted since, or if the
notifications wait for cleaners that were stopped when the server left the cluster. -/
theorem C80_stays {c : Conf} (hB : 0 < c.B) (hp : pageSize ∣ c.B) (hl : c.lost < pageSize)
    (files : Path → Option Bytes) (hn : NoTemps c files) (pre later : List Op) (hf : Fresh [] (pre ++ later))
    {mp : Path} {id : Str} (hid : Posted id pre)
    (hend : (specRun c.comp (Sp.start c files) pre).1.ups id = none)
    (hh : Hopeless (run c (St.start files) pre).1 mp id) :
    (run c (St.start files) (pre ++ later)).1.files (c.at mp id) =
      (run c (St.start files) pre).1.files (c.at mp id) := by
  obtain ⟨hf1, hf2⟩ := fresh_append hf
  obtain ⟨h1, _⟩ := (R.start hn).run hB hp hl pre hf1
  rw [run_append]
  exact hopeless_run hB hp hl later h1 hf2 (posted_used pre (Or.inr hid)) ((h1.none_iff id).1 hend) hh

/-- A restart makes every temporary file hopeless. -/
theorem C80_restart (c : Conf) (s : St) (mp : Path) (id : Str) :
    Hopeless (step c s .restart).1 mp id ∧ (step c s .restart).1.infos id = none ∧
      (step c s .restart).1.files = s.files := by
  refine ⟨Or.inr (Or.inl fun e he => ?_), rfl, rfl⟩
  rcases he with ⟨r, hr⟩ | ⟨q, hq, he⟩
  · exact absurd hr (by simp [Temp.step, St.start])
  · simp only [Temp.step, St.start, List.mem_singleton] at hq
    rw [hq] at he
    exact absurd he (by simp)

/-- A commit with compression, or of an object that is there already, leaves the temporary file. -/
theorem C80_commit_leaves {c : Conf} {s : St} {id : Str} {ti : Info} (hi : s.infos id = some ti) {b : Bytes}
    (hb : s.files (c.at ti.mount id) = some b) (hne : ti.name ≠ id) (compress : Bool)
    (hc : compress = true ∨ s.files (c.at ti.mount ti.name) ≠ none) :
    (step c s (.put id compress)).2 = some (.status 200) ∧
      (step c s (.put id compress)).1.infos id = none ∧
      (step c s (.put id compress)).1.files (c.at ti.mount id) = some b := by
  simp only [Temp.step, hi]
  cases ho : s.files (c.at ti.mount ti.name) with
  | some o =>
    simp only [commit, ho]
    exact ⟨trivial, by rw [drop_infos, upd_same], by rw [drop_files]; exact hb⟩
  | none =>
    have hct : compress = true := hc.resolve_right (fun h => h ho)
    simp only [commit, ho, hb, hct, if_true]
    refine ⟨trivial, by rw [drop_infos, upd_same], ?_⟩
    rw [drop_files]
    simp only
    rw [updF_other _ _ (by rw [ne_eq, at_inj]; exact fun h => hne h.2.symm)]
    exact hb

/-- A plain commit of a new object moves the temporary file. -/
theorem C80_commit_moves {c : Conf} {s : St} {id : Str} {ti : Info} (hi : s.infos id = some ti) {b : Bytes}
    (hb : s.files (c.at ti.mount id) = some b) (hne : ti.name ≠ id)
    (ho : s.files (c.at ti.mount ti.name) = none) :
    (step c s (.put id false)).2 = some (.status 200) ∧
      (step c s (.put id false)).1.files (c.at ti.mount id) = none ∧
      (step c s (.put id false)).1.files (c.at ti.mount ti.name) = some b := by
  simp only [Temp.step, hi, commit, ho, hb, Bool.false_eq_true, if_false]
  refine ⟨trivial, ?_, ?_⟩
  · rw [drop_files]
    simp only
    rw [updF_other _ _ (by rw [ne_eq, at_inj]; exact fun h => hne h.2.symm), updF_same]
  · rw [drop_files]
    simp only
    rw [updF_same]

/-! ## Cases -/

def exId : Str := "TempInfo_1".toList
def exConf : Conf := ⟨["objects".toList], 4096, 0, id⟩
def disk : Path := ["mnt".toList]
def noFiles : Path → Option Bytes := fun _ => none

/-- The full property: once an upload has ended and all notifications are handled, its file is gone. -/
def CleansUp (mounts : Path → Prop) (allowed : Op → Prop) : Prop :=
  ∀ (c : Conf), 0 < c.B → pageSize ∣ c.B → c.lost < pageSize → ∀ (files : Path → Option Bytes), NoTemps c files →
    ∀ (ops : List Op), Fresh [] ops → (∀ op, op ∈ ops → allowed op) →
      (∀ id name size mp stored, Op.post id name size mp stored ∈ ops → mounts mp) →
      Quiet (run c (St.start files) ops).1 → ∀ mp x, hasPrefix x tempPrefix = true →
        (specRun c.comp (Sp.start c files) ops).1.ups x = none →
        (run c (St.start files) ops).1.files (c.at mp x) = none

/-- Neither leaving nor restarting. -/
def Calm : Op → Prop
  | .leave => False
  | .restart => False
  | _ => True

/-- **C80** With the root as only mount point, without leaving and restarting, the property holds. -/
theorem C80_root_cleans : CleansUp (· = []) Calm := by
  intro c hB hp hl files hn ops hf ha hm hq mp x hx hu
  cases hfile : (run c (St.start files) ops).1.files (c.at mp x) with
  | none => rfl
  | some b =>
    refine absurd hu (C80_cleanup_partial hB hp hl files hn ops hf (fun op hop => ?_) hq mp x hx (by rw [hfile]; simp))
    cases op with
    | post id name size mount stored => exact hm id name size mount stored hop
    | leave => exact ha _ hop
    | restart => exact ha _ hop
    | patch | head | get | put | delete | expire | send | clean | join => trivial

def exOps (mp : Path) : List Op := [.post exId "h.0".toList 1 mp true, .patch exId [7], .delete exId, .send 0, .clean 0]

theorem noTemps_noFiles : NoTemps exConf noFiles := fun _ _ _ => rfl

/-- **C80, refuted** An upload to any other mount point leaves its file behind. -/
theorem C80_statement_fails : ¬ CleansUp (fun _ => True) Calm := by
  intro h
  have := h exConf (by decide) (by decide) (by decide) noFiles noTemps_noFiles (exOps disk)
    (by refine ⟨by simp, by decide, by decide, trivial⟩) (by simp [exOps, Calm])
    (fun _ _ _ _ _ _ => trivial) ⟨rfl, fun q hq => by
      have hc : (run exConf (St.start noFiles) (exOps disk)).1.chans = [⟨true, []⟩] := rfl
      rw [hc, List.mem_singleton] at hq
      rw [hq]⟩ disk exId (by decide) rfl
  have h2 : ((run exConf (St.start noFiles) (exOps disk)).1.files (exConf.at disk exId)).isSome = true := rfl
  rw [this] at h2
  exact absurd h2 (by simp)

/-- **C80, refuted** So does an upload that was open when the server was restarted, on the root as well. -/
theorem C80_restart_fails : ¬ CleansUp (· = []) (fun op => op ≠ .leave) := by
  intro h
  have := h exConf (by decide) (by decide) (by decide) noFiles noTemps_noFiles
    [.post exId "h.0".toList 1 [] true, .patch exId [7], .restart]
    (by refine ⟨by simp, by decide, by decide, trivial⟩) (by simp)
    (fun _ _ _ mp _ hm => by simp at hm; exact hm.2.2.2.1) ⟨rfl, fun q hq => by
      have hc : (run exConf (St.start noFiles)
        [.post exId "h.0".toList 1 [] true, .patch exId [7], .restart]).1.chans = [⟨true, []⟩] := rfl
      rw [hc, List.mem_singleton] at hq
      rw [hq]⟩ [] exId (by decide) rfl
  have h2 : ((run exConf (St.start noFiles)
    [.post exId "h.0".toList 1 [] true, .patch exId [7], .restart]).1.files (exConf.at [] exId)).isSome = true := rfl
  rw [this] at h2
  exact absurd h2 (by simp)

/-- Five uploads that end while the server has left the cluster fill the channel of the stopped cleaners. -/
def exFill : List Op :=
  .leave :: (["TempInfo_a", "TempInfo_b", "TempInfo_c", "TempInfo_d", "TempInfo_e"].map fun i =>
    [Op.post i.toList "h.1".toList 1 [] true, .delete i.toList, .send 0]).flatten ++
    [.join, .post exId "h.0".toList 1 [] true, .patch exId [7], .delete exId]

/-- **C80, refuted** After that no file is removed any more, not even on the root and although the server
has joined again. -/
theorem C80_leave_fails (later : List Op) (hf : Fresh [] (exFill ++ later)) :
    ((run exConf (St.start noFiles) (exFill ++ later)).1.files (exConf.at [] exId)).isSome = true := by
  rw [C80_stays (by decide) (by decide) (by decide) noFiles noTemps_noFiles exFill later hf
    ⟨"h.0".toList, 1, [], true, by simp [exFill]⟩ rfl ?_]
  · rfl
  · refine Or.inr (Or.inr ⟨⟨_, rfl, rfl, by decide⟩, fun q hq e he => ?_, fun e r he hid => ?_⟩)
    · have hc : ∀ q, q ∈ (run exConf (St.start noFiles) exFill).1.chans → ∀ e, e ∈ q.queue → e.id ≠ exId := by
        decide
      exact hc q hq e he
    · have hc : (run exConf (St.start noFiles) exFill).1.notes = [(⟨"h.0".toList, exId, 1, []⟩, [0, 1])] := rfl
      rw [hc, List.mem_singleton, Prod.mk.injEq] at he
      exact ⟨[1], he.2⟩

example : Fresh [] exFill := by
  simp only [exFill, List.map, List.flatten, List.append, List.cons_append, List.nil_append, Fresh]
  decide

/-- The hypotheses of `C80_answers_partial` and `C80_read`: two uploads side by side. -/
def exTwo : List Op := [.post exId "h.0".toList 2 disk true, .post "TempInfo_2".toList "h.1".toList 1 disk true,
  .patch exId [7, 8], .patch "TempInfo_2".toList [9], .put "TempInfo_2".toList false, .send 0, .clean 0]

example : Fresh [] exTwo ∧
    (specRun exConf.comp (Sp.start exConf noFiles) exTwo).1.ups exId =
      some (⟨"h.0".toList, exId, 2, disk⟩, [[7, 8]]) ∧ AlignedPieces ([[7, 8]] : List Bytes) := by
  refine ⟨?_, rfl, trivial⟩
  simp only [exTwo, Fresh]
  decide

/-- The hypotheses of `C80_cleanup_partial` and `C80_drains`. -/
example : Fresh [] (exOps []) ∧ (∀ op, op ∈ exOps [] → Rooted op) := by
  refine ⟨?_, by simp [exOps, Rooted]⟩
  simp only [exOps, Fresh]
  decide

/-- The hypotheses of `C80_commit_leaves` and `C80_commit_moves`. -/
example : ((run exConf (St.start noFiles) (exTwo.take 4)).1.infos exId).isSome = true ∧
    ((run exConf (St.start noFiles) (exTwo.take 4)).1.files (exConf.at disk exId)).isSome = true ∧
    (run exConf (St.start noFiles) (exTwo.take 4)).1.files (exConf.at disk "h.0".toList) = none :=
  ⟨rfl, rfl, rfl⟩

end Verif.Temp
