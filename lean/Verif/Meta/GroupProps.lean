import Verif.Meta.Groups
import Verif.HashSlot.Props

/-!
# The slots of a group survive leader changes, restarts and joins (C78)
-/

namespace Verif.Meta.Groups

open Verif

/-! ## Specification -/

/-- The slots that were assigned to every store id: first what the configuration of the first leader
says, then what finished migrations say.  Nothing else assigns slots. -/
def assign (st : St) (a : KMap (List Str)) : Ev → KMap (List Str)
  | .publish s slots true => match st.servers.get s with
    | some srv => if srv.up ∧ (st.etcd.get srv.storeId).isSome then a.put srv.storeId slots else a
    | none => a
  | .lead s true => match st.servers.get s with
    | some srv => if srv.up ∧ srv.enabled ∧ a.get srv.storeId = none then a.put srv.storeId srv.slots else a
    | none => a
  | .start s true => match st.servers.get s with
    | some srv => if ¬ srv.up ∧ ¬ srv.enabled ∧ a.get s = none then a.put s srv.slots else a
    | none => a
  | _ => a

/-- A history together with the assigned slots. -/
def trace : St × KMap (List Str) → List Ev → St × KMap (List Str)
  | x, [] => x
  | (st, a), e :: evs => trace (step st e, assign st a e) evs

/-- All entries of etcd say what was assigned. -/
def Agree (etcd : KMap SlotInfo) (a : KMap (List Str)) : Prop :=
  ∀ g i, etcd.get g = some i → a.get g = some i.slots

/-- At first nothing is recorded, and the ids of groups are not ids of servers that work alone. -/
structure Init (st : St) (isGroup : Str → Prop) : Prop where
  empty : st.etcd = .empty
  group : ∀ s srv, st.servers.get s = some srv → srv.up = false ∧
    if srv.enabled then isGroup srv.groupId else ¬ isGroup s

/-- The event joins groups only. -/
def Ev.Joins (isGroup : Str → Prop) : Ev → Prop
  | .join _ g _ => isGroup g
  | _ => True

/-- Full statement: whatever happens, the recorded slots are the assigned ones. -/
def C78_statement : Prop :=
  ∀ (st : St) (isGroup : Str → Prop) (evs : List Ev), Init st isGroup → (∀ e ∈ evs, e.Joins isGroup) →
    Agree (trace (st, .empty) evs).1.etcd (trace (st, .empty) evs).2

/-- The event is not the orderly shutdown of the leader of a group nor its joining another group. -/
def CalmEv (st : St) : Ev → Prop
  | .stop s => ∀ srv, st.servers.get s = some srv → ¬ (srv.enabled ∧ srv.leader)
  | .join s _ _ => ∀ srv, st.servers.get s = some srv → ¬ (srv.enabled ∧ srv.leader)
  | _ => True

/-- No leader of a group shuts down orderly or joins another group in this history. -/
def Calm : St → List Ev → Prop
  | _, [] => True
  | st, e :: evs => CalmEv st e ∧ Calm (step st e) evs

/-! ## Proof -/

theorem trace_fst (evs : List Ev) (st : St) (a : KMap (List Str)) : (trace (st, a) evs).1 = run st evs := by
  induction evs generalizing st a with
  | nil => rfl
  | cons e evs ih => exact ih _ _

/-- Facts about servers. -/
def Good (isGroup : Str → Prop) (s : Str) (srv : Server) : Prop :=
  (srv.enabled → isGroup srv.groupId ∧ (srv.up → isGroup srv.storeId)) ∧
  (¬ srv.enabled → ¬ isGroup s ∧ (srv.up → srv.storeId = s))

structure Inv (isGroup : Str → Prop) (st : St) (a : KMap (List Str)) : Prop where
  agree : Agree st.etcd a
  good : ∀ s srv, st.servers.get s = some srv → Good isGroup s srv
  group : ∀ g, isGroup g → st.etcd.get g = none → a.get g = none
  alone : ∀ s srv, st.servers.get s = some srv → ¬ srv.enabled → st.etcd.get s = none →
    ∀ x, a.get s = some x → srv.slots = x

theorem inv_init {isGroup : Str → Prop} {st : St} (h : Init st isGroup) : Inv isGroup st .empty := by
  constructor
  · intro g i hg
    rw [h.empty] at hg
    cases hg
  · intro s srv hs
    obtain ⟨h1, h2⟩ := h.group s srv hs
    constructor
    · intro he
      rw [if_pos he] at h2
      exact ⟨h2, fun hu => by rw [h1] at hu; cases hu⟩
    · intro he
      rw [if_neg he] at h2
      exact ⟨h2, fun hu => by rw [h1] at hu; cases hu⟩
  · intro g _ _
    rfl
  · intro s srv _ _ _ x hx
    cases hx

/-- Only the server changes, and not in what the invariant needs. -/
theorem Inv.server {isGroup : Str → Prop} {st : St} {a : KMap (List Str)} (h : Inv isGroup st a) {s : Str}
    {srv srv' : Server} (hs : st.servers.get s = some srv) (he : srv'.enabled = srv.enabled)
    (hg : Good isGroup s srv')
    (hsl : ¬ srv.enabled → st.etcd.get s = none → srv'.slots = srv.slots) :
    Inv isGroup { st with servers := st.servers.put s srv' } a := by
  refine ⟨h.agree, ?_, h.group, ?_⟩
  · intro t tr ht
    simp only [KMap.get_put] at ht
    split at ht
    · next e => cases ht; subst e; exact hg
    · exact h.good t tr ht
  · intro t tr ht hte hn x hx
    simp only [KMap.get_put] at ht
    split at ht
    · next e =>
      cases ht; subst e
      rw [he] at hte
      rw [hsl hte hn]
      exact h.alone t srv hs hte hn x hx
    · exact h.alone t tr ht hte hn x hx

/-- An entry is written, and the assignment says the same. -/
theorem Inv.save {isGroup : Str → Prop} {st : St} {a a' : KMap (List Str)} (h : Inv isGroup st a) {s id : Str}
    {srv srv' : Server} {slots : List Str} (hs : st.servers.get s = some srv) (he : srv'.enabled = srv.enabled)
    (hg : Good isGroup s { srv' with slots := slots })
    (hid : if srv.enabled then isGroup id else id = s)
    (ha : ∀ k, a'.get k = if k = id then some slots else a.get k) :
    Inv isGroup (saveToEtcd st s srv' id slots true) a' := by
  simp only [saveToEtcd, ↓reduceIte]
  refine ⟨?_, ?_, ?_, ?_⟩
  · intro g i hgi
    simp only [KMap.get_put] at hgi
    rw [ha]
    split at hgi
    · next e => cases hgi; rw [if_pos e]
    · next e => rw [if_neg e]; exact h.agree g i hgi
  · intro t tr ht
    simp only [KMap.get_put] at ht
    split at ht
    · next e => cases ht; subst e; exact hg
    · exact h.good t tr ht
  · intro g hgg hn
    simp only [KMap.get_put] at hn
    split at hn
    · cases hn
    · next e => rw [ha, if_neg e]; exact h.group g hgg hn
  · intro t tr ht hte hn x hx
    simp only [KMap.get_put] at ht hn
    split at hn
    · cases hn
    · next e =>
      rw [ha, if_neg e] at hx
      split at ht
      · next e' =>
        cases ht
        subst e'
        simp only at hte
        rw [he] at hte
        rw [if_neg hte] at hid
        exact absurd hid.symm e
      · exact h.alone t tr ht hte hn x hx

theorem get_same {α : Type} {a : KMap α} {id : Str} {x : α} (h : a.get id = some x) (k : Str) :
    a.get k = if k = id then some x else a.get k := by
  split
  · next e => rw [e, h]
  · rfl

theorem Inv.onLeader {isGroup : Str → Prop} {st : St} {a : KMap (List Str)} (h : Inv isGroup st a) {s : Str}
    {srv srv' : Server} (hs : st.servers.get s = some srv) (he : srv'.enabled = srv.enabled)
    (hsl : srv'.slots = srv.slots)
    (hg : Good isGroup s srv') (hu : srv'.up) :
    Inv isGroup (onLeader st s srv' true) (if a.get srv'.storeId = none then a.put srv'.storeId srv'.slots else a) := by
  have hid : if srv.enabled then isGroup srv'.storeId else srv'.storeId = s := by
    by_cases hen : srv.enabled
    · rw [if_pos hen]; exact (hg.1 (by rw [he]; exact hen)).2 hu
    · rw [if_neg hen]; exact (hg.2 (by rw [he]; exact hen)).2 hu
  simp only [Groups.onLeader, ↓reduceIte]
  cases hget : st.etcd.get srv'.storeId with
  | some i =>
    have := h.agree _ _ hget
    rw [if_neg (by rw [this]; simp)]
    exact h.save hs he (by exact hg) hid (get_same this)
  | none =>
    cases hav : a.get srv'.storeId with
    | none =>
      rw [if_pos rfl]
      exact h.save hs he (by exact hg) hid (fun k => KMap.get_put _ _ _ _)
    | some x =>
      rw [if_neg (by simp)]
      by_cases hen : srv.enabled
      · rw [if_pos hen] at hid
        rw [h.group _ hid hget] at hav
        cases hav
      · rw [if_neg hen] at hid
        rw [hid] at hav hget
        have hx := h.alone s srv hs hen hget x hav
        refine h.save hs he (by exact hg) (by rw [if_neg hen]; exact hid) ?_
        rw [hid, hsl, hx]
        exact get_same hav

theorem Inv.step {isGroup : Str → Prop} {st : St} {a : KMap (List Str)} (h : Inv isGroup st a) (e : Ev)
    (hj : e.Joins isGroup) (hc : CalmEv st e) : Inv isGroup (step st e) (assign st a e) := by
  cases e with
  | lead s ok =>
    simp only [Groups.step]
    cases hs : st.servers.get s with
    | none => cases ok <;> simpa [assign, hs] using h
    | some srv =>
      by_cases hu : (srv.up && srv.enabled) = true
      · simp only [Bool.and_eq_true] at hu
        have hg : Good isGroup s { srv with leader := true } := h.good s srv hs
        cases ok with
        | true =>
          simp only [hu, Bool.and_true, ↓reduceIte]
          have := h.onLeader (srv' := { srv with leader := true }) hs rfl rfl hg hu.1
          simpa [assign, hs, hu] using this
        | false =>
          simp only [hu, Bool.and_true, ↓reduceIte, Groups.onLeader, Bool.false_eq_true, assign]
          have := h.server (srv' := { srv with leader := true }) hs rfl hg (fun _ _ => rfl)
          simpa [hu] using this
      · simp only [hu, Bool.false_eq_true, ↓reduceIte]
        cases ok with
        | false => exact h
        | true =>
          simp only [Bool.and_eq_true] at hu
          simp only [assign, hs]
          rw [if_neg (fun hc => hu ⟨hc.1, hc.2.1⟩)]
          exact h
  | unlead s =>
    simp only [Groups.step, assign]
    cases hs : st.servers.get s with
    | none => exact h
    | some srv => exact h.server hs rfl (h.good s srv hs) (fun _ _ => rfl)
  | publish s slots ok =>
    simp only [Groups.step]
    cases hs : st.servers.get s with
    | none => cases ok <;> simpa [assign, hs] using h
    | some srv =>
      by_cases hu : (srv.up && (st.etcd.get srv.storeId).isSome) = true
      · simp only [hu, ↓reduceIte]
        simp only [Bool.and_eq_true] at hu
        have hg : Good isGroup s { srv with slots := slots } := h.good s srv hs
        have hid : if srv.enabled then isGroup srv.storeId else srv.storeId = s := by
          by_cases hen : srv.enabled
          · rw [if_pos hen]; exact (hg.1 hen).2 hu.1
          · rw [if_neg hen]; exact (hg.2 hen).2 hu.1
        cases ok with
        | true =>
          simp only [assign, hs]
          rw [if_pos hu]
          exact h.save hs rfl hg hid (fun k => KMap.get_put _ _ _ _)
        | false =>
          simp only [assign, saveToEtcd, Bool.false_eq_true, ↓reduceIte]
          refine h.server hs rfl hg (fun hen hn => ?_)
          rw [if_neg hen] at hid
          rw [hid, hn] at hu
          exact absurd hu.2 (by simp)
      · simp only [hu, Bool.false_eq_true, ↓reduceIte]
        cases ok with
        | false => exact h
        | true =>
          simp only [Bool.and_eq_true] at hu
          simp only [assign, hs]
          rw [if_neg hu]
          exact h
  | stop s =>
    simp only [Groups.step, assign]
    cases hs : st.servers.get s with
    | none => exact h
    | some srv =>
      by_cases hu : srv.up = true
      · simp only [hu, ↓reduceIte]
        have hnl := hc srv hs
        have hgood := h.good s srv hs
        have hg : ∀ sl, Good isGroup s { srv with up := false, leader := false, slots := sl } := fun sl =>
          ⟨fun he => ⟨(hgood.1 he).1, fun hf => by cases hf⟩, fun he => ⟨(hgood.2 he).1, fun hf => by cases hf⟩⟩
        unfold shutdown
        cases hget : st.etcd.get srv.storeId with
        | none => exact h.server hs rfl (hg srv.slots) (fun _ _ => rfl)
        | some i =>
          by_cases hen : srv.enabled = true
          · have hl : srv.leader = false := by
              cases hl : srv.leader with
              | false => rfl
              | true => exact absurd ⟨hen, hl⟩ hnl
            simp only [hl, hen, Bool.not_true, Bool.or_self, Bool.false_and, Bool.false_eq_true, ↓reduceIte]
            refine h.server hs ?_ ?_ ?_
            · simp [hen]
            · have := hg i.slots
              simpa [hl, hen] using this
            · exact fun hne => absurd hen hne
          · have hsid := (hgood.2 hen).2 hu
            have hen' : srv.enabled = false := by simpa using hen
            simp only [hen', Bool.not_false, Bool.or_true, ↓reduceIte]
            rw [hsid] at hget ⊢
            have hav := h.agree _ _ hget
            refine ⟨?_, ?_, ?_, ?_⟩
            · intro g j hgj
              simp only [KMap.get_del] at hgj
              split at hgj
              · cases hgj
              · exact h.agree g j hgj
            · intro t tr ht
              simp only [KMap.get_put] at ht
              split at ht
              · next e =>
                cases ht; subst e
                have := hg i.slots
                simpa [hen', hsid] using this
              · exact h.good t tr ht
            · intro g hgg hn
              simp only [KMap.get_del] at hn
              split at hn
              · next e =>
                subst e
                exact absurd hgg (hgood.2 hen).1
              · exact h.group g hgg hn
            · intro t tr ht hte hn x hx
              simp only [KMap.get_put] at ht
              simp only [KMap.get_del] at hn
              split at ht
              · next e =>
                cases ht; subst e
                rw [hav] at hx
                cases hx
                rfl
              · next e =>
                rw [if_neg e] at hn
                exact h.alone t tr ht hte hn x hx
      · simp only [hu, Bool.false_eq_true, ↓reduceIte]
        exact h
  | crash s =>
    simp only [Groups.step, assign]
    cases hs : st.servers.get s with
    | none => exact h
    | some srv =>
      have hgood := h.good s srv hs
      exact h.server hs rfl ⟨fun he => ⟨(hgood.1 he).1, fun hf => by cases hf⟩,
        fun he => ⟨(hgood.2 he).1, fun hf => by cases hf⟩⟩ (fun _ _ => rfl)
  | start s ok =>
    simp only [Groups.step]
    cases hs : st.servers.get s with
    | none => cases ok <;> simpa [assign, hs] using h
    | some srv =>
      have hgood := h.good s srv hs
      have hg : Good isGroup s { srv with up := true, leader := false, storeId := storeIdOf s srv } := by
        constructor
        · intro he
          have he : srv.enabled = true := he
          exact ⟨(hgood.1 he).1, fun _ => by simp only [storeIdOf, he, ↓reduceIte]; exact (hgood.1 he).1⟩
        · intro he
          have he : ¬ srv.enabled = true := he
          exact ⟨(hgood.2 he).1, fun _ => by simp [storeIdOf, he]⟩
      by_cases hu : srv.up = true
      · simp only [hu, ↓reduceIte]
        cases ok <;> simpa [assign, hs, hu] using h
      · simp only [hu, Bool.false_eq_true, ↓reduceIte]
        by_cases hen : srv.enabled = true
        · simp only [hen, ↓reduceIte]
          have : assign st a (.start s ok) = a := by cases ok <;> simp [assign, hs, hen]
          rw [this]
          refine h.server hs ?_ (by simpa [hen] using hg) (fun _ _ => rfl)
          simp [hen]
        · simp only [hen, Bool.false_eq_true, ↓reduceIte]
          have hsi : storeIdOf s srv = s := by simp [storeIdOf, hen]
          cases ok with
          | true =>
            have := h.onLeader (srv' := { srv with up := true, leader := false, storeId := storeIdOf s srv }) hs rfl rfl hg rfl
            simp only [assign, hs]
            simp only [hsi] at this
            simpa [hu, hen, hsi] using this
          | false =>
            simp only [Groups.onLeader, Bool.false_eq_true, ↓reduceIte, assign]
            refine h.server hs ?_ (by simpa [hen] using hg) (fun _ _ => rfl)
            simp [hen]
  | join s g ok =>
    simp only [Groups.step, assign]
    cases hs : st.servers.get s with
    | none => exact h
    | some srv =>
      by_cases hu : (srv.up && srv.enabled) = true
      · simp only [hu, ↓reduceIte]
        simp only [Bool.and_eq_true] at hu
        have hl : srv.leader = false := by
          cases hl : srv.leader with
          | false => rfl
          | true => exact absurd ⟨hu.2, hl⟩ (hc srv hs)
        have hg : ∀ sl, Good isGroup s { srv with groupId := g, storeId := g, slots := sl } := fun sl =>
          ⟨fun _ => ⟨hj, fun _ => hj⟩, fun he => absurd hu.2 he⟩
        simp only [updateConfiguration, hl, Bool.false_and, Bool.false_eq_true, ↓reduceIte]
        cases ok with
        | true =>
          refine h.server hs ?_ ?_ (fun hne => absurd hu.2 hne)
          · simp
          · have := hg (getOwn st { srv with groupId := g, storeId := g } g)
            simpa [hl] using this
        | false =>
          refine h.server hs ?_ ?_ (fun hne => absurd hu.2 hne)
          · simp
          · have := hg srv.slots
            simpa [hl] using this
      · simp only [hu, Bool.false_eq_true, ↓reduceIte]
        exact h

/-- **C78** partial: as long as no leader of a raft group shuts down orderly or joins another group, the
recorded slots of every group and of every server working alone are the assigned ones, through leader
changes, crashes, restarts, failed writes and joins of followers.  Missing: the two excluded events
(`C78_stale_slots`, `C78_join_overwrites`). -/
theorem C78_slots_partial (st : St) (isGroup : Str → Prop) (evs : List Ev) (h : Init st isGroup)
    (hj : ∀ e ∈ evs, e.Joins isGroup) (hc : Calm st evs) :
    Agree (trace (st, .empty) evs).1.etcd (trace (st, .empty) evs).2 := by
  have key : ∀ (evs : List Ev) (st : St) (a : KMap (List Str)), Inv isGroup st a → (∀ e ∈ evs, e.Joins isGroup) →
      Calm st evs → Agree (trace (st, a) evs).1.etcd (trace (st, a) evs).2 := by
    intro evs
    induction evs with
    | nil => intro st a hi _ _; exact hi.agree
    | cons e evs ih =>
      intro st a hi hj hc
      exact ih _ _ (hi.step e (hj e (by simp)) hc.1) (fun x hx => hj x (by simp [hx])) hc.2
  exact key evs st .empty (inv_init h) hj hc

/-- **C78** A leader change moves the recorded owner and nothing else: the group keeps its slots, and
every other group its entry. -/
theorem C78_leader_change (st : St) (s : Str) (srv : Server) (i : SlotInfo)
    (hs : st.servers.get s = some srv) (hu : srv.up = true) (he : srv.enabled = true)
    (hg : st.etcd.get srv.storeId = some i) (g : Str) :
    (step st (.lead s true)).etcd.get g =
      if g = srv.storeId then some ⟨srv.storeId, s, i.slots⟩ else st.etcd.get g := by
  simp [step, hs, hu, he, onLeader, hg, saveToEtcd, KMap.get_put]

/-- **C78** An orderly restart of a server that works alone, or that is the next leader of its group
again, records the same slots as before. -/
theorem C78_restart (st : St) (s : Str) (srv : Server) (i : SlotInfo)
    (hs : st.servers.get s = some srv) (hu : srv.up = true) (hid : srv.storeId = storeIdOf s srv)
    (hl : srv.enabled = true → srv.leader = true) (hg : st.etcd.get srv.storeId = some i) (g : Str) :
    (run st [.stop s, .start s true, .lead s true]).etcd.get g =
      if g = srv.storeId then some ⟨srv.storeId, s, i.slots⟩ else st.etcd.get g := by
  cases he : srv.enabled with
  | true =>
    have hid' : srv.storeId = srv.groupId := by simpa [storeIdOf, he] using hid
    rw [hid'] at hg
    simp only [run, List.foldl_cons, List.foldl_nil, step, hs, hu, shutdown, hg, hl he, he, KMap.get_put, KMap.get_del,
      storeIdOf, onLeader, saveToEtcd, hid', ↓reduceIte, Bool.and_self, Bool.true_or, Bool.false_eq_true]
    split <;> rfl
  | false =>
    have hid' : srv.storeId = s := by simpa [storeIdOf, he] using hid
    rw [hid'] at hg
    simp only [run, List.foldl_cons, List.foldl_nil, step, hs, hu, shutdown, hid', hg, he, KMap.get_put, KMap.get_del,
      storeIdOf, onLeader, saveToEtcd, ↓reduceIte, Bool.and_self, Bool.false_eq_true, Bool.not_false,
      Bool.or_true, Bool.and_false, KMap.get_put]
    split <;> rfl

/-! ### What goes wrong -/

def two (leaderSlots followerSlots : List Str) : KMap Server :=
  (KMap.empty.put "a".toList ⟨true, "g".toList, "g".toList, leaderSlots, false, false⟩).put "b".toList
    ⟨true, "g".toList, "g".toList, followerSlots, false, false⟩

/-- Two servers of one group; the follower has joined, then the leader gave half of the slots away. -/
def halfMigrated : List Ev :=
  [.start "a".toList true, .lead "a".toList true, .start "b".toList true, .join "b".toList "g".toList true,
   .publish "a".toList ["0-8192".toList] true]

/-- The histories of the partial theorem exist: here the leader is killed and the follower takes over. -/
example : (run ⟨two ["0-16384".toList] [], .empty⟩ (halfMigrated ++ [.crash "a".toList, .lead "b".toList true])).etcd.get "g".toList
    = some ⟨"g".toList, "b".toList, ["0-8192".toList]⟩ := by decide

theorem two_init (a b : List Str) : Init ⟨two a b, .empty⟩ (· = "g".toList) := by
  refine ⟨rfl, ?_⟩
  intro s srv hs
  simp only [two, KMap.get_put] at hs
  split at hs
  · cases hs; simp
  · split at hs
    · cases hs; simp
    · cases hs

example : Init ⟨two ["0-16384".toList] [], .empty⟩ (· = "g".toList) ∧
    Calm ⟨two ["0-16384".toList] [], .empty⟩ (halfMigrated ++ [.crash "a".toList, .lead "b".toList true]) := by
  refine ⟨two_init _ _, ?_⟩
  simp only [Calm, CalmEv, halfMigrated, List.cons_append, List.nil_append, true_and, and_true]
  intro srv hs
  have : srv = ⟨true, "g".toList, "g".toList, [], true, false⟩ := by
    have e : ((step (step (step ⟨two ["0-16384".toList] [], .empty⟩ (.start "a".toList true)) (.lead "a".toList true))
      (.start "b".toList true)).servers.get "b".toList) = some ⟨true, "g".toList, "g".toList, [], true, false⟩ := by decide
    rw [e] at hs
    cases hs; rfl
  subst this
  simp

/-- **C78** An orderly shutdown of a leader removes the entry, and the next leader records the slots of
its own configuration.  So slots that were given away in a migration are claimed again. -/
theorem C78_stale_slots (st : St) (s t : Str) (ss ts : Server) (i : SlotInfo) (hst : s ≠ t)
    (hs : st.servers.get s = some ss) (ht : st.servers.get t = some ts) (hsu : ss.up = true) (htu : ts.up = true)
    (he : ss.enabled = true ∧ ss.leader = true ∧ ts.enabled = true) (hg : ts.storeId = ss.storeId)
    (hi : st.etcd.get ss.storeId = some i) :
    (run st [.stop s, .lead t true]).etcd.get ss.storeId = some ⟨ss.storeId, t, ts.slots⟩ := by
  simp [run, step, hs, ht, hsu, htu, he.1, he.2.1, he.2.2, shutdown, hi, onLeader, saveToEtcd, hg, KMap.get_put,
    KMap.get_del, hst.symm]

/-- **C78** A server that still leads its own group and joins another one overwrites the entry of that
group with its own slots, and its old group's entry is gone. -/
theorem C78_join_overwrites (st : St) (s g : Str) (srv : Server) (i : SlotInfo)
    (hs : st.servers.get s = some srv) (hu : srv.up = true ∧ srv.enabled = true ∧ srv.leader = true)
    (hi : st.etcd.get srv.storeId = some i) (hne : g ≠ srv.storeId) :
    (step st (.join s g true)).etcd.get g = some ⟨g, s, i.slots⟩ ∧
    (step st (.join s g true)).etcd.get srv.storeId = none := by
  simp [step, hs, hu.1, hu.2.1, hu.2.2, updateConfiguration, saveToEtcd, getOwn, hi, KMap.get_put, KMap.get_del,
    Ne.symm hne]

/-- **C78** The full statement is wrong. -/
theorem C78_statement_fails : ¬ C78_statement := by
  intro h
  have := h ⟨two ["0-16384".toList] ["0-16384".toList], .empty⟩ (· = "g".toList)
    (halfMigrated ++ [.stop "a".toList, .lead "b".toList true]) (two_init _ _)
    (by
      intro e he
      simp only [halfMigrated, List.cons_append, List.nil_append, List.mem_cons, List.not_mem_nil, or_false] at he
      rcases he with rfl | rfl | rfl | rfl | rfl | rfl | rfl <;> simp [Ev.Joins])
    "g".toList ⟨"g".toList, "b".toList, ["0-16384".toList]⟩ (by decide)
  revert this
  decide

theorem byServer_get (l : List (Str × SlotInfo)) (m : KMap (List Str)) (e : Str × SlotInfo) (he : e ∈ l)
    (hu : ∀ x ∈ l, x.2.serverId = e.2.serverId → x = e) :
    (l.foldl (fun (m : KMap (List Str)) e => m.put e.2.serverId e.2.slots) m).get e.2.serverId = some e.2.slots := by
  have keep : ∀ (l : List (Str × SlotInfo)) (m : KMap (List Str)), m.get e.2.serverId = some e.2.slots →
      (∀ x ∈ l, x.2.serverId = e.2.serverId → x = e) →
      (l.foldl (fun (m : KMap (List Str)) e => m.put e.2.serverId e.2.slots) m).get e.2.serverId = some e.2.slots := by
    intro l
    induction l with
    | nil => intro m h _; exact h
    | cons x l ih =>
      intro m h hu
      refine ih _ ?_ (fun y hy => hu y (by simp [hy]))
      rw [KMap.get_put]
      split
      · next e' => rw [hu x (by simp) e'.symm]
      · exact h
  induction l generalizing m with
  | nil => cases he
  | cons x l ih =>
    rw [List.foldl_cons]
    by_cases hx : x = e
    · subst hx
      exact keep l _ (by simp) (fun y hy => hu y (by simp [hy]))
    · have : e ∈ l := by
        rcases List.mem_cons.1 he with h | h
        · exact absurd h.symm hx
        · exact h
      exact ih _ this (fun y hy => hu y (by simp [hy]))

/-- **C78** If the entries of two groups with different leaders claim a common slot, no server gets a
routing table any more. -/
theorem C78_two_owners (S : HashSlot.Sorter) (etcd : KMap SlotInfo) (g g' : Str) (i i' : SlotInfo)
    (h : etcd.get g = some i) (h' : etcd.get g' = some i') (hne : i.serverId ≠ i'.serverId)
    (hu : ∀ x ∈ etcd.entries, ∀ y ∈ etcd.entries, x.2.serverId = y.2.serverId → x = y)
    (s s' : Str) (hs : s ∈ i.slots) (hs' : s' ∈ i'.slots) (a b a' b' x : Int)
    (hf : HashSlot.formatInt s = .ok (a, b)) (hf' : HashSlot.formatInt s' = .ok (a', b'))
    (hx : a ≤ x ∧ x < b) (hx' : a' ≤ x ∧ x < b') : ∃ e, routing S etcd = .error e := by
  cases hr : routing S etcd with
  | error e => exact ⟨e, rfl⟩
  | ok t =>
    exfalso
    have hm := (KMap.mem_iff_get etcd g i).2 h
    have hm' := (KMap.mem_iff_get etcd g' i').2 h'
    have p := byServer_get etcd.entries .empty (g, i) hm (fun y hy hc => hu y hy _ hm hc)
    have p' := byServer_get etcd.entries .empty (g', i') hm' (fun y hy hc => hu y hy _ hm' hc)
    exact hne (HashSlot.C02_single_owner S _ t hr x i.serverId i'.serverId a b a' b'
      ⟨_, (KMap.mem_iff_get _ _ _).2 p, s, hs, hf⟩ hx ⟨_, (KMap.mem_iff_get _ _ _).2 p', s', hs', hf'⟩ hx').1

/-- Then the other half, now owned by the server "c", has two owners, and routing fails on all servers
that reload the table. -/
example : routing HashSlot.insertionSorter ((run ⟨two ["0-16384".toList] ["0-16384".toList],
      KMap.empty.put "c".toList ⟨"c".toList, "c".toList, ["8192-16384".toList]⟩⟩
      (halfMigrated ++ [.stop "a".toList, .lead "b".toList true])).etcd) = .error .overlap := by rfl

end Verif.Meta.Groups
