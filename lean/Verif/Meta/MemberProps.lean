import Verif.Meta.Members

/-!
# The configured nodes are the members of the group (C79)
-/

namespace Verif.Meta.Members

open Verif

/-! ## Specification -/

/-- The nodes in the configuration of a leader are exactly the members of its group. -/
def Agree (w : W) (l : Str) : Prop :=
  ∀ m, w.leads.get l = some m → ∀ n, n ∈ (w.nodes.get l).getD [] ↔ ∃ id addr, m.get id = some addr ∧ n = node id addr

/-- Full statement for adding and removing: a successful command keeps the agreement. -/
def C79_nodes_statement : Prop :=
  ∀ (w : W) (l : Str), Agree w l →
    (∀ voters w', addVoter w l voters = (true, w') → Agree w' l) ∧
    (∀ id w', removeFollower w l id = (true, w') → Agree w' l)

/-- Full statement for joining: after a successful join the server is a member of the group of the new
leader and of no other group. -/
def C79_join_statement : Prop :=
  ∀ (w : W) (s addr master old : Str) (w' : W), joinLeader w s addr master old = (true, w') →
    ∀ l m, w'.leads.get l = some m → ((m.get s).isSome ↔ l = master)

/-! ## Removing -/

theorem hasPrefix_node {id id' addr : Str} (h : ',' ∉ id) (h' : ',' ∉ id') :
    hasPrefix (node id' addr) (id ++ [',']) = true ↔ id = id' := by
  rw [hasPrefix_iff]
  constructor
  · rintro ⟨t, ht⟩
    have e1 : cutOn ',' (node id' addr) = some (id', addr) := cutOn_append h'
    rw [ht, List.append_assoc, List.singleton_append, cutOn_append h] at e1
    simp only [Option.some.injEq, Prod.mk.injEq] at e1
    exact e1.1
  · rintro rfl
    exact ⟨addr, by simp [node]⟩

theorem set_perm {α : Type} (l : List α) (k : Nat) (a : α) (h : k < l.length) : (l.set k a).Perm (a :: l.eraseIdx k) := by
  induction l generalizing k with
  | nil => cases h
  | cons x l ih =>
    cases k with
    | zero => exact List.Perm.refl _
    | succ k =>
      rw [List.set_cons_succ, List.eraseIdx_cons_succ]
      exact ((ih k (by simpa using h)).cons x).trans (List.Perm.swap a x _)

/-- **C79** Removing a server from the nodes removes exactly its node, unless it is the first of the list. -/
theorem C79_remove_node (l : List (Str × Str)) (id : Str) (hid : ',' ∉ id) (hl : ∀ e ∈ l, ',' ∉ e.1)
    (hnd : (l.map (·.1)).Nodup) (hfirst : ∀ e l', l = e :: l' → e.1 ≠ id) :
    (removeNode (l.map fun e => node e.1 e.2) id).Perm ((l.filter fun e => e.1 ≠ id).map fun e => node e.1 e.2) := by
  cases l with
  | nil => simp [removeNode]
  | cons e0 l =>
    have h0 := hfirst e0 l rfl
    rw [List.map_cons, List.nodup_cons] at hnd
    have hf0 : hasPrefix (node e0.1 e0.2) (id ++ [',']) = false := by
      cases hp : hasPrefix (node e0.1 e0.2) (id ++ [',']) with
      | false => rfl
      | true => exact absurd ((hasPrefix_node hid (hl e0 (by simp))).1 hp).symm h0
    unfold removeNode
    simp only [List.map_cons, List.findIdx?_cons, hf0, Bool.false_eq_true, ↓reduceIte]
    rw [List.filter_cons_of_pos (by simpa using h0)]
    have key : ∀ (l : List (Str × Str)), (∀ e ∈ l, ',' ∉ e.1) → (l.map (·.1)).Nodup →
        match (l.map fun e => node e.1 e.2).findIdx? (fun n => hasPrefix n (id ++ [','])) with
        | some k => k < l.length ∧ ((l.map fun e => node e.1 e.2).eraseIdx k) = (l.filter fun e => e.1 ≠ id).map fun e => node e.1 e.2
        | none => l.filter (fun e => e.1 ≠ id) = l := by
      intro l
      induction l with
      | nil => intro _ _; simp
      | cons e l ih =>
        intro hl hnd
        rw [List.map_cons, List.nodup_cons] at hnd
        simp only [List.map_cons, List.findIdx?_cons]
        by_cases hp : hasPrefix (node e.1 e.2) (id ++ [',']) = true
        · have hee := (hasPrefix_node hid (hl e (by simp))).1 hp
          rw [if_pos hp]
          refine ⟨by simp, ?_⟩
          rw [List.filter_cons_of_neg (by simpa using hee.symm)]
          simp only [List.eraseIdx_cons_zero]
          congr 1
          rw [List.filter_eq_self.2]
          intro x hx
          have : x.1 ≠ e.1 := fun hc => hnd.1 (List.mem_map.2 ⟨x, hx, hc⟩)
          simpa [hee] using this
        · rw [if_neg hp]
          have hee : e.1 ≠ id := fun hc => hp ((hasPrefix_node hid (hl e (by simp))).2 hc.symm)
          have := ih (fun x hx => hl x (by simp [hx])) hnd.2
          rw [List.filter_cons_of_pos (by simpa using hee)]
          cases hfi : (l.map fun e => node e.1 e.2).findIdx? (fun n => hasPrefix n (id ++ [','])) with
          | none =>
            rw [hfi] at this
            simp only [Option.map_none]
            rw [this]
          | some k =>
            rw [hfi] at this
            simp only [Option.map_some, List.length_cons, List.eraseIdx_cons_succ, List.map_cons]
            exact ⟨by omega, by rw [this.2]⟩
    have := key l (fun x hx => hl x (by simp [hx])) hnd.2
    cases hfi : (l.map fun e => node e.1 e.2).findIdx? (fun n => hasPrefix n (id ++ [','])) with
    | none =>
      rw [hfi] at this
      simp only [Option.map_none]
      rw [this]
      simp
    | some k =>
      rw [hfi] at this
      simp only [Option.map_some, List.map_cons]
      rw [← this.2]
      exact set_perm _ k _ (by simpa using this.1)

/-- **C79** partial: removing a member keeps the agreement of configuration and members, unless the
removed server is the first of the list.  Missing: adding (`C79_add_not_recorded`) and the first node
(`C79_first_stays`). -/
theorem C79_remove_partial (w w' : W) (l id : Str) (ns : List (Str × Str)) (m : Members)
    (hm : w.leads.get l = some m) (hns : w.nodes.get l = some (ns.map fun e => node e.1 e.2))
    (hagree : ∀ i a, (i, a) ∈ ns ↔ m.get i = some a)
    (hid : ',' ∉ id) (hl : ∀ e ∈ ns, ',' ∉ e.1) (hnd : (ns.map (·.1)).Nodup)
    (hfirst : ∀ e l', ns = e :: l' → e.1 ≠ id)
    (h : removeFollower w l id = (true, w')) : Agree w' l := by
  unfold removeFollower at h
  rw [hm] at h
  cases hr : raftRemove m id with
  | none => simp only [hr] at h; cases h
  | some m' =>
    simp only [hr] at h
    cases h
    have hm' : m' = m.del id := by
      unfold raftRemove at hr
      split at hr
      · cases hr
      · cases hr; rfl
    subst hm'
    intro m2 hm2 n
    simp only [KMap.get_put, ↓reduceIte, Option.some.injEq] at hm2
    subst hm2
    simp only [KMap.get_put, ↓reduceIte, Option.getD_some, hns]
    rw [(C79_remove_node ns id hid hl hnd hfirst).mem_iff, List.mem_map]
    constructor
    · rintro ⟨e, he, rfl⟩
      rw [List.mem_filter] at he
      refine ⟨e.1, e.2, ?_, rfl⟩
      rw [KMap.get_del, if_neg (by simpa using he.2)]
      exact (hagree e.1 e.2).1 he.1
    · rintro ⟨i, a, hi, rfl⟩
      rw [KMap.get_del] at hi
      split at hi
      · cases hi
      · next e => exact ⟨(i, a), List.mem_filter.2 ⟨(hagree i a).2 hi, by simpa using e⟩, rfl⟩

/-- Three servers led by "a"; the list in the configuration. -/
def sampleNodes : List (Str × Str) := [("a".toList, "h1".toList), ("b".toList, "h2".toList), ("c".toList, "h3".toList)]

def sampleMembers : Members := ((KMap.empty.put "a".toList "h1".toList).put "b".toList "h2".toList).put "c".toList "h3".toList

def sampleW : W := ⟨KMap.empty.put "a".toList sampleMembers,
  KMap.empty.put "a".toList (sampleNodes.map fun e => node e.1 e.2)⟩

example : (removeFollower sampleW "a".toList "b".toList).1 = true ∧
    (removeFollower sampleW "a".toList "b".toList).2.nodes.get "a".toList = some ["a,h1".toList, "c,h3".toList] := by decide

example : (sampleNodes.map (·.1)).Nodup ∧ (∀ e ∈ sampleNodes, ',' ∉ e.1) ∧
    (∀ i a, (i, a) ∈ sampleNodes ↔ sampleMembers.get i = some a) := by
  refine ⟨by decide, by decide, fun i a => ?_⟩
  simp only [sampleNodes, List.mem_cons, Prod.mk.injEq, List.not_mem_nil, or_false, sampleMembers, KMap.get_put]
  constructor
  · rintro (⟨rfl, rfl⟩ | ⟨rfl, rfl⟩ | ⟨rfl, rfl⟩) <;> decide
  · intro h
    split at h
    · next e => cases h; exact Or.inr (Or.inr ⟨e, rfl⟩)
    · split at h
      · next e => cases h; exact Or.inr (Or.inl ⟨e, rfl⟩)
      · split at h
        · next e => cases h; exact Or.inl ⟨e, rfl⟩
        · cases h

/-- **C79** The first node of the list is never removed from the configuration. -/
theorem C79_first_stays (w w' : W) (l id addr : Str) (rest : List Str)
    (hns : w.nodes.get l = some (node id addr :: rest))
    (h : removeFollower w l id = (true, w')) :
    w'.nodes.get l = some (node id addr :: rest) ∧ ∀ m, w'.leads.get l = some m → m.get id = none := by
  unfold removeFollower at h
  cases hm : w.leads.get l with
  | none => rw [hm] at h; cases h
  | some m =>
    rw [hm] at h
    cases hr : raftRemove m id with
    | none => simp only [hr] at h; cases h
    | some m' =>
      simp only [hr] at h
      cases h
      have hp : hasPrefix (node id addr) (id ++ [',']) = true := by
        rw [hasPrefix_iff]
        exact ⟨addr, by simp [node]⟩
      constructor
      · simp [hns, removeNode, List.findIdx?_cons, hp]
      · intro m2 hm2
        simp only [KMap.get_put, ↓reduceIte, Option.some.injEq] at hm2
        subst hm2
        unfold raftRemove at hr
        split at hr
        · cases hr
        · cases hr; simp

/-! ## Adding -/

theorem addAll_get (m : Members) (vs : List (Str × Str)) (h : (addAll m vs).2 = true) :
    ∀ k, (addAll m vs).1.get k = match vs.reverse.find? (fun v => v.1 = k) with
      | some v => some v.2
      | none => m.get k := by
  induction vs generalizing m with
  | nil => intro k; rfl
  | cons v vs ih =>
    obtain ⟨id, addr⟩ := v
    intro k
    unfold addAll at h ⊢
    cases hr : raftAdd m id addr with
    | none => rw [hr] at h; cases h
    | some m' =>
      simp only [hr] at h
      simp only
      have hm' : m' = m.put id addr := by
        unfold raftAdd at hr
        split at hr
        · cases hr
        · cases hr; rfl
      rw [ih m' h k, List.reverse_cons, List.find?_append]
      cases hf : vs.reverse.find? (fun v => v.1 = k) with
      | some x => rfl
      | none =>
        simp only [Option.none_or, List.find?_cons, List.find?_nil, hm', KMap.get_put]
        by_cases hk : id = k
        · simp [hk]
        · simp [hk, Ne.symm hk]

/-- **C79** A successful `AddVoter` makes all voters members and keeps all others, and the configuration
does not change: the new members are not recorded. -/
theorem C79_add_not_recorded (w w' : W) (l : Str) (voters : List (Str × Str)) (m : Members)
    (hm : w.leads.get l = some m) (hn : ∃ ns, w.nodes.get l = some ns) (h : addVoter w l voters = (true, w')) :
    (∃ m', w'.leads.get l = some m' ∧ ∀ k, m'.get k = match voters.reverse.find? (fun v => v.1 = k) with
      | some v => some v.2
      | none => m.get k) ∧
    (∀ s, w'.nodes.get s = w.nodes.get s) := by
  unfold addVoter at h
  split at h
  · cases h
  · rw [hm] at h
    dsimp only at h
    split at h
    · next hok =>
      cases h
      refine ⟨⟨_, by simp only [KMap.get_put, ↓reduceIte], addAll_get m voters hok⟩, fun s => ?_⟩
      obtain ⟨ns, hns⟩ := hn
      simp only [addNodes, KMap.get_put]
      split
      · next e => rw [e, hns]; rfl
      · rfl
    · cases h

/-- **C79** If one voter is refused, the answer is a failure although the others became members. -/
example : (addVoter sampleW "a".toList [("d".toList, "h4".toList), ("e".toList, "h4".toList)]).1 = false ∧
    ((addVoter sampleW "a".toList [("d".toList, "h4".toList), ("e".toList, "h4".toList)]).2.leads.get "a".toList).bind
      (fun m => m.get "d".toList) = some "h4".toList := by decide

/-- **C79** The full statement for the nodes is wrong, for adding as well as for removing. -/
theorem C79_nodes_statement_fails : ¬ C79_nodes_statement := by
  intro h
  have hw : Agree ⟨KMap.empty.put "a".toList (KMap.empty.put "a".toList "h1".toList),
      KMap.empty.put "a".toList ["a,h1".toList]⟩ "a".toList := by
    intro m hm n
    simp only [KMap.get_put, ↓reduceIte, Option.some.injEq] at hm
    subst hm
    simp only [KMap.get_put, ↓reduceIte, Option.getD_some, List.mem_singleton]
    constructor
    · rintro rfl
      exact ⟨"a".toList, "h1".toList, by decide, by decide⟩
    · rintro ⟨i, a, hi, rfl⟩
      split at hi
      · next e => cases hi; subst e; decide
      · cases hi
  have := (h _ _ hw).1 [("b".toList, "h2".toList)]
    (addVoter ⟨KMap.empty.put "a".toList (KMap.empty.put "a".toList "h1".toList),
      KMap.empty.put "a".toList ["a,h1".toList]⟩ "a".toList [("b".toList, "h2".toList)]).2 (by decide)
    ((KMap.empty.put "a".toList "h1".toList).put "b".toList "h2".toList) (by decide) "b,h2".toList
  have := this.2 ⟨"b".toList, "h2".toList, by decide, by decide⟩
  revert this
  decide

/-! ## Joining and leaving -/

theorem removeFollower_leads {w w' : W} {l id : Str} (h : removeFollower w l id = (true, w')) (k : Str) (hk : k ≠ l) :
    w'.leads.get k = w.leads.get k := by
  unfold removeFollower at h
  cases hm : w.leads.get l with
  | none => rw [hm] at h; cases h
  | some m =>
    rw [hm] at h
    cases hr : raftRemove m id with
    | none => simp only [hr] at h; cases h
    | some m' =>
      simp only [hr] at h
      cases h
      simp only [KMap.get_put, if_neg hk]

theorem addVoter_leads {w w' : W} {l : Str} {vs : List (Str × Str)} (h : addVoter w l vs = (true, w')) (k : Str)
    (hk : k ≠ l) : w'.leads.get k = w.leads.get k := by
  unfold addVoter at h
  split at h
  · cases h
  · cases hm : w.leads.get l with
    | none => rw [hm] at h; cases h
    | some m =>
      rw [hm] at h
      dsimp only at h
      split at h
      · cases h; simp only [KMap.get_put, if_neg hk]
      · cases h

/-- **C79** After a successful join of a server that did not know the leader as its own, the server is a
member of the leader's group with its own address, and has the nodes of the leader's configuration. -/
theorem C79_join_member (w w' : W) (s addr master old : Str) (hne : old ≠ master)
    (h : joinLeader w s addr master old = (true, w')) :
    (∃ m, w'.leads.get master = some m ∧ m.get s = some addr) ∧
    (w'.nodes.get s = some ((w'.nodes.get master).getD [])) := by
  unfold joinLeader at h
  dsimp only at h
  rw [if_neg hne] at h
  split at h
  · cases h
  · next w1 hw1 =>
    cases h
    rw [Option.bind_eq_some_iff] at hw1
    obtain ⟨w0, _, hadd⟩ := hw1
    split at hadd
    · next w2 hav =>
      cases hadd
      constructor
      · cases hm : w0.leads.get master with
        | none => simp [addVoter, hm] at hav
        | some m =>
          unfold addVoter at hav
          rw [if_neg (by simp), hm] at hav
          dsimp only at hav
          split at hav
          · next hok =>
            cases hav
            refine ⟨_, by simp only [KMap.get_put, ↓reduceIte]; rfl, ?_⟩
            rw [addAll_get m _ hok]
            simp
          · cases hav
      · simp only [KMap.get_put, ↓reduceIte]
        split
        · simp
        · rfl
    · cases hadd

/-- **C79** A join changes no group but the leader's: the server stays a member of its old group. -/
theorem C79_join_old_group (w w' : W) (s addr master old : Str) (h : joinLeader w s addr master old = (true, w'))
    (l : Str) (hl : l ≠ master) : w'.leads.get l = w.leads.get l := by
  unfold joinLeader at h
  dsimp only at h
  split at h
  · cases h
  · next w1 hw1 =>
    cases h
    show w1.leads.get l = _
    by_cases ho : old = master
    · rw [if_pos ho] at hw1; cases hw1; rfl
    · rw [if_neg ho, Option.bind_eq_some_iff] at hw1
      obtain ⟨w0, hrem, hadd⟩ := hw1
      have h1 : w0.leads.get l = w.leads.get l := by
        split at hrem
        · split at hrem
          · next h2 => cases hrem; exact removeFollower_leads h2 l hl
          · cases hrem
        · cases hrem; rfl
      split at hadd
      · next h2 => cases hadd; rw [addVoter_leads h2 l hl, h1]
      · cases hadd

/-- Two groups: "a" leads "a" and "s", "b" leads "b". -/
def twoGroups : W where
  leads := (KMap.empty.put "a".toList ((KMap.empty.put "a".toList "h1".toList).put "s".toList "h3".toList)).put
    "b".toList (KMap.empty.put "b".toList "h2".toList)
  nodes := (KMap.empty.put "a".toList ["a,h1".toList, "s,h3".toList]).put "b".toList ["b,h2".toList]

theorem C79_join_statement_fails : ¬ C79_join_statement := by
  intro h
  have := h twoGroups "s".toList "h3".toList "b".toList "a".toList
    (joinLeader twoGroups "s".toList "h3".toList "b".toList "a".toList).2 (by decide) "a".toList
    ((KMap.empty.put "a".toList "h1".toList).put "s".toList "h3".toList) (by decide)
  revert this
  decide

/-- "s" is still in the group and the nodes of "b", with an old address. -/
def staleGroup : W where
  leads := KMap.empty.put "b".toList ((KMap.empty.put "b".toList "h2".toList).put "s".toList "h3".toList)
  nodes := KMap.empty.put "b".toList ["b,h2".toList, "s,h3".toList]

/-- **C79** A server that knows another leader is removed before it is added, one that knows none is not: its old node
stays in the configuration (the new one is never put there, `addNodes`). -/
theorem C79_join_stale :
    ((joinLeader staleGroup "s".toList "h9".toList "b".toList "a".toList).2.nodes.get "b".toList =
      some ["b,h2".toList]) ∧
    ((joinLeader staleGroup "s".toList "h9".toList "b".toList []).2.nodes.get "b".toList =
      some ["b,h2".toList, "s,h3".toList]) := by
  decide

/-- **C79** A follower that left is no member of the group of the leader it knew. -/
theorem C79_leave_follower (w w' : W) (s leader next : Str) (hs : w.leads.get s = none)
    (h : leaveCluster w s leader next = (true, w')) :
    ∃ m, w'.leads.get leader = some m ∧ m.get s = none := by
  unfold leaveCluster at h
  rw [hs] at h
  simp only at h
  unfold removeFollower at h
  cases hm : w.leads.get leader with
  | none => rw [hm] at h; cases h
  | some m =>
    rw [hm] at h
    cases hr : raftRemove m s with
    | none => simp only [hr] at h; cases h
    | some m' =>
      simp only [hr] at h
      cases h
      refine ⟨m', by simp, ?_⟩
      unfold raftRemove at hr
      split at hr
      · cases hr
      · cases hr; simp

/-- **C79** A leader that left is no member of the group of its successor, and leads no group; the
configurations stay as they are. -/
theorem C79_leave_leader (w w' : W) (s leader next : Str) (m : Members) (hs : w.leads.get s = some m)
    (hne : next ≠ s) (h : leaveCluster w s leader next = (true, w')) :
    w'.leads.get next = some (m.del s) ∧ w'.leads.get s = none ∧ w'.nodes = w.nodes := by
  unfold leaveCluster at h
  rw [hs] at h
  simp only at h
  cases hr : raftRemove m s with
  | none => simp only [hr] at h; cases h
  | some m' =>
    simp only [hr] at h
    cases h
    unfold raftRemove at hr
    split at hr
    · cases hr
    · cases hr
      refine ⟨by simp, ?_, rfl⟩
      rw [KMap.get_put_ne _ _ (Ne.symm hne)]
      simp

/-- **C79** The last member of a group cannot leave. -/
theorem C79_last_stays (w : W) (s leader next addr : Str) (hs : w.leads.get s = some (KMap.empty.put s addr)) :
    leaveCluster w s leader next = (false, w) := by
  have : ((KMap.empty.put s addr).del s) = (KMap.empty : Members) := by
    apply KMap.ext_get
    intro k
    rw [KMap.get_del, KMap.get_put]
    split <;> rfl
  unfold leaveCluster raftRemove
  rw [hs]
  simp only [this]
  rfl

example : (leaveCluster sampleW "b".toList "a".toList []).1 = true ∧
    (leaveCluster sampleW "a".toList [] "b".toList).1 = true := by decide

/-! ## Bootstrapping -/

theorem foldl_none {β : Type} (f : Members → β → Option Members) (l : List β) :
    l.foldl (fun m n => m.bind fun m => f m n) none = none := by
  induction l with
  | nil => rfl
  | cons x l ih => exact ih

/-- **C79** One node of the configuration that is not of the form `id,host:port` makes the whole bootstrap
fail, although the log says it is skipped. -/
theorem C79_malformed_node (nodes : List Str) (text addr n : Str) (hn : n ∈ nodes) (hbad : parseNode n = none) :
    bootstrap nodes text addr = none := by
  obtain ⟨l1, l2, rfl⟩ := List.append_of_mem hn
  unfold bootstrap
  simp only
  rw [if_neg (by simp), List.foldl_append, List.foldl_cons, hbad]
  have : ∀ o : Option Members, (o.bind fun _ => (none : Option Members)) = none := by intro o; cases o <;> rfl
  simp only [this]
  exact foldl_none _ l2

/-- **C79** A bootstrap without nodes makes a group whose only member has the text of the whole cluster
configuration as its id; so the server itself is no member. -/
theorem C79_bootstrap_empty (text addr id : Str) (ht : ',' ∉ text) (ha : ',' ∉ addr) (hne : text ≠ [] ∧ addr ≠ [])
    (hid : id ≠ text) : bootstrap [] text addr = some (KMap.empty.put text addr) ∧
      (KMap.empty.put text addr : Members).get id = none := by
  constructor
  · have hp : parseNode (node text addr) = some (text, addr) := by
      unfold parseNode node
      rw [splitOn_append ht, splitOn_of_not_mem ha]
    simp only [bootstrap, ↓reduceIte, List.foldl_cons, List.foldl_nil, hp]
    simp [raftAdd, hne.1, hne.2, KMap.get, KMap.rawGet, KMap.empty]
  · rw [KMap.get_put_ne _ _ hid]; rfl

/-- **C79** Nodes given by the environment variable are cut at their own commas: none of them is well
formed. -/
theorem C79_env_nodes (text n : Str) (h : n ∈ envNodes text) : parseNode n = none := by
  have hno : ∀ (s : Str), ∀ n ∈ splitOn ',' s, ',' ∉ n := by
    intro s
    induction s with
    | nil => intro n hn; simp [splitOn] at hn; subst hn; simp
    | cons c cs ih =>
      intro n hn
      unfold splitOn at hn
      split at hn
      · rcases List.mem_cons.1 hn with rfl | hn
        · simp
        · exact ih n hn
      · next hc =>
        cases hsp : splitOn ',' cs with
        | nil => exact absurd hsp (splitOn_ne_nil _ _)
        | cons x xs =>
          rw [hsp] at hn
          rcases List.mem_cons.1 hn with rfl | hn
          · have := ih x (by rw [hsp]; simp)
            simp only [List.mem_cons, not_or]
            exact ⟨fun e => hc e.symm, this⟩
          · exact ih n (by rw [hsp]; simp [hn])
  unfold parseNode
  rw [splitOn_of_not_mem (hno text n h)]

example : envNodes "a,h1:80".toList = ["a".toList, "h1:80".toList] ∧ parseNode "a,h1:80".toList = some ("a".toList, "h1:80".toList) ∧
    bootstrap ["a,h1:80".toList, "b,h2:80".toList] [] [] =
      some ((KMap.empty.put "a".toList "h1:80".toList).put "b".toList "h2:80".toList) := by
  refine ⟨by decide, by decide, by rfl⟩

end Verif.Meta.Members
