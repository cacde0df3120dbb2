import Verif.Meta.Fsm

/-!
# Reading metadata from a group (C99)

The API server writes metadata at the master of a group (`GetMetaServerGRPC`,
src/apiserver/internal/usecase/logic/discovery_logic.go:27-33) and reads it at a random member (`SelectMetaServerGRPC`,
68-86, and `SelectMetaServerHttp`, 48-66, which is the same; used by `FindByName` of src/apiserver/internal/usecase/repo/
meta_repo.go:19-30, by `Find` of version_repo.go and bucket_repo.go).  The members are those the master names
(`GetPeers`, src/metaserver/internal/usecase/logic/peers_logic.go:14-30).  A member answers from its own store
(C30), without asking the leader.

Trusted: hashicorp/raft.  A write is acknowledged when the leader has applied it (`ApplyRaft`,
src/metaserver/internal/usecase/raftimpl/raft_apply.go:19-41); a write answered with an error may be in the log nevertheless;
what is in the log is never lost or reordered; every member applies it in this order, in its own time; a new leader may
still have to apply some.
-/

namespace Verif.Reads

open Verif Verif.Meta

/-! ## The choice of a server -/

/-- `GetPeers` at a member, peers_logic.go:14-30; `none` is an error. -/
def getPeers (enabled : Bool) (config : Option (List Str)) (self : Str) : Option (List Str) :=
  if enabled then config.map fun l => l.filter fun i => decide (i ≠ self) else some []

/-- `SelectMetaServerGRPC`, discovery_logic.go:68-86.  `servs` are the servers known, `peers` the answer of the one that is
asked (`none` for an error, which is ignored, line 74), `pick` the random number.  `none` is `ErrServiceUnavailable`. -/
def selectMeta (servs : Str → Option Str) (peers : Option (List Str)) (id : Str) (pick : Nat) : Option Str :=
  match servs id with
  | none => none
  | some _ =>
    let peerIds := peers.getD [] ++ [id]
    let ips := peerIds.filterMap servs
    if ips.length = 0 then none else ips[pick % ips.length]?

/-- **C99** A server is chosen if and only if the master of the slot is known; whether its peers answer or are known does
not matter. -/
theorem C99_available (servs : Str → Option Str) (peers : Option (List Str)) (id : Str) (pick : Nat) :
    (∃ a, selectMeta servs peers id pick = some a) ↔ ∃ a, servs id = some a := by
  unfold selectMeta
  cases h : servs id with
  | none => simp
  | some a =>
    dsimp only
    have hne : ((peers.getD [] ++ [id]).filterMap servs).length ≠ 0 := by
      simp [List.filterMap_append, h]
    rw [if_neg hne]
    have hlt := Nat.mod_lt pick (Nat.pos_of_ne_zero hne)
    rw [List.getElem?_eq_getElem hlt]
    simp

/-- **C99** It is the master or one of the peers it names, and known. -/
theorem C99_member {servs : Str → Option Str} {peers : Option (List Str)} {id : Str} {pick : Nat} {a : Str}
    (h : selectMeta servs peers id pick = some a) :
    ∃ i, (i = id ∨ ∃ l, peers = some l ∧ i ∈ l) ∧ servs i = some a := by
  unfold selectMeta at h
  cases hs : servs id with
  | none => rw [hs] at h; cases h
  | some b =>
    rw [hs] at h
    dsimp only at h
    split at h
    · cases h
    · obtain ⟨i, hi, ha⟩ := List.mem_filterMap.1 (List.mem_of_getElem? h)
      refine ⟨i, ?_, ha⟩
      rcases List.mem_append.1 hi with h1 | h1
      · cases peers with
        | none => simp at h1
        | some l => exact .inr ⟨l, rfl, h1⟩
      · exact .inl (by simpa using h1)

/-- **C99** Every known member may be chosen: reads are spread over the group. -/
theorem C99_spread {servs : Str → Option Str} {l : List Str} {id i : Str} {a b : Str} (hid : servs id = some b)
    (hi : i ∈ l ∨ i = id) (ha : servs i = some a) : ∃ pick, selectMeta servs (some l) id pick = some a := by
  unfold selectMeta
  rw [hid]
  dsimp only
  have hm : a ∈ (l ++ [id]).filterMap servs :=
    List.mem_filterMap.2 ⟨i, by rcases hi with h | h <;> simp [h], ha⟩
  obtain ⟨n, hn, e⟩ := List.mem_iff_getElem.1 hm
  refine ⟨n, ?_⟩
  simp only [Option.getD_some]
  rw [if_neg (by omega), Nat.mod_eq_of_lt hn, List.getElem?_eq_getElem hn, e]

/-- Two members. -/
def twoServs : Str → Option Str := fun i => if i = ['m'] then some ['1'] else if i = ['s'] then some ['2'] else none

example : selectMeta twoServs (getPeers true (some [['m'], ['s'], ['x']]) ['m']) ['m'] 0 = some ['2'] ∧
    selectMeta twoServs (getPeers true (some [['m'], ['s'], ['x']]) ['m']) ['m'] 1 = some ['1'] ∧
    selectMeta twoServs none ['m'] 7 = some ['1'] ∧ selectMeta twoServs (some []) ['x'] 0 = none := by decide

/-! ## The group -/

/-- A group: the writes committed, how many of them a member has applied, and the leader. -/
structure Group where
  log : List Op
  applied : Str → Nat
  leader : Str

/-- What happens in a group. -/
inductive Ev
  /-- a write at the leader, which answers when it has applied it -/
  | write (op : Op)
  /-- a write that is answered with an error (a timeout, the loss of leadership) but will be applied -/
  | unsure (op : Op)
  /-- a member applies the next write -/
  | advance (r : Str)
  /-- another member is elected -/
  | elect (r : Str)
  deriving DecidableEq

/-- One step. -/
def step (g : Group) : Ev → Group
  | .write op =>
    { g with log := g.log ++ [op], applied := fun r => if r = g.leader then g.log.length + 1 else g.applied r }
  | .unsure op => { g with log := g.log ++ [op] }
  | .advance r =>
    { g with applied := fun r' => if r' = r then min (g.applied r + 1) g.log.length else g.applied r' }
  | .elect r => { g with leader := r }

/-- All steps. -/
def steps (g : Group) : List Ev → Group
  | [] => g
  | e :: es => steps (step g e) es

/-- A new group. -/
def init (leader : Str) : Group := ⟨[], fun _ => 0, leader⟩

/-- A read at a member: any question about its store. -/
def readAt {α : Type} (g : Group) (r : Str) (q : Store → α) : α := q (run .empty (g.log.take (g.applied r))).2

/-- A read of the API server: `owner` says which member is at an address. -/
def apiRead {α : Type} (g : Group) (servs : Str → Option Str) (owner : Str → Str) (config : Option (List Str))
    (enabled : Bool) (id : Str) (pick : Nat) (q : Store → α) : Option α :=
  (selectMeta servs (getPeers enabled config id) id pick).map fun a => readAt g (owner a) q

theorem steps_append (g : Group) (es fs : List Ev) : steps g (es ++ fs) = steps (steps g es) fs := by
  induction es generalizing g with
  | nil => rfl
  | cons e es ih => exact ih (step g e)

/-! ## Specification -/

/-- The writes that were acknowledged or may have happened, in their order. -/
def writes : List Ev → List Op
  | [] => []
  | .write op :: es => op :: writes es
  | .unsure op :: es => op :: writes es
  | _ :: es => writes es

/-- The number of these up to the last one that was acknowledged. -/
def acked : List Ev → Nat
  | [] => 0
  | .write _ :: es => acked es + 1
  | .unsure _ :: es => if acked es = 0 then 0 else acked es + 1
  | _ :: es => acked es

example : writes [.write (.removeMeta ['a']), .unsure (.removeMeta ['b']), .elect ['s'], .write (.removeMeta ['c']),
    .unsure (.removeMeta ['d'])] = [.removeMeta ['a'], .removeMeta ['b'], .removeMeta ['c'], .removeMeta ['d']] ∧
    acked [.write (.removeMeta ['a']), .unsure (.removeMeta ['b']), .elect ['s'], .write (.removeMeta ['c']),
    .unsure (.removeMeta ['d'])] = 3 := by decide

/-- What a store that has seen the first `n` of these answers. -/
def answerAfter {α : Type} (q : Store → α) (ops : List Op) (n : Nat) : α := q (run .empty (ops.take n)).2

theorem log_writes (g : Group) (es : List Ev) : (steps g es).log = g.log ++ writes es := by
  induction es generalizing g with
  | nil => simp [steps, writes]
  | cons e es ih =>
    rw [steps, ih]
    cases e <;> simp [step, writes]

theorem applied_le (g : Group) (es : List Ev) (h : ∀ r, g.applied r ≤ g.log.length) :
    ∀ r, (steps g es).applied r ≤ (steps g es).log.length := by
  induction es generalizing g with
  | nil => exact h
  | cons e es ih =>
    refine ih (step g e) fun r => ?_
    have := h r
    cases e <;> simp only [step, List.length_append, List.length_singleton]
    · split <;> omega
    · omega
    · split <;> omega
    · exact this

theorem applied_mono (g : Group) (es : List Ev) (h : ∀ r, g.applied r ≤ g.log.length) (r : Str) :
    g.applied r ≤ (steps g es).applied r := by
  induction es generalizing g with
  | nil => exact Nat.le_refl _
  | cons e es ih =>
    have h' : ∀ r, (step g e).applied r ≤ (step g e).log.length := applied_le g [e] h
    refine Nat.le_trans ?_ (ih (step g e) h')
    have := h r
    cases e with
    | write op => simp only [step]; split <;> omega
    | unsure op => exact Nat.le_refl _
    | advance r' =>
      simp only [step]
      split
      · rename_i e; subst e; omega
      · omega
    | elect r' => exact Nat.le_refl _

theorem acked_append (es fs : List Ev) :
    acked (es ++ fs) = if acked fs = 0 then acked es else (writes es).length + acked fs := by
  induction es with
  | nil => simp only [List.nil_append, writes, List.length_nil, acked]; split <;> omega
  | cons e es ih =>
    cases e with
    | write op => simp only [List.cons_append, acked, writes, ih, List.length_cons]; split <;> omega
    | unsure op =>
      simp only [List.cons_append, acked, writes, ih, List.length_cons]
      by_cases h1 : acked fs = 0
      · simp [h1]
      · rw [if_neg h1, if_neg h1, if_neg (by omega)]; omega
    | advance r => simp only [List.cons_append, acked, writes, ih]
    | elect r => simp only [List.cons_append, acked, writes, ih]

theorem acked_le (es : List Ev) : acked es ≤ (writes es).length := by
  induction es with
  | nil => exact Nat.le_refl _
  | cons e es ih =>
    cases e <;> simp only [acked, writes, List.length_cons]
    · omega
    · split <;> omega
    · exact ih
    · exact ih

theorem log_eq (leader : Str) (es : List Ev) : (steps (init leader) es).log = writes es :=
  (log_writes (init leader) es).trans (List.nil_append _)

theorem applied_le_writes (leader : Str) (es : List Ev) (r : Str) :
    (steps (init leader) es).applied r ≤ (writes es).length := by
  rw [← log_eq leader es]
  exact applied_le (init leader) es (by simp [init]) r

/-- **C99** Whatever happened and whichever member is asked, the answer is the one after some number of writes, in their
order: nothing made up and nothing out of order. -/
theorem C99_prefix {α : Type} (leader r : Str) (es : List Ev) (q : Store → α) :
    ∃ n, n ≤ (writes es).length ∧ readAt (steps (init leader) es) r q = answerAfter q (writes es) n :=
  ⟨_, applied_le_writes leader es r, by unfold readAt answerAfter; rw [log_eq]⟩

/-- **C99** The answers of one member never go back. -/
theorem C99_monotone {α : Type} (leader r : Str) (es fs : List Ev) (q : Store → α) :
    ∃ m n, m ≤ n ∧ n ≤ (writes (es ++ fs)).length ∧
      readAt (steps (init leader) es) r q = answerAfter q (writes (es ++ fs)) m ∧
      readAt (steps (init leader) (es ++ fs)) r q = answerAfter q (writes (es ++ fs)) n := by
  have h1 := applied_le (init leader) es (by simp [init])
  have hl2 := log_writes (steps (init leader) es) fs
  rw [← steps_append, log_eq] at hl2
  refine ⟨(steps (init leader) es).applied r, _, ?_, applied_le_writes leader (es ++ fs) r, ?_, ?_⟩
  · rw [steps_append]; exact applied_mono _ fs h1 r
  · unfold readAt answerAfter
    rw [hl2, List.take_append_of_le_length (h1 r)]
  · unfold readAt answerAfter
    rw [log_eq]

/-- No election in a history. -/
def NoElection (es : List Ev) : Prop := ∀ r, Ev.elect r ∉ es

theorem leader_full (g : Group) (es : List Ev) (hb : ∀ r, g.applied r ≤ g.log.length) (hn : NoElection es) :
    (steps g es).leader = g.leader ∧ (acked es ≠ 0 → g.log.length + acked es ≤ (steps g es).applied g.leader) := by
  induction es generalizing g with
  | nil => exact ⟨rfl, fun h => absurd rfl h⟩
  | cons e es ih =>
    have hn' : NoElection es := fun r hr => hn r (by simp [hr])
    have hb' : ∀ r, (step g e).applied r ≤ (step g e).log.length := applied_le g [e] hb
    have hs : (step g e).leader = g.leader := by
      cases e with
      | elect r => exact absurd (by simp) (hn r)
      | _ => rfl
    obtain ⟨h1, h2⟩ := ih (step g e) hb' hn'
    have hm := applied_mono (step g e) es hb' g.leader
    rw [hs] at h1 h2
    refine ⟨h1, fun ha => ?_⟩
    rw [steps]
    cases e with
    | write op =>
      simp only [acked] at ha ⊢
      simp only [step, List.length_append, List.length_singleton, ↓reduceIte] at h2 hm ⊢
      by_cases h0 : acked es = 0
      · omega
      · have := h2 h0; omega
    | unsure op =>
      simp only [acked] at ha ⊢
      simp only [step, List.length_append, List.length_singleton] at h2 ⊢
      split at ha
      · exact absurd rfl ha
      · rename_i h0
        have := h2 h0
        rw [if_neg h0]; omega
    | advance r => exact h2 ha
    | elect r => exact absurd (by simp) (hn r)

/-- **C99** The leader answers with all acknowledged writes, from its first own write on until the next election. -/
theorem C99_leader {α : Type} (leader : Str) (es fs : List Ev) (op : Op) (hn : NoElection fs) (q : Store → α) :
    let all := es ++ .write op :: fs
    ∃ n, acked all ≤ n ∧ n ≤ (writes all).length ∧
      readAt (steps (init leader) all) (steps (init leader) all).leader q = answerAfter q (writes all) n := by
  intro all
  have hn' : NoElection (.write op :: fs) := by
    intro r hr
    simp only [List.mem_cons, reduceCtorEq, false_or] at hr
    exact hn r hr
  obtain ⟨h1, h2⟩ := leader_full (steps (init leader) es) (.write op :: fs)
    (applied_le (init leader) es (by simp [init])) hn'
  have h0 : acked (.write op :: fs) ≠ 0 := by simp [acked]
  refine ⟨_, ?_, applied_le_writes leader all _, by unfold readAt answerAfter; rw [log_eq]⟩
  have h3 := h2 h0
  rw [log_eq] at h3
  simp only [all]
  rw [acked_append, if_neg h0, steps_append, h1]
  exact h3

/-- **C99** When a member has caught up it answers with all writes. -/
theorem C99_caught_up {α : Type} (leader : Str) (es : List Ev) (r : Str)
    (h : (writes es).length ≤ (steps (init leader) es).applied r) (q : Store → α) :
    readAt (steps (init leader) es) r q = answerAfter q (writes es) (writes es).length := by
  unfold readAt answerAfter
  rw [log_eq, List.take_of_length_le h, List.take_length]

/-- **C99** A server on its own (the cluster is not enabled, or no peer is known) is always asked itself, and answers
with all acknowledged writes. -/
theorem C99_alone {α : Type} (servs : Str → Option Str) (owner : Str → Str) (config : Option (List Str)) (enabled : Bool)
    (id a : Str) (hid : servs id = some a) (hown : owner a = id)
    (hal : enabled = false ∨ config = none ∨ ∀ l, config = some l → ∀ i ∈ l, i ≠ id → servs i = none)
    (es : List Ev) (hn : NoElection es) (pick : Nat) (q : Store → α) :
    ∃ n, acked es ≤ n ∧ n ≤ (writes es).length ∧
      apiRead (steps (init id) es) servs owner config enabled id pick q = some (answerAfter q (writes es) n) := by
  have hips : ((getPeers enabled config id).getD [] ++ [id]).filterMap servs = [a] := by
    rw [List.filterMap_append]
    have : ((getPeers enabled config id).getD []).filterMap servs = [] := by
      unfold getPeers
      rcases hal with h | h | h
      · subst h; rfl
      · subst h; split <;> rfl
      · cases enabled with
        | false => rfl
        | true =>
          cases config with
          | none => rfl
          | some l =>
            simp only [↓reduceIte, Option.map_some, Option.getD_some]
            rw [List.filterMap_eq_nil_iff]
            intro i hi
            simp only [List.mem_filter, decide_eq_true_eq] at hi
            exact h l rfl i hi.1 hi.2
    rw [this]
    simp [hid]
  have hsel : selectMeta servs (getPeers enabled config id) id pick = some a := by
    unfold selectMeta
    rw [hid]
    simp [hips, Nat.mod_one]
  obtain ⟨_, h2⟩ := leader_full (init id) es (by simp [init]) hn
  refine ⟨(steps (init id) es).applied id, ?_, applied_le_writes id es id, ?_⟩
  · by_cases h0 : acked es = 0
    · omega
    · have := h2 h0
      simp only [init, List.length_nil, Nat.zero_add] at this
      exact this
  · unfold apiRead
    rw [hsel, Option.map_some, hown]
    unfold readAt answerAfter
    rw [log_eq]

/-- The full statement: a read by the API server sees every write that was acknowledged before. -/
def C99_statement : Prop :=
  ∀ (servs : Str → Option Str) (owner : Str → Str) (config : List Str) (id : Str) (es : List Ev) (pick : Nat) (name : Str)
    (m : Except Err Metadata),
    (∀ i a, servs i = some a → owner a = i) → NoElection es →
    apiRead (steps (init id) es) servs owner (some config) true id pick (fun s => getMeta s name) = some m →
    ∃ n, acked es ≤ n ∧ n ≤ (writes es).length ∧ m = answerAfter (fun s => getMeta s name) (writes es) n

/-- The member at an address of `twoServs`. -/
def twoOwner (a : Str) : Str := if a = ['1'] then ['m'] else if a = ['2'] then ['s'] else []

/-- An object is created. -/
def created : List Ev := [.write (.addMeta "b/a".toList (sampleMeta 1))]

/-- **C99, refuted.** An object that was just created does not exist, if the member that is asked has not applied the
write yet. -/
theorem C99_statement_fails : ¬ C99_statement := by
  intro h
  obtain ⟨n, h1, h2, h3⟩ := h twoServs twoOwner [['m'], ['s']] ['m'] created 0 "b/a".toList (.error .notFound)
    (by
      intro i a hi
      unfold twoServs at hi
      split at hi
      · cases hi; rename_i e; rw [e]; rfl
      · split at hi
        · cases hi; rename_i e; rw [e]; rfl
        · cases hi)
    (by intro r hr; simp [created] at hr) rfl
  have hn : n = 1 := by
    have h1' : 1 ≤ n := h1
    have h2' : n ≤ 1 := h2
    omega
  subst hn
  rw [show answerAfter (fun s => getMeta s "b/a".toList) (writes created) 1 = .ok (sampleMeta 1) from rfl] at h3
  cases h3

/-- **C99, refuted** for two reads in a row: the first sees the object, the second does not. -/
theorem C99_back_in_time :
    let q := fun s => getMeta s "b/a".toList
    let g := steps (init ['m']) created
    apiRead g twoServs twoOwner (some [['m'], ['s']]) true ['m'] 1 q = some (.ok (sampleMeta 1)) ∧
    apiRead g twoServs twoOwner (some [['m'], ['s']]) true ['m'] 0 q = some (.error .notFound) := ⟨rfl, rfl⟩

/-- **C99, refuted** even for reads at the leader: a new leader that has not applied everything answers with less. -/
theorem C99_new_leader :
    let es := created ++ [.elect ['s']]
    (steps (init ['m']) es).leader = ['s'] ∧
    readAt (steps (init ['m']) es) ['s'] (fun s => getMeta s "b/a".toList) = .error .notFound := ⟨rfl, rfl⟩

example : readAt (steps (init ['m']) (created ++ [.advance ['s']])) ['s'] (fun s => getMeta s "b/a".toList) =
    .ok (sampleMeta 1) := rfl

end Verif.Reads
