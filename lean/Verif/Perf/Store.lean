import Verif.Common.KMap

/-!
# Performance records (C70, C71)

Models src/common/performance: the bbolt store of cost records (local_store.go), the averages and
sums over it (store.go) and the collector in front of it (collector.go).

Simplified: costs are natural numbers (in the code `time.Duration`, written as a uvarint, C11);
sums do not overflow; a bbolt transaction is atomic; `Put` with an empty action or kind (which would
write next to the nested buckets) is not modelled — the callers use the constants of store.go.
`Clear` with a kind alone is modelled here; the whole of it is in `Verif.Perf.Clear`.
-/

namespace Verif.Perf

open KMap

/-- `Perform`; store.go:21-25. -/
structure Rec where
  kind : Str
  action : Str
  cost : Nat
deriving DecidableEq

/-! ## The store -/

/-- A nested bbolt bucket with its sequence number. -/
structure Bkt where
  seq : Nat
  data : KMap Nat

/-- One root bucket: nested buckets by name. -/
abbrev Fam := KMap Bkt

/-- The database: the records are kept twice; local_store.go:18-27. -/
structure Db where
  acts : Fam
  kinds : Fam

def Db.init : Db := ⟨KMap.empty, KMap.empty⟩

/-- The nested bucket, created when missing; local_store.go:45-73. -/
def bucketOf (f : Fam) (name : Str) : Bkt := (f.get name).getD ⟨0, KMap.empty⟩

/-- `NextSequence` and `Put` of the key `inner.seq`; local_store.go:93-105. -/
def insert (f : Fam) (outer inner : Str) (cost : Nat) : Fam :=
  let b := bucketOf f outer
  f.put outer ⟨b.seq + 1, b.data.put (inner ++ '.' :: fmtNat (b.seq + 1)) cost⟩

/-- One record of `LocalStore.Put`; local_store.go:80-106. -/
def put1 (d : Db) (r : Rec) : Db :=
  ⟨insert d.acts r.action r.kind r.cost, insert d.kinds r.kind r.action r.cost⟩

/-- `LocalStore.Put`, one transaction; local_store.go:75-110. -/
def put (d : Db) (rs : List Rec) : Db := rs.foldl put1 d

/-- `keyPrefix`; local_store.go:112-118. -/
def keyPrefix (k : Str) : Str :=
  match splitOn '.' k with
  | [a, _] => a
  | _ => []

/-- `Get` with a kind: the bucket of the kind, from the first key not below the action to the
first with another action; local_store.go:126-150.  `none` is the error `errNotExist`. -/
def getKind (d : Db) (kind action : Str) : Option (List Rec) :=
  match d.kinds.get kind with
  | none => none
  | some b =>
    let es := if action = [] then b.data.entries
      else (b.data.seek action).takeWhile fun e => decide (keyPrefix e.1 = action)
    some (es.map fun e => ⟨kind, keyPrefix e.1, e.2⟩)

/-- `Get` without a kind; local_store.go:151-177.  Without an action as well, the inner loop
shadows `k`: the action of a record is set to its key (163-167). -/
def getAction (d : Db) (action : Str) : Option (List Rec) :=
  if action = [] then
    if d.acts.entries = [] then none
    else some (d.acts.entries.flatMap fun o =>
      o.2.data.entries.map fun e => ⟨keyPrefix e.1, e.1, e.2⟩)
  else
    match d.acts.get action with
    | none => none
    | some b => some (b.data.entries.map fun e => ⟨keyPrefix e.1, action, e.2⟩)

/-- `LocalStore.Get`; local_store.go:120-180. -/
def getRecs (d : Db) (kind action : Str) : Option (List Rec) :=
  if kind = [] then getAction d action else getKind d kind action

/-- `LocalStore.Size`; `Stats().KeyN` counts the keys of a bucket; local_store.go:315-373. -/
def size (d : Db) (kind action : Str) : Nat :=
  if kind = [] then
    if action = [] then (d.acts.entries.map fun o => o.2.data.size).sum
    else match d.acts.get action with
      | none => 0
      | some b => b.data.size
  else if action = [] then
    match d.kinds.get kind with
    | none => 0
    | some b => b.data.size
  else match getKind d kind action with
    | none => 0
    | some rs => rs.length

/-! ### Specification: the records of a history that meet the conditions -/

/-- The records asked for: an empty condition admits everything; store.go:27-33. -/
def wanted (kind action : Str) (r : Rec) : Bool :=
  (kind = [] || r.kind = kind) && (action = [] || r.action = action)

/-- Names that can be read back: not empty, without a dot. -/
def Rec.Plain (r : Rec) : Prop := r.kind ≠ [] ∧ '.' ∉ r.kind ∧ r.action ≠ [] ∧ '.' ∉ r.action

/-! ### Lemmas -/

theorem rawPut_perm (l : List (Str × Nat)) (k : Str) (v : Nat) (h : ∀ e ∈ l, e.1 ≠ k) :
    (rawPut l k v).Perm ((k, v) :: l) := by
  induction l with
  | nil => simp [rawPut]
  | cons e l ih =>
    obtain ⟨k', v'⟩ := e
    have h1 : k' ≠ k := h (k', v') List.mem_cons_self
    have h2 := ih (fun e he => h e (List.mem_cons_of_mem _ he))
    simp only [rawPut]
    repeat' split
    all_goals first
      | exact absurd ‹_› h1
      | exact absurd (Eq.symm ‹_›) h1
      | exact List.Perm.refl _
      | exact (h2.cons _).trans (List.Perm.swap _ _ _)

theorem keyPrefix_key {a : Str} (ha : '.' ∉ a) (n : Nat) : keyPrefix (a ++ '.' :: fmtNat n) = a := by
  have hn : '.' ∉ fmtNat n := fmtNat_not_mem (by decide)
  simp [keyPrefix, splitOn_append ha, splitOn_of_not_mem hn]

/-- What one nested bucket holds: the records that were put into it. -/
structure Holds (b : Bkt) (xs : List (Str × Nat)) : Prop where
  keys : ∀ e ∈ b.data.entries, ∃ a i, '.' ∉ a ∧ e.1 = a ++ '.' :: fmtNat i ∧ i ≤ b.seq
  recs : (b.data.entries.map fun e => (keyPrefix e.1, e.2)).Perm xs

theorem Holds.empty : Holds ⟨0, KMap.empty⟩ [] :=
  ⟨fun e h => by simp [KMap.empty] at h, by simp [KMap.empty]⟩

theorem Holds.insert {b : Bkt} {xs : List (Str × Nat)} (h : Holds b xs) {a : Str} (ha : '.' ∉ a)
    (c : Nat) : Holds ⟨b.seq + 1, b.data.put (a ++ '.' :: fmtNat (b.seq + 1)) c⟩ (xs ++ [(a, c)]) := by
  have hp : (b.data.put (a ++ '.' :: fmtNat (b.seq + 1)) c).entries.Perm
      ((a ++ '.' :: fmtNat (b.seq + 1), c) :: b.data.entries) := by
    apply rawPut_perm
    intro e he hc
    obtain ⟨a', i, ha', hk, hi⟩ := h.keys e he
    rw [hk] at hc
    have hcut := congrArg (cutOn '.') hc
    rw [cutOn_append ha', cutOn_append ha] at hcut
    simp only [Option.some.injEq, Prod.mk.injEq] at hcut
    have := fmtNat_inj hcut.2
    omega
  constructor
  · intro e he
    rcases List.mem_cons.1 (hp.mem_iff.1 he) with rfl | he
    · exact ⟨a, b.seq + 1, ha, rfl, Nat.le_refl _⟩
    · obtain ⟨a', i, h1, h2, h3⟩ := h.keys e he
      exact ⟨a', i, h1, h2, Nat.le_succ_of_le h3⟩
  · refine (hp.map _).trans ?_
    simp only [List.map_cons, keyPrefix_key ha]
    exact (h.recs.cons _).trans (List.perm_append_comm (l₁ := [(a, c)]))

/-- What a root bucket holds after a list of (outer, inner, cost): for every outer name its
records, and no bucket for other names. -/
def FamHolds (f : Fam) (xs : List (Str × Str × Nat)) : Prop :=
  ∀ o, match f.get o with
    | some b => Holds b ((xs.filter fun x => x.1 = o).map fun x => x.2) ∧ ∃ x ∈ xs, x.1 = o
    | none => ∀ x ∈ xs, x.1 ≠ o

theorem FamHolds.insert {f : Fam} {xs : List (Str × Str × Nat)} (h : FamHolds f xs)
    {outer inner : Str} (hi : '.' ∉ inner) (c : Nat) :
    FamHolds (insert f outer inner c) (xs ++ [(outer, inner, c)]) := by
  intro o
  simp only [Perf.insert, KMap.get_put]
  by_cases ho : o = outer
  · subst ho
    simp only [if_true]
    have hh := h o
    refine ⟨?_, (o, inner, c), by simp, rfl⟩
    simp only [bucketOf]
    cases hg : f.get o with
    | none =>
      rw [hg] at hh
      have hnil : (xs.filter fun x => x.1 = o) = [] := by
        rw [List.filter_eq_nil_iff]
        intro x hx
        simpa using hh x hx
      have := Holds.empty.insert hi c
      simpa [hnil] using this
    | some b =>
      rw [hg] at hh
      have := hh.1.insert hi c
      simpa using this
  · simp only [if_neg ho]
    have hh := h o
    have hne : outer ≠ o := Ne.symm ho
    cases hg : f.get o with
    | none =>
      rw [hg] at hh
      simp only at hh ⊢
      intro x hx
      rcases List.mem_append.1 hx with hx | hx
      · exact hh x hx
      · simp only [List.mem_cons, List.not_mem_nil, or_false] at hx
        rw [hx]; exact hne
    | some b =>
      rw [hg] at hh
      simp only at hh ⊢
      refine ⟨by simpa [hne] using hh.1, ?_⟩
      obtain ⟨x, hx, he⟩ := hh.2
      exact ⟨x, List.mem_append_left _ hx, he⟩

/-- The two tables after a history. -/
theorem put_holds (rs : List Rec) : ∀ (hist : List Rec) (d : Db), (∀ r ∈ rs, r.Plain) →
    FamHolds d.acts (hist.map fun r => (r.action, r.kind, r.cost)) →
    FamHolds d.kinds (hist.map fun r => (r.kind, r.action, r.cost)) →
    FamHolds (put d rs).acts ((hist ++ rs).map fun r => (r.action, r.kind, r.cost)) ∧
    FamHolds (put d rs).kinds ((hist ++ rs).map fun r => (r.kind, r.action, r.cost)) := by
  induction rs with
  | nil => intro hist d _ h1 h2; simpa [put] using ⟨h1, h2⟩
  | cons r rs ih =>
    intro hist d hp h1 h2
    have hr := hp r List.mem_cons_self
    have := ih (hist ++ [r]) (put1 d r) (fun x hx => hp x (List.mem_cons_of_mem _ hx))
      (by simpa [put1] using h1.insert (outer := r.action) hr.2.1 r.cost)
      (by simpa [put1] using h2.insert (outer := r.kind) hr.2.2.2 r.cost)
    simpa [put] using this

theorem init_holds : FamHolds Db.init.acts [] ∧ FamHolds Db.init.kinds [] := by
  constructor <;> · intro o; simp [Db.init]

theorem puts_holds (hist : List Rec) (hp : ∀ r ∈ hist, r.Plain) :
    FamHolds (put Db.init hist).acts (hist.map fun r => (r.action, r.kind, r.cost)) ∧
    FamHolds (put Db.init hist).kinds (hist.map fun r => (r.kind, r.action, r.cost)) := by
  simpa using put_holds hist [] Db.init hp init_holds.1 init_holds.2

/-! ### The properties -/

/-- The property in full: `Get` answers with exactly the records put that meet the conditions
(in any order), and with an error only when there is none. -/
def C70_statement : Prop :=
  ∀ (hist : List Rec) (kind action : Str), (∀ r ∈ hist, r.Plain) →
    match getRecs (put Db.init hist) kind action with
    | some rs => rs.Perm (hist.filter (wanted kind action))
    | none => hist.filter (wanted kind action) = []

theorem filter_fam (hist : List Rec) (f : Rec → Str) (g : Rec → Str) (o : Str) :
    (((hist.map fun r => (f r, g r, r.cost)).filter fun x => x.1 = o).map fun x => x.2) =
      (hist.filter fun r => f r = o).map fun r => (g r, r.cost) := by
  induction hist with
  | nil => rfl
  | cons r hist ih =>
    by_cases h : f r = o <;> simp_all

/-- Asked by action alone. -/
theorem C70_by_action (hist : List Rec) (action : Str) (ha : action ≠ []) (hp : ∀ r ∈ hist, r.Plain) :
    match getRecs (put Db.init hist) [] action with
    | some rs => rs.Perm (hist.filter (wanted [] action))
    | none => hist.filter (wanted [] action) = [] := by
  have h := (puts_holds hist hp).1 action
  simp only [getRecs, if_true, getAction, if_neg ha]
  cases hg : (put Db.init hist).acts.get action with
  | none =>
    rw [hg] at h
    simp only at h ⊢
    rw [List.filter_eq_nil_iff]
    intro r hr
    have := h (r.action, r.kind, r.cost) (List.mem_map.2 ⟨r, hr, rfl⟩)
    simp only [ne_eq] at this
    simp [wanted, ha, this]
  | some b =>
    rw [hg] at h
    simp only at h ⊢
    have h1 := h.1.recs
    rw [filter_fam hist Rec.action Rec.kind action] at h1
    have h2 := h1.map fun x : Str × Nat => (⟨x.1, action, x.2⟩ : Rec)
    simp only [List.map_map] at h2
    refine h2.trans ?_
    apply List.Perm.of_eq
    rw [show wanted [] action = fun r => decide (r.action = action) from by
      funext r; simp [wanted, ha]]
    conv => rhs; rw [← List.map_id (hist.filter _)]
    apply List.map_congr_left
    intro r hr
    have := (List.mem_filter.1 hr).2
    simp only [decide_eq_true_eq] at this
    simp [← this]

/-- Asked by kind alone. -/
theorem C70_by_kind (hist : List Rec) (kind : Str) (hk : kind ≠ []) (hp : ∀ r ∈ hist, r.Plain) :
    match getRecs (put Db.init hist) kind [] with
    | some rs => rs.Perm (hist.filter (wanted kind []))
    | none => hist.filter (wanted kind []) = [] := by
  have h := (puts_holds hist hp).2 kind
  simp only [getRecs, if_neg hk, getKind]
  cases hg : (put Db.init hist).kinds.get kind with
  | none =>
    rw [hg] at h
    simp only at h ⊢
    rw [List.filter_eq_nil_iff]
    intro r hr
    have := h (r.kind, r.action, r.cost) (List.mem_map.2 ⟨r, hr, rfl⟩)
    simp only [ne_eq] at this
    simp [wanted, hk, this]
  | some b =>
    rw [hg] at h
    simp only [if_true] at h ⊢
    have h1 := h.1.recs
    rw [filter_fam hist Rec.kind Rec.action kind] at h1
    have h2 := h1.map fun x : Str × Nat => (⟨kind, x.1, x.2⟩ : Rec)
    simp only [List.map_map] at h2
    refine h2.trans ?_
    apply List.Perm.of_eq
    rw [show wanted kind [] = fun r => decide (r.kind = kind) from by
      funext r; simp [wanted, hk]]
    conv => rhs; rw [← List.map_id (hist.filter _)]
    apply List.map_congr_left
    intro r hr
    have := (List.mem_filter.1 hr).2
    simp only [decide_eq_true_eq] at this
    simp [← this]

/-- On a sorted list, the part from a prefix on that keeps it is the part with that prefix, when
no key lies between the bare name and `name.`. -/
theorem takeWhile_filter (l : List (Str × Nat)) (action : Str)
    (hs : l.Pairwise fun a b => strLt a.1 b.1 = true)
    (hk : ∀ e ∈ l, ∃ a i, '.' ∉ a ∧ e.1 = a ++ '.' :: fmtNat i)
    (hlow : ∀ e ∈ l, strLt e.1 action = false)
    (hno : ∀ e ∈ l, hasPrefix e.1 action = true → keyPrefix e.1 = action) :
    l.takeWhile (fun e => decide (keyPrefix e.1 = action)) =
      l.filter fun e => decide (keyPrefix e.1 = action) := by
  induction l with
  | nil => rfl
  | cons e l ih =>
    have hs' := List.pairwise_cons.1 hs
    by_cases he : keyPrefix e.1 = action
    · simp only [List.takeWhile_cons, he, decide_true, if_true, List.filter_cons]
      rw [ih hs'.2 (fun x hx => hk x (List.mem_cons_of_mem _ hx))
        (fun x hx => hlow x (List.mem_cons_of_mem _ hx))
        (fun x hx => hno x (List.mem_cons_of_mem _ hx))]
    · simp only [List.takeWhile_cons, he, decide_false, List.filter_cons, Bool.false_eq_true, if_false]
      symm
      rw [List.filter_eq_nil_iff]
      intro x hx
      simp only [decide_eq_true_eq]
      intro hc
      have hne : hasPrefix e.1 action = false := by
        cases h : hasPrefix e.1 action with
        | false => rfl
        | true => exact absurd (hno e List.mem_cons_self h) he
      have hpx : hasPrefix x.1 action = true := by
        obtain ⟨a, i, ha, hka⟩ := hk x (List.mem_cons_of_mem _ hx)
        rw [hka, keyPrefix_key ha] at hc
        rw [hasPrefix_iff]
        exact ⟨'.' :: fmtNat i, by rw [hka, hc]⟩
      have hlt := hs'.1 x hx
      have := no_prefix_after (hlow e List.mem_cons_self) hne hlt
      rw [hpx] at this
      cases this

/-- Asked by both: exact when no recorded action starts with the one asked for.  Missing for the
full property: other actions (see `C70_both_misses`). -/
theorem C70_both_partial (hist : List Rec) (kind action : Str) (hk : kind ≠ []) (ha : action ≠ [])
    (hp : ∀ r ∈ hist, r.Plain)
    (hno : ∀ r ∈ hist, hasPrefix r.action action = true → r.action = action)
    (hdot : '.' ∉ action) :
    match getRecs (put Db.init hist) kind action with
    | some rs => rs.Perm (hist.filter (wanted kind action))
    | none => hist.filter (wanted kind action) = [] := by
  have h := (puts_holds hist hp).2 kind
  simp only [getRecs, if_neg hk, getKind]
  cases hg : (put Db.init hist).kinds.get kind with
  | none =>
    rw [hg] at h
    simp only at h ⊢
    rw [List.filter_eq_nil_iff]
    intro r hr
    have := h (r.kind, r.action, r.cost) (List.mem_map.2 ⟨r, hr, rfl⟩)
    simp only [ne_eq] at this
    simp [wanted, hk, this]
  | some b =>
    rw [hg] at h
    simp only [if_neg ha] at h ⊢
    have hrecs := h.1.recs
    rw [filter_fam hist Rec.kind Rec.action kind] at hrecs
    -- every key in the bucket comes from a record
    have hkeys : ∀ e ∈ b.data.entries, ∃ r ∈ hist, r.kind = kind ∧ keyPrefix e.1 = r.action := by
      intro e he
      have : (keyPrefix e.1, e.2) ∈ (hist.filter fun r => r.kind = kind).map fun r => (r.action, r.cost) :=
        hrecs.mem_iff.1 (List.mem_map.2 ⟨e, he, rfl⟩)
      obtain ⟨r, hr, heq⟩ := List.mem_map.1 this
      obtain ⟨hr1, hr2⟩ := List.mem_filter.1 hr
      simp only [Prod.mk.injEq] at heq
      exact ⟨r, hr1, by simpa using hr2, heq.1.symm⟩
    have hprefix : ∀ e ∈ b.data.entries, hasPrefix e.1 action = true → keyPrefix e.1 = action := by
      intro e he hpre
      obtain ⟨a, i, hda, hka, -⟩ := h.1.keys e he
      obtain ⟨r, hr, -, hra⟩ := hkeys e he
      have hae : a = r.action := by rw [← hra, hka, keyPrefix_key hda]
      rw [hka, keyPrefix_key hda]
      -- the prefix has no dot, so it lies inside of the action
      have hpa : hasPrefix a action = true := by
        rw [hka] at hpre
        rw [hasPrefix_iff] at hpre ⊢
        obtain ⟨t, ht⟩ := hpre
        clear hka hae hda
        revert ht hdot
        generalize fmtNat i = y
        intro hdot ht
        clear hno ha
        induction action generalizing a with
        | nil => exact ⟨a, rfl⟩
        | cons c cs ih =>
          cases a with
          | nil =>
            simp only [List.nil_append, List.cons_append, List.cons.injEq] at ht
            exact absurd (by rw [ht.1]; exact List.mem_cons_self) hdot
          | cons d ds =>
            simp only [List.cons_append, List.cons.injEq] at ht
            obtain ⟨t', h'⟩ := ih ds (fun hm => hdot (List.mem_cons_of_mem _ hm)) ht.2
            exact ⟨t', by rw [h', ht.1]; rfl⟩
      rw [hae] at hpa ⊢
      exact hno r hr hpa
    have hsub := b.data.seek_sublist action
    have htw := takeWhile_filter (b.data.seek action) action (b.data.sorted.sublist hsub)
      (fun e he => by
        obtain ⟨a, i, h1, h2, -⟩ := h.1.keys e (hsub.subset he)
        exact ⟨a, i, h1, h2⟩)
      (fun e he => ((b.data.mem_seek_iff action e).1 he).2)
      (fun e he => hprefix e (hsub.subset he))
    rw [htw]
    have hfil : (b.data.seek action).filter (fun e => decide (keyPrefix e.1 = action)) =
        b.data.entries.filter fun e => decide (keyPrefix e.1 = action) := by
      rw [KMap.seek_eq_filter, List.filter_filter]
      apply List.filter_congr
      intro e he
      by_cases hq : keyPrefix e.1 = action
      · obtain ⟨a, i, h1, h2, -⟩ := h.1.keys e he
        have hpe : a = action := by rw [← hq, h2, keyPrefix_key h1]
        have : strLt e.1 action = false := by
          rw [h2, hpe]
          exact not_lt_of_hasPrefix action _
        simp [hq, this]
      · simp [hq]
    rw [hfil]
    have h3 := (hrecs.filter fun x => decide (x.1 = action)).map
      fun x : Str × Nat => (⟨kind, x.1, x.2⟩ : Rec)
    rw [List.filter_map, List.map_map, List.filter_map, List.map_map] at h3
    refine (List.Perm.of_eq ?_).trans (h3.trans (List.Perm.of_eq ?_))
    · rfl
    · rw [List.filter_filter]
      have hw : wanted kind action = fun r => decide (r.action = action) && decide (r.kind = kind) := by
        funext r
        simp [wanted, hk, ha, Bool.and_comm]
      rw [hw]
      conv => rhs; rw [← List.map_id (hist.filter _)]
      apply List.map_congr_left
      intro r hr
      have := (List.mem_filter.1 hr).2
      simp only [Bool.and_eq_true, decide_eq_true_eq] at this
      simp [← this.2]

/-- Some records of the two kinds and actions in use. -/
def demo : List Rec :=
  [⟨"http".toList, "read".toList, 5⟩, ⟨"grpc".toList, "write".toList, 7⟩,
   ⟨"http".toList, "write".toList, 3⟩, ⟨"http".toList, "read".toList, 9⟩]

example : (∀ r ∈ demo, r.kind ≠ [] ∧ '.' ∉ r.kind ∧ r.action ≠ [] ∧ '.' ∉ r.action) ∧
    (∀ r ∈ demo, hasPrefix r.action "read".toList = true → r.action = "read".toList) := by decide
example : getRecs (put Db.init demo) "http".toList "read".toList =
    some [⟨"http".toList, "read".toList, 5⟩, ⟨"http".toList, "read".toList, 9⟩] := by decide

/-- FINDING.  Without conditions, the records come back with their key in place of the action. -/
theorem C70_all_garbled :
    getRecs (put Db.init demo) [] [] =
      some [⟨"http".toList, "http.1".toList, 5⟩, ⟨"http".toList, "http.2".toList, 9⟩,
        ⟨"grpc".toList, "grpc.1".toList, 7⟩, ⟨"http".toList, "http.2".toList, 3⟩] := by decide

/-- FINDING.  The scan starts at the bare name of the action: an action that continues it with a
character below `.` hides all records asked for. -/
theorem C70_both_misses :
    getRecs (put Db.init [⟨"http".toList, "read".toList, 5⟩, ⟨"http".toList, "read-all".toList, 7⟩])
      "http".toList "read".toList = some [] := by decide

theorem C70_statement_fails : ¬ C70_statement := by
  intro h
  have := h demo [] [] (by
    have : ∀ r ∈ demo, r.kind ≠ [] ∧ '.' ∉ r.kind ∧ r.action ≠ [] ∧ '.' ∉ r.action := by decide
    exact this)
  rw [C70_all_garbled] at this
  have hm := (this.mem_iff (a := ⟨"http".toList, "http.1".toList, 5⟩)).1 (by decide)
  revert hm
  decide

/-! ### Sizes -/

/-- `Size` with one condition counts the records that meet it. -/
theorem C70_size (hist : List Rec) (kind action : Str) (hp : ∀ r ∈ hist, r.Plain)
    (h1 : (kind = [] ∧ action ≠ []) ∨ (kind ≠ [] ∧ action = [])) :
    size (put Db.init hist) kind action = (hist.filter (wanted kind action)).length := by
  rcases h1 with ⟨rfl, ha⟩ | ⟨hk, rfl⟩
  · have h := C70_by_action hist action ha hp
    simp only [getRecs, if_true, getAction, if_neg ha] at h
    simp only [size, if_true, if_neg ha]
    cases hg : (put Db.init hist).acts.get action with
    | none => rw [hg] at h; simp only at h ⊢; rw [h]; rfl
    | some b =>
      rw [hg] at h
      simp only at h ⊢
      rw [← h.length_eq, List.length_map]
      rfl
  · have h := C70_by_kind hist kind hk hp
    simp only [getRecs, if_neg hk, getKind, if_true] at h
    simp only [size, if_neg hk, if_true]
    cases hg : (put Db.init hist).kinds.get kind with
    | none => rw [hg] at h; simp only at h ⊢; rw [h]; rfl
    | some b =>
      rw [hg] at h
      simp only at h ⊢
      rw [← h.length_eq, List.length_map]
      rfl

theorem sum_indicator (K : List Str) (hn : K.Nodup) (o : Str) (ho : o ∈ K) :
    (K.map fun k => if o = k then 1 else 0).sum = 1 := by
  induction K with
  | nil => simp at ho
  | cons k K ih =>
    simp only [List.nodup_cons] at hn
    simp only [List.map_cons, List.sum_cons]
    by_cases hk : o = k
    · subst hk
      have : K.map (fun k => if o = k then 1 else 0) = K.map fun _ => 0 := by
        apply List.map_congr_left
        intro k hk
        rw [if_neg]
        rintro rfl
        exact hn.1 hk
      rw [this]
      have h0 : ∀ L : List Str, (L.map fun _ => 0).sum = 0 := by
        intro L; induction L with
        | nil => rfl
        | cons _ _ ih => simp [ih]
      simp [h0]
    · rcases List.mem_cons.1 ho with rfl | ho
      · exact absurd rfl hk
      · simp [hk, ih hn.2 ho]

theorem sum_add (K : List Str) (f g : Str → Nat) :
    (K.map fun k => f k + g k).sum = (K.map f).sum + (K.map g).sum := by
  induction K with
  | nil => rfl
  | cons k K ih => simp [ih]; omega

theorem sum_counts {β : Type} (K : List Str) (hn : K.Nodup) (xs : List (Str × β))
    (h : ∀ x ∈ xs, x.1 ∈ K) : (K.map fun k => (xs.filter fun x => x.1 = k).length).sum = xs.length := by
  induction xs with
  | nil =>
    have h0 : ∀ L : List Str, (L.map fun _ => 0).sum = 0 := by
      intro L; induction L with
      | nil => rfl
      | cons _ _ ih => simp [ih]
    simp [h0]
  | cons x xs ih =>
    have h1 := ih fun x hx => h x (List.mem_cons_of_mem _ hx)
    have h2 := sum_indicator K hn x.1 (h x List.mem_cons_self)
    have : (K.map fun k => ((x :: xs).filter fun x => x.1 = k).length) =
        K.map fun k => (if x.1 = k then 1 else 0) + (xs.filter fun x => x.1 = k).length := by
      apply List.map_congr_left
      intro k _
      by_cases hk : x.1 = k
      · simp [hk]; omega
      · simp [hk]
    rw [this, sum_add, h1, h2, List.length_cons]
    omega

/-- `Size` without conditions counts all records. -/
theorem C70_size_all (hist : List Rec) (hp : ∀ r ∈ hist, r.Plain) :
    size (put Db.init hist) [] [] = hist.length := by
  have h := (puts_holds hist hp).1
  simp only [size, if_true]
  generalize (put Db.init hist).acts = f at h
  have h1 : (f.entries.map fun o => o.2.data.size) =
      f.keys.map fun k => ((hist.map fun r => (r.action, r.kind, r.cost)).filter fun x => x.1 = k).length := by
    simp only [KMap.keys, List.map_map]
    apply List.map_congr_left
    rintro ⟨k, b⟩ he
    have hg := (f.mem_iff_get k b).1 he
    have := h k
    rw [hg] at this
    have hl := this.1.recs.length_eq
    simpa [KMap.size] using hl
  rw [h1, sum_counts f.keys f.keys_nodup]
  · simp
  · intro x hx
    rw [KMap.mem_keys_iff]
    have := h x.1
    cases hg : f.get x.1 with
    | some b => rfl
    | none => rw [hg] at this; exact absurd rfl (this x hx)

example : size (put Db.init demo) [] [] = 4 ∧ size (put Db.init demo) "http".toList [] = 3 ∧
    size (put Db.init demo) [] "write".toList = 2 := by decide

/-! ### Averages and sums -/

/-- The key of a group: `kind.action`; store.go:101, 125. -/
def groupKey (r : Rec) : Str := r.kind ++ '.' :: r.action

/-- The maps `totalMap` and `sizeMap`; store.go:98-104. -/
def groups (data : List Rec) : KMap (Nat × Nat) :=
  data.foldl (fun m r =>
    let cur := (m.get (groupKey r)).getD (0, 0)
    m.put (groupKey r) (cur.1 + r.cost, cur.2 + 1)) KMap.empty

/-- The first two parts of a split key; store.go:107-108 (a key has at least one dot, so the
second exists). -/
def splitKey (k : Str) : Str × Str :=
  match splitOn '.' k with
  | a :: b :: _ => (a, b)
  | _ => ([], [])

/-- `Average` over the records of `Get`, walking the map in any order; store.go:93-116. -/
def averages (walk : List (Str × (Nat × Nat))) : List Rec :=
  walk.map fun e => ⟨(splitKey e.1).1, (splitKey e.1).2, e.2.1 / e.2.2⟩

/-- `Sum`; store.go:118-139. -/
def sums (walk : List (Str × (Nat × Nat))) : List Rec :=
  walk.map fun e => ⟨(splitKey e.1).1, (splitKey e.1).2, e.2.1⟩

/-- Specification: the costs of the records of a kind and action. -/
def costs (data : List Rec) (kind action : Str) : List Nat :=
  (data.filter fun r => r.kind = kind && r.action = action).map (·.cost)

theorem groups_get (data : List Rec) (k : Str) :
    (groups data).get k =
      if (data.filter fun r => groupKey r = k) = [] then none
      else some (((data.filter fun r => groupKey r = k).map (·.cost)).sum,
        (data.filter fun r => groupKey r = k).length) := by
  have key : ∀ (data seen : List Rec) (m : KMap (Nat × Nat)),
      (∀ k, m.get k = if (seen.filter fun r => groupKey r = k) = [] then none
        else some (((seen.filter fun r => groupKey r = k).map (·.cost)).sum,
          (seen.filter fun r => groupKey r = k).length)) →
      ∀ k, (data.foldl (fun m r =>
        let cur := (m.get (groupKey r)).getD (0, 0)
        m.put (groupKey r) (cur.1 + r.cost, cur.2 + 1)) m).get k =
        if ((seen ++ data).filter fun r => groupKey r = k) = [] then none
        else some ((((seen ++ data).filter fun r => groupKey r = k).map (·.cost)).sum,
          ((seen ++ data).filter fun r => groupKey r = k).length) := by
    intro data
    induction data with
    | nil => intro seen m h k; simpa using h k
    | cons r data ih =>
      intro seen m h k
      simp only [List.foldl_cons]
      have := ih (seen ++ [r]) _ (fun k => by
        show (m.put (groupKey r) (((m.get (groupKey r)).getD (0, 0)).1 + r.cost,
          ((m.get (groupKey r)).getD (0, 0)).2 + 1)).get k = _
        rw [KMap.get_put]
        by_cases hk : k = groupKey r
        · subst hk
          rw [if_pos rfl, h (groupKey r)]
          by_cases hnil : (seen.filter fun x => groupKey x = groupKey r) = []
          · simp [hnil]
          · simp [hnil, List.sum_append]
        · have hk' : ¬ groupKey r = k := Ne.symm hk
          rw [if_neg hk, h k]
          simp [hk']) k
      simpa using this
  have := key data [] KMap.empty (by simp) k
  simpa [groups] using this

theorem groupKey_iff {r r' : Rec} (h : '.' ∉ r.kind) (h' : '.' ∉ r'.kind) :
    groupKey r = groupKey r' ↔ r.kind = r'.kind ∧ r.action = r'.action := by
  constructor
  · intro he
    have := congrArg (cutOn '.') he
    simp only [groupKey, cutOn_append h, cutOn_append h', Option.some.injEq, Prod.mk.injEq] at this
    exact this
  · rintro ⟨h1, h2⟩
    simp [groupKey, h1, h2]

theorem splitKey_group {r : Rec} (h : '.' ∉ r.kind) (ha : '.' ∉ r.action) :
    splitKey (groupKey r) = (r.kind, r.action) := by
  simp [splitKey, groupKey, splitOn_append h, splitOn_of_not_mem ha]

theorem group_filter {data : List Rec} (hp : ∀ r ∈ data, r.Plain) {r : Rec} (hr : r.Plain) :
    (data.filter fun x => groupKey x = groupKey r) =
      data.filter fun x => x.kind = r.kind && x.action = r.action := by
  apply List.filter_congr
  intro x hx
  have := groupKey_iff (hp x hx).2.1 hr.2.1
  by_cases h : groupKey x = groupKey r
  · have h' := this.1 h
    simp [h, h'.1, h'.2]
  · have h' : ¬ (x.kind = r.kind ∧ x.action = r.action) := fun hc => h (this.2 hc)
    simp [h]
    intro hk ha
    exact h' ⟨hk, ha⟩

theorem results (f : Nat × Nat → Nat) (data : List Rec) (hp : ∀ r ∈ data, r.Plain)
    (walk : List (Str × (Nat × Nat))) (hw : walk.Perm (groups data).entries) (k a : Str) (c : Nat) :
    (⟨k, a, c⟩ : Rec) ∈ walk.map (fun e => ⟨(splitKey e.1).1, (splitKey e.1).2, f e.2⟩) ↔
      costs data k a ≠ [] ∧ c = f ((costs data k a).sum, (costs data k a).length) := by
  constructor
  · intro h
    obtain ⟨⟨key, v⟩, he, heq⟩ := List.mem_map.1 h
    have hg := ((groups data).mem_iff_get key v).1 (hw.mem_iff.1 he)
    rw [groups_get] at hg
    split at hg
    · cases hg
    · rename_i hne
      cases hf : (data.filter fun r => groupKey r = key) with
      | nil => exact absurd hf hne
      | cons r rest =>
        have hmem : r ∈ data.filter fun r => groupKey r = key := by rw [hf]; exact List.mem_cons_self
        obtain ⟨hrd, hrk⟩ := List.mem_filter.1 hmem
        simp only [decide_eq_true_eq] at hrk
        have hr := hp r hrd
        have hs := splitKey_group hr.2.1 hr.2.2.2
        rw [hrk] at hs
        simp only [hs, Rec.mk.injEq] at heq
        obtain ⟨h1, h2, h3⟩ := heq
        have hfil : (data.filter fun x => groupKey x = key) =
            data.filter fun x => x.kind = k && x.action = a := by
          rw [← hrk, group_filter hp hr, h1, h2]
        have hc : costs data k a = (data.filter fun r => groupKey r = key).map (·.cost) := by
          rw [costs, hfil]
        refine ⟨by rw [hc, hf]; simp, ?_⟩
        rw [hc]
        simp only [Option.some.injEq] at hg
        rw [← h3, ← hg]
        simp
  · rintro ⟨hne, hc⟩
    have : ∃ r ∈ data, r.kind = k ∧ r.action = a := by
      cases hf : (data.filter fun r => r.kind = k && r.action = a) with
      | nil => exact absurd (by simp [costs, hf]) hne
      | cons r rest =>
        have hm : r ∈ data.filter fun r => r.kind = k && r.action = a := by
          rw [hf]; exact List.mem_cons_self
        obtain ⟨h1, h2⟩ := List.mem_filter.1 hm
        simp only [Bool.and_eq_true, decide_eq_true_eq] at h2
        exact ⟨r, h1, h2⟩
    obtain ⟨r, hrd, hk, ha⟩ := this
    have hr := hp r hrd
    have hfil := group_filter hp hr
    rw [hk, ha] at hfil
    have hg := groups_get data (groupKey r)
    rw [if_neg (by rw [hfil]; intro hnil; exact hne (by simp [costs, hnil]))] at hg
    refine List.mem_map.2 ⟨(groupKey r, _), hw.mem_iff.2 (((groups data).mem_iff_get _ _).2 hg), ?_⟩
    simp only [splitKey_group hr.2.1 hr.2.2.2, hk, ha, hfil, hc]
    simp [costs]

/-- `Average` over plain records: one result for every kind and action that occurs, with the
rounded-down mean of its costs. -/
theorem C70_average (data : List Rec) (hp : ∀ r ∈ data, r.Plain)
    (walk : List (Str × (Nat × Nat))) (hw : walk.Perm (groups data).entries) (k a : Str) (c : Nat) :
    (⟨k, a, c⟩ : Rec) ∈ averages walk ↔
      costs data k a ≠ [] ∧ c = (costs data k a).sum / (costs data k a).length :=
  results (fun v => v.1 / v.2) data hp walk hw k a c

/-- `Sum`, in the same way. -/
theorem C70_sum (data : List Rec) (hp : ∀ r ∈ data, r.Plain)
    (walk : List (Str × (Nat × Nat))) (hw : walk.Perm (groups data).entries) (k a : Str) (c : Nat) :
    (⟨k, a, c⟩ : Rec) ∈ sums walk ↔ costs data k a ≠ [] ∧ c = (costs data k a).sum :=
  results (fun v => v.1) data hp walk hw k a c

/-- No kind and action appears twice in the result. -/
theorem C70_average_once (data : List Rec) (hp : ∀ r ∈ data, r.Plain)
    (walk : List (Str × (Nat × Nat))) (hw : walk.Perm (groups data).entries) :
    ((averages walk).map fun r => (r.kind, r.action)).Nodup := by
  have hn : (walk.map (·.1)).Nodup := (hw.map _).nodup_iff.2 (groups data).keys_nodup
  simp only [averages, List.map_map]
  have hinj : ∀ e ∈ walk, ∃ r ∈ data, groupKey r = e.1 := by
    intro e he
    have hg := ((groups data).mem_iff_get e.1 e.2).1 (hw.mem_iff.1 he)
    rw [groups_get] at hg
    split at hg
    · cases hg
    · rename_i hne
      cases hf : (data.filter fun r => groupKey r = e.1) with
      | nil => exact absurd hf hne
      | cons r rest =>
        have hm : r ∈ data.filter fun r => groupKey r = e.1 := by rw [hf]; exact List.mem_cons_self
        obtain ⟨h1, h2⟩ := List.mem_filter.1 hm
        exact ⟨r, h1, by simpa using h2⟩
  clear hw
  induction walk with
  | nil => simp
  | cons e walk ih =>
    simp only [List.map_cons, List.nodup_cons] at hn ⊢
    refine ⟨?_, ih hn.2 fun x hx => hinj x (List.mem_cons_of_mem _ hx)⟩
    intro hm
    obtain ⟨x, hx, heq⟩ := List.mem_map.1 hm
    obtain ⟨r, hr, hre⟩ := hinj e List.mem_cons_self
    obtain ⟨r', hr', hre'⟩ := hinj x (List.mem_cons_of_mem _ hx)
    simp only [Function.comp, ← hre, ← hre', splitKey_group (hp r hr).2.1 (hp r hr).2.2.2,
      splitKey_group (hp r' hr').2.1 (hp r' hr').2.2.2, Prod.mk.injEq] at heq
    apply hn.1
    refine List.mem_map.2 ⟨x, hx, ?_⟩
    rw [← hre, ← hre', groupKey_iff (hp r' hr').2.1 (hp r hr).2.1]
    exact heq

example : averages (groups demo).entries =
    [⟨"grpc".toList, "write".toList, 7⟩, ⟨"http".toList, "read".toList, 7⟩,
     ⟨"http".toList, "write".toList, 3⟩] := by decide

/-- FINDING.  `Average("", "")` works on the garbled records: the kind in place of the action,
and records of different actions in one mean (6 is the mean of a read and a write). -/
theorem C70_average_all_garbled :
    ((getRecs (put Db.init demo) [] []).map fun rs => averages (groups rs).entries) =
      some [⟨"grpc".toList, "grpc".toList, 7⟩, ⟨"http".toList, "http".toList, 5⟩,
        ⟨"http".toList, "http".toList, 6⟩] := by decide

/-! ### Clearing -/

/-- `Clear(kind, "")`: bbolt's `Delete` refuses a key that is a nested bucket
(`ErrIncompatibleValue`), and the transaction is rolled back; local_store.go:256-272.  For a kind
that has no bucket, the keys of the action buckets that start with it are deleted (204-229),
modelled as the removal of all of them
(a cursor that goes on after a deletion may leave some). -/
def clearKind (d : Db) (kind : Str) : Option Db :=
  match d.kinds.get kind with
  | some _ => none
  | none =>
    some { d with acts := ⟨d.acts.entries.map fun o => (o.1, ⟨o.2.seq,
      ⟨o.2.data.entries.filter fun e => !hasPrefix e.1 kind,
        o.2.data.sorted.sublist List.filter_sublist⟩⟩),
      List.pairwise_map.2 d.acts.sorted⟩ }

/-- FINDING.  Clearing a kind fails exactly when there is something to clear. -/
theorem C70_clear_fails (hist : List Rec) (kind : Str) (hp : ∀ r ∈ hist, r.Plain) :
    clearKind (put Db.init hist) kind = none ↔ ∃ r ∈ hist, r.kind = kind := by
  have h := (puts_holds hist hp).2 kind
  simp only [clearKind]
  cases hg : (put Db.init hist).kinds.get kind with
  | some b =>
    rw [hg] at h
    simp only at h ⊢
    obtain ⟨x, hx, he⟩ := h.2
    obtain ⟨r, hr, rfl⟩ := List.mem_map.1 hx
    simp only [true_iff]
    exact ⟨r, hr, he⟩
  | none =>
    rw [hg] at h
    simp only at h ⊢
    simp only [reduceCtorEq, false_iff, not_exists, not_and]
    intro r hr hk
    exact h (r.kind, r.action, r.cost) (List.mem_map.2 ⟨r, hr, rfl⟩) hk

/-- FINDING.  Clearing a kind that does not occur removes the records of the kinds that start
with it from one of the two tables: reads by action and by kind disagree from then on. -/
theorem C70_clear_prefix :
    (clearKind (put Db.init demo) "ht".toList).map (fun d =>
      (getRecs d [] "read".toList, (getRecs d "http".toList []).map List.length)) =
      some (some [], some 3) := by decide

end Verif.Perf
