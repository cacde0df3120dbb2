import Verif.Perf.Clear
import Verif.Common.Lists

/-! # Removing performance records: properties (C112) -/

namespace Verif.Perf.Clear

open KMap

/-! ### Lemmas -/

/-- A prefix without the separator lies before it. -/
theorem hasPrefix_sep {c : Char} {p : Str} (hp : c ∉ p) (a y : Str) :
    hasPrefix (a ++ c :: y) p = hasPrefix a p := by
  induction p generalizing a with
  | nil => simp [hasPrefix]
  | cons d ds ih =>
    have hd : c ∉ ds := fun h => hp (List.mem_cons_of_mem _ h)
    have hne : c ≠ d := fun h => hp (by rw [h]; exact List.mem_cons_self)
    cases a with
    | nil => simp [hasPrefix, List.isPrefixOf, Ne.symm hne]
    | cons b bs =>
      have := ih hd bs
      simp only [hasPrefix] at this
      simp [hasPrefix, List.isPrefixOf, this]

theorem hasPrefix_refl (a : Str) : hasPrefix a a = true := by
  rw [hasPrefix_iff]; exact ⟨[], by simp⟩

/-- What a root bucket holds: for every outer name its records (no bucket counts as an empty one). -/
def Fits (f : Fam) (xs : List (Str × Str × Nat)) : Prop :=
  ∀ o, Holds (bucketOf f o) ((xs.filter fun x => x.1 = o).map fun x => x.2)

theorem Fits.insert {f : Fam} {xs : List (Str × Str × Nat)} (h : Fits f xs) {outer inner : Str}
    (hi : '.' ∉ inner) (c : Nat) : Fits (insert f outer inner c) (xs ++ [(outer, inner, c)]) := by
  intro o
  by_cases ho : o = outer
  · subst ho
    have h1 := (h o).insert hi c
    simpa [Perf.insert, bucketOf, KMap.get_put] using h1
  · have h1 := h o
    have hne : outer ≠ o := Ne.symm ho
    simpa [Perf.insert, bucketOf, KMap.get_put, ho, hne] using h1

theorem wipe_exact (m : KMap Nat) (p : Str) :
    (wipe exact m p).entries = m.entries.filter fun e => !hasPrefix e.1 p := by
  simp [wipe, exact]

theorem wipe_sublist (c : Cursor) (m : KMap Nat) (p : Str) : (wipe c m p).entries.Sublist m.entries :=
  List.filter_sublist

/-- Names read off the keys of a bucket belong to records. -/
theorem Holds.name {b : Bkt} {xs : List (Str × Nat)} (h : Holds b xs) {e : Str × Nat}
    (he : e ∈ b.data.entries) : ∃ x ∈ xs, keyPrefix e.1 = x.1 :=
  ⟨(keyPrefix e.1, e.2), h.recs.mem_iff.1 (List.mem_map.2 ⟨e, he, rfl⟩), rfl⟩

/-- Among the keys of a bucket, the prefix selects one name. -/
theorem Holds.prefix {b : Bkt} {xs : List (Str × Nat)} (h : Holds b xs) {p : Str} (hp : '.' ∉ p)
    (hx : ∀ x ∈ xs, hasPrefix x.1 p = true → x.1 = p) {e : Str × Nat} (he : e ∈ b.data.entries) :
    hasPrefix e.1 p = decide (keyPrefix e.1 = p) := by
  obtain ⟨a, i, ha, hk, -⟩ := h.keys e he
  obtain ⟨x, hm, hn⟩ := Holds.name h he
  rw [hk, keyPrefix_key ha] at hn
  rw [hk, keyPrefix_key ha, hasPrefix_sep hp]
  by_cases hq : a = p
  · subst hq; simp [hasPrefix_refl]
  · simp only [hq, decide_false]
    cases hc : hasPrefix a p with
    | false => rfl
    | true => exact absurd (hn.trans (hx x hm (by rw [← hn]; exact hc))) hq

theorem Holds.wipe {b : Bkt} {xs : List (Str × Nat)} (h : Holds b xs) {p : Str} (hp : '.' ∉ p)
    (hx : ∀ x ∈ xs, hasPrefix x.1 p = true → x.1 = p) :
    Holds ⟨b.seq, wipe exact b.data p⟩ (xs.filter fun x => !decide (x.1 = p)) := by
  constructor
  · intro e he
    exact h.keys e ((wipe_sublist _ _ _).subset he)
  · simp only [wipe_exact]
    have h1 := h.recs.filter fun x => !decide (x.1 = p)
    rw [List.filter_map] at h1
    refine (List.Perm.of_eq ?_).trans h1
    congr 1
    apply List.filter_congr
    intro e he
    simp [Holds.prefix h hp hx he]

theorem Fits.delNest {f : Fam} {xs : List (Str × Str × Nat)} (h : Fits f xs) {nest p : Str} (hp : '.' ∉ p)
    (hx : ∀ x ∈ xs, hasPrefix x.2.1 p = true → x.2.1 = p) :
    Fits (delNest exact f nest p) (xs.filter fun x => !(decide (x.1 = nest) && decide (x.2.1 = p))) := by
  intro o
  by_cases ho : o = nest
  · subst ho
    have h1 := Holds.wipe (h o) hp (by
      intro x hm
      obtain ⟨y, hy, rfl⟩ := List.mem_map.1 hm
      exact hx y (List.mem_filter.1 hy).1)
    have h2 : bucketOf (Clear.delNest exact f o p) o = ⟨(bucketOf f o).seq, Clear.wipe exact (bucketOf f o).data p⟩ := by
      simp [Clear.delNest, bucketOf]
    rw [h2]
    have h3 : (((xs.filter fun x => !(decide (x.1 = o) && decide (x.2.1 = p))).filter fun x => x.1 = o).map
        fun x => x.2) = (((xs.filter fun x => x.1 = o).map fun x => x.2).filter fun x => !decide (x.1 = p)) := by
      rw [List.filter_map, List.filter_filter, List.filter_filter]
      congr 1
      apply List.filter_congr
      intro x _
      by_cases h4 : x.1 = o <;> simp [h4]
    rw [h3]
    exact h1
  · have h2 : bucketOf (Clear.delNest exact f nest p) o = bucketOf f o := by
      simp [Clear.delNest, bucketOf, KMap.get_put, ho]
    rw [h2]
    have h3 : ((xs.filter fun x => !(decide (x.1 = nest) && decide (x.2.1 = p))).filter fun x => x.1 = o) =
        xs.filter fun x => x.1 = o := by
      rw [List.filter_filter]
      apply List.filter_congr
      intro x _
      by_cases h4 : x.1 = o
      · simp [h4, ho]
      · simp [h4]
    rw [h3]
    exact h o

/-- The two tables hold the records `kept`. -/
structure Keeps (d : Db) (kept : List Rec) : Prop where
  acts : Fits d.acts (kept.map fun r => (r.action, r.kind, r.cost))
  kinds : Fits d.kinds (kept.map fun r => (r.kind, r.action, r.cost))

theorem Keeps.init : Keeps Db.init [] := by
  constructor <;> · intro o; exact Holds.empty

theorem Keeps.put {d : Db} {kept : List Rec} (h : Keeps d kept) (rs : List Rec) (hp : ∀ r ∈ rs, r.Plain) :
    Keeps (put d rs) (kept ++ rs) := by
  induction rs generalizing d kept with
  | nil => simpa [Perf.put] using h
  | cons r rs ih =>
    have hr := hp r List.mem_cons_self
    have h1 : Keeps (put1 d r) (kept ++ [r]) :=
      ⟨by simpa [put1] using h.acts.insert (outer := r.action) hr.2.1 r.cost,
       by simpa [put1] using h.kinds.insert (outer := r.kind) hr.2.2.2 r.cost⟩
    have := ih h1 fun x hx => hp x (List.mem_cons_of_mem _ hx)
    simpa [Perf.put] using this

theorem filter_triples (kept : List Rec) (f g : Rec → Str) (a b : Str) :
    ((kept.map fun r => (f r, g r, r.cost)).filter fun x => !(decide (x.1 = a) && decide (x.2.1 = b))) =
      (kept.filter fun r => !(decide (f r = a) && decide (g r = b))).map fun r => (f r, g r, r.cost) := by
  rw [List.filter_map]; rfl

theorem Keeps.clear {d : Db} {kept : List Rec} (h : Keeps d kept) {kind action : Str}
    (hk : kind ≠ []) (ha : action ≠ []) (hdk : '.' ∉ kind) (hda : '.' ∉ action)
    (hK : ∀ r ∈ kept, hasPrefix r.kind kind = true → r.kind = kind)
    (hA : ∀ r ∈ kept, hasPrefix r.action action = true → r.action = action) :
    Keeps ⟨delNest exact d.acts action kind, delNest exact d.kinds kind action⟩
      (kept.filter fun r => !wanted kind action r) := by
  constructor
  · have h1 := h.acts.delNest (nest := action) hdk (by
      intro x hx
      obtain ⟨r, hr, rfl⟩ := List.mem_map.1 hx
      exact hK r hr)
    rw [filter_triples kept Rec.action Rec.kind] at h1
    have h2 : (fun r : Rec => !(decide (r.action = action) && decide (r.kind = kind))) =
        fun r => !wanted kind action r := by
      funext r; simp [wanted, hk, ha, Bool.or_comm]
    rw [h2] at h1
    exact h1
  · have h1 := h.kinds.delNest (nest := kind) hda (by
      intro x hx
      obtain ⟨r, hr, rfl⟩ := List.mem_map.1 hx
      exact hA r hr)
    rw [filter_triples kept Rec.kind Rec.action] at h1
    have h2 : (fun r : Rec => !(decide (r.kind = kind) && decide (r.action = action))) =
        fun r => !wanted kind action r := by
      funext r; simp [wanted, hk, ha]
    rw [h2] at h1
    exact h1

/-- With such a cursor, clearing by a kind alone is what `Verif.Perf.Store` has. -/
theorem clear_kind (d : Db) (kind : Str) : clear exact d kind [] = clearKind d kind := by
  simp only [clear, clearKind, if_true]
  cases d.kinds.get kind with
  | some b => rfl
  | none => simp [delAll, wipe, exact]

/-! ### Queries over what is kept -/

theorem bucketOf_some {f : Fam} {o : Str} {b : Bkt} (h : f.get o = some b) : bucketOf f o = b := by
  simp [bucketOf, h]

theorem bucketOf_none {f : Fam} {o : Str} (h : f.get o = none) : bucketOf f o = ⟨0, KMap.empty⟩ := by
  simp [bucketOf, h]

theorem Holds.nil {xs : List (Str × Nat)} (h : Holds ⟨0, KMap.empty⟩ xs) : xs = [] := by
  have := h.recs
  simpa [KMap.empty] using this.symm

theorem Keeps.by_action {d : Db} {kept : List Rec} (h : Keeps d kept) {action : Str} (ha : action ≠ []) :
    Answers (getRecs d [] action) kept [] action := by
  have hw : wanted [] action = fun r => decide (r.action = action) := by
    funext r; simp [wanted, ha]
  have h0 := h.acts action
  rw [filter_fam kept Rec.action Rec.kind action] at h0
  simp only [getRecs, if_true, getAction, if_neg ha, Answers, hw]
  cases hg : d.acts.get action with
  | none =>
    rw [bucketOf_none hg] at h0
    have := Holds.nil h0
    simpa using this
  | some b =>
    rw [bucketOf_some hg] at h0
    have h2 := h0.recs.map fun x : Str × Nat => (⟨x.1, action, x.2⟩ : Rec)
    simp only [List.map_map] at h2
    refine h2.trans (List.Perm.of_eq ?_)
    conv => rhs; rw [← List.map_id (kept.filter _)]
    apply List.map_congr_left
    intro r hr
    have := (List.mem_filter.1 hr).2
    simp only [decide_eq_true_eq] at this
    simp [← this]

theorem Keeps.by_kind {d : Db} {kept : List Rec} (h : Keeps d kept) {kind : Str} (hk : kind ≠ []) :
    Answers (getRecs d kind []) kept kind [] := by
  have hw : wanted kind [] = fun r => decide (r.kind = kind) := by
    funext r; simp [wanted, hk]
  have h0 := h.kinds kind
  rw [filter_fam kept Rec.kind Rec.action kind] at h0
  simp only [getRecs, if_neg hk, getKind, Answers, hw]
  cases hg : d.kinds.get kind with
  | none =>
    rw [bucketOf_none hg] at h0
    have := Holds.nil h0
    simpa using this
  | some b =>
    rw [bucketOf_some hg] at h0
    simp only [if_true]
    have h2 := h0.recs.map fun x : Str × Nat => (⟨kind, x.1, x.2⟩ : Rec)
    simp only [List.map_map] at h2
    refine h2.trans (List.Perm.of_eq ?_)
    conv => rhs; rw [← List.map_id (kept.filter _)]
    apply List.map_congr_left
    intro r hr
    have := (List.mem_filter.1 hr).2
    simp only [decide_eq_true_eq] at this
    simp [← this]

theorem Keeps.by_both {d : Db} {kept : List Rec} (h : Keeps d kept) {kind action : Str} (hk : kind ≠ [])
    (ha : action ≠ []) (hdot : '.' ∉ action)
    (hA : ∀ r ∈ kept, hasPrefix r.action action = true → r.action = action) :
    Answers (getRecs d kind action) kept kind action := by
  have hw : wanted kind action = fun r => decide (r.action = action) && decide (r.kind = kind) := by
    funext r; simp [wanted, hk, ha, Bool.and_comm]
  have h0 := h.kinds kind
  rw [filter_fam kept Rec.kind Rec.action kind] at h0
  simp only [getRecs, if_neg hk, getKind, Answers, hw]
  cases hg : d.kinds.get kind with
  | none =>
    rw [bucketOf_none hg] at h0
    have := Holds.nil h0
    simp only [List.map_eq_nil_iff, List.filter_eq_nil_iff, decide_eq_true_eq] at this ⊢
    intro r hr hc
    simp only [Bool.and_eq_true, decide_eq_true_eq] at hc
    exact this r hr hc.2
  | some b =>
    rw [bucketOf_some hg] at h0
    simp only [if_neg ha]
    have hpre : ∀ e ∈ b.data.entries, hasPrefix e.1 action = decide (keyPrefix e.1 = action) := by
      intro e he
      refine Holds.prefix h0 hdot ?_ he
      intro x hx
      obtain ⟨r, hr, rfl⟩ := List.mem_map.1 hx
      exact hA r (List.mem_filter.1 hr).1
    have hsub := b.data.seek_sublist action
    have htw := takeWhile_filter (b.data.seek action) action (b.data.sorted.sublist hsub)
      (fun e he => by
        obtain ⟨a, i, h1, h2, -⟩ := h0.keys e (hsub.subset he)
        exact ⟨a, i, h1, h2⟩)
      (fun e he => ((b.data.mem_seek_iff action e).1 he).2)
      (fun e he hp => by rw [hpre e (hsub.subset he)] at hp; simpa using hp)
    rw [htw]
    have hfil : (b.data.seek action).filter (fun e => decide (keyPrefix e.1 = action)) =
        b.data.entries.filter fun e => decide (keyPrefix e.1 = action) := by
      rw [KMap.seek_eq_filter, List.filter_filter]
      apply List.filter_congr
      intro e he
      by_cases hq : keyPrefix e.1 = action
      · obtain ⟨a, i, h1, h2, -⟩ := h0.keys e he
        have hpe : a = action := by rw [← hq, h2, keyPrefix_key h1]
        have : strLt e.1 action = false := by
          rw [h2, hpe]
          exact not_lt_of_hasPrefix action _
        simp [hq, this]
      · simp [hq]
    rw [hfil]
    have h3 := (h0.recs.filter fun x => decide (x.1 = action)).map
      fun x : Str × Nat => (⟨kind, x.1, x.2⟩ : Rec)
    rw [List.filter_map, List.map_map, List.filter_map, List.map_map] at h3
    refine (List.Perm.of_eq ?_).trans (h3.trans (List.Perm.of_eq ?_))
    · rfl
    · rw [List.filter_filter]
      conv => rhs; rw [← List.map_id (kept.filter _)]
      apply List.map_congr_left
      intro r hr
      have := (List.mem_filter.1 hr).2
      simp only [Bool.and_eq_true, decide_eq_true_eq] at this
      simp [← this.2]

/-! ### The properties -/

/-- **C112**, the full statement for the local store: after any puts and clears, every query answers with exactly the
records that were put and not cleared since. -/
def C112_statement (c : Cursor) (e : Env) : Prop :=
  ∀ (ops : List Op) (kind action : Str),
    (∀ o ∈ ops, ∀ rs, o = .put rs → ∀ r ∈ rs, r.Plain) →
    (kind ≠ [] ∨ action ≠ []) →
    ∃ o, (Store.init.run c e ops).get kind action = some o ∧ Answers o (remainings ops) kind action

theorem run_snoc (c : Cursor) (e : Env) (s : Store) (ops : List Op) (o : Op) :
    s.run c e (ops ++ [o]) = ((s.run c e ops).step c e o).1 := by
  simp [Store.run]

theorem run_keeps (e : Env) (K A : Str → Prop) (hK : Apart K) (hA : Apart A) (ops : List Op)
    (h : ∀ o ∈ ops, o.Fits K A) :
    (Store.init.run exact e ops).usable = true ∧ Keeps (Store.init.run exact e ops).file (remainings ops) ∧
    ∀ r ∈ remainings ops, K r.kind ∧ A r.action := by
  have go : ∀ (ops : List Op) (s : Store) (kept : List Rec), (∀ o ∈ ops, o.Fits K A) → s.usable = true →
      Keeps s.file kept → (∀ r ∈ kept, K r.kind ∧ A r.action) →
      (s.run exact e ops).usable = true ∧ Keeps (s.run exact e ops).file (ops.foldl remaining kept) ∧
      ∀ r ∈ ops.foldl remaining kept, K r.kind ∧ A r.action := by
    intro ops
    induction ops with
    | nil => intro s kept _ h1 h2 h3; exact ⟨h1, h2, h3⟩
    | cons o ops ih =>
      intro s kept hf h1 h2 h3
      have hrest := fun o ho => hf o (List.mem_cons_of_mem _ ho)
      have ho := hf o List.mem_cons_self
      simp only [Store.run, List.foldl_cons]
      cases o with
      | put rs =>
        refine ih _ _ hrest ?_ ?_ ?_
        · simp [Store.step, h1]
        · simpa [Store.step, h1, remaining] using h2.put rs fun r hr => (ho r hr).1
        · intro r hr
          rcases List.mem_append.1 hr with hr | hr
          · exact h3 r hr
          · exact (ho r hr).2
      | clear kind action =>
        obtain ⟨hk, ha, hdk, hda, hKk, hAa⟩ := ho
        have hc := h2.clear hk ha hdk hda (fun r hr => hK _ _ (h3 r hr).1 hKk)
          (fun r hr => hA _ _ (h3 r hr).2 hAa)
        refine ih _ _ hrest ?_ ?_ ?_
        · simp [Store.step, h1, hk, ha, Clear.clear]
        · simpa [Store.step, h1, hk, ha, Clear.clear, remaining] using hc
        · intro r hr
          exact h3 r (List.mem_filter.1 hr).1
  exact go ops Store.init [] h rfl Keeps.init (by intro r hr; cases hr)

/-- Puts and clears by both conditions, in any order, with names none of which starts another and a cursor that goes on
rightly after a deletion: every query answers with exactly what was put and not cleared since.  Missing for the full
property: clears by one condition or none, names that start one another, other cursors (all refuted below). -/
theorem C112_both_partial (e : Env) (K A : Str → Prop) (hK : Apart K) (hA : Apart A) (ops : List Op)
    (h : ∀ o ∈ ops, o.Fits K A) (kind action : Str) (hq : kind ≠ [] ∨ action ≠ [])
    (haq : kind ≠ [] → action ≠ [] → '.' ∉ action ∧ A action) :
    ∃ o, (Store.init.run exact e ops).get kind action = some o ∧ Answers o (remainings ops) kind action := by
  obtain ⟨hu, hkeep, hn⟩ := run_keeps e K A hK hA ops h
  refine ⟨getRecs (Store.init.run exact e ops).file kind action, by simp [Store.get, hu], ?_⟩
  by_cases hk : kind = []
  · subst hk
    have ha : action ≠ [] := by rcases hq with h | h; exact absurd rfl h; exact h
    exact hkeep.by_action ha
  · by_cases ha : action = []
    · subst ha; exact hkeep.by_kind hk
    · obtain ⟨hd, haa⟩ := haq hk ha
      exact hkeep.by_both hk ha hd fun r hr => hA _ _ (hn r hr).2 haa

def sHttp : Str := "http".toList
def sGrpc : Str := "grpc".toList
def sRead : Str := "read".toList
def sWrite : Str := "write".toList

/-- Two rounds with a clear in each. -/
def session : List Op :=
  [.put [⟨sHttp, sRead, 5⟩, ⟨sGrpc, sRead, 7⟩, ⟨sHttp, sWrite, 3⟩, ⟨sHttp, sRead, 9⟩],
   .clear sHttp sRead, .put [⟨sHttp, sRead, 4⟩, ⟨sHttp, sWrite, 2⟩], .clear sGrpc sWrite]

example : Apart (fun a => a ∈ [sHttp, sGrpc]) ∧ Apart (fun a => a ∈ [sRead, sWrite]) ∧
    ∀ o ∈ session, o.Fits (fun a => a ∈ [sHttp, sGrpc]) (fun a => a ∈ [sRead, sWrite]) := by
  refine ⟨?_, ?_, ?_⟩
  · have : ∀ a ∈ [sHttp, sGrpc], ∀ b ∈ [sHttp, sGrpc], hasPrefix a b = true → a = b := by decide
    exact fun a b ha hb => this a ha b hb
  · have : ∀ a ∈ [sRead, sWrite], ∀ b ∈ [sRead, sWrite], hasPrefix a b = true → a = b := by decide
    exact fun a b ha hb => this a ha b hb
  · intro o ho
    simp only [session, List.mem_cons, List.not_mem_nil, or_false] at ho
    rcases ho with rfl | rfl | rfl | rfl
    · simp only [Op.Fits, Rec.Plain]; decide
    · simp only [Op.Fits]; decide
    · simp only [Op.Fits, Rec.Plain]; decide
    · simp only [Op.Fits]; decide
example : (Store.init.run exact ⟨true, true, true, true⟩ session).get [] sRead =
    some (some [⟨sGrpc, sRead, 7⟩, ⟨sHttp, sRead, 4⟩]) := by decide
example : (Store.init.run exact ⟨true, true, true, true⟩ session).get sHttp sRead = some (some [⟨sHttp, sRead, 4⟩]) := by
  decide

/-- FINDING.  Clearing by both conditions also removes the records of the kinds that start with the one named, from
one of the two tables. -/
theorem C112_both_takes_more :
    let s := Store.init.run exact ⟨true, true, true, true⟩
      [.put [⟨sHttp, sRead, 5⟩, ⟨"http2".toList, sRead, 6⟩], .clear sHttp sRead]
    s.get [] sRead = some (some []) ∧ s.get "http2".toList [] = some (some [⟨"http2".toList, sRead, 6⟩]) := by decide

/-- The full statement does not hold, whatever the cursor and whatever happens to the file. -/
theorem C112_statement_fails (c : Cursor) (e : Env) : ¬ C112_statement c e := by
  intro h
  obtain ⟨o, ho, ha⟩ := h [.put [⟨sHttp, sRead, 5⟩], .clear sHttp []] sHttp [] (by
    intro o ho rs hrs r hr
    simp only [List.mem_cons, List.not_mem_nil, or_false] at ho
    rcases ho with rfl | rfl
    · simp only [Op.put.injEq] at hrs
      subst hrs
      simp only [List.mem_cons, List.not_mem_nil, or_false] at hr
      subst hr
      simp only [Rec.Plain]; decide
    · cases hrs) (Or.inl (by decide))
  have h1 : (Store.init.run c e [.put [⟨sHttp, sRead, 5⟩], .clear sHttp []]).get sHttp [] =
      some (some [⟨sHttp, sRead, 5⟩]) := rfl
  rw [h1] at ho
  simp only [Option.some.injEq] at ho
  subst ho
  have h2 : (remainings [.put [⟨sHttp, sRead, 5⟩], .clear sHttp []]).filter (wanted sHttp []) = [] := by decide
  simp [Answers, h2] at ha

/-- Clearing by one condition is refused exactly when there are records to clear, whatever the cursor. -/
theorem C112_one_refused (c : Cursor) (hist : List Rec) (hp : ∀ r ∈ hist, r.Plain) (kind action : Str) :
    (kind ≠ [] → (clear c (put Db.init hist) kind [] = none ↔ ∃ r ∈ hist, r.kind = kind)) ∧
    (action ≠ [] → (clear c (put Db.init hist) [] action = none ↔ ∃ r ∈ hist, r.action = action)) := by
  obtain ⟨ha, hk⟩ := puts_holds hist hp
  constructor
  · intro _
    have h := hk kind
    simp only [clear, if_true]
    cases hg : (put Db.init hist).kinds.get kind with
    | none =>
      rw [hg] at h
      simp only [Option.isSome_none, Bool.false_eq_true, if_false, reduceCtorEq, false_iff, not_exists, not_and]
      intro r hr he
      exact h _ (List.mem_map.2 ⟨r, hr, rfl⟩) he
    | some b =>
      rw [hg] at h
      obtain ⟨x, hx, he⟩ := h.2
      obtain ⟨r, hr, rfl⟩ := List.mem_map.1 hx
      simp only [Option.isSome_some, if_true, true_iff]
      exact ⟨r, hr, he⟩
  · intro hne
    have h := ha action
    simp only [clear, if_neg hne, if_true]
    cases hg : (put Db.init hist).acts.get action with
    | none =>
      rw [hg] at h
      simp only [Option.isSome_none, Bool.false_eq_true, if_false, reduceCtorEq, false_iff, not_exists, not_and]
      intro r hr he
      exact h _ (List.mem_map.2 ⟨r, hr, rfl⟩) he
    | some b =>
      rw [hg] at h
      obtain ⟨x, hx, he⟩ := h.2
      obtain ⟨r, hr, rfl⟩ := List.mem_map.1 hx
      simp only [Option.isSome_some, if_true, true_iff]
      exact ⟨r, hr, he⟩

example : clear skipping (put Db.init demo) [] sWrite = none := rfl
example : (clear skipping (put Db.init demo) "disk".toList []).isSome = true := rfl

theorem wipe_none (c : Cursor) (m : KMap Nat) (p : Str) (h : ∀ e ∈ m.entries, hasPrefix e.1 p = false) :
    wipe c m p = m := by
  have : m.entries.filter (fun e => !hasPrefix e.1 p || decide (e ∈ c.left (under m p))) = m.entries := by
    rw [List.filter_eq_self]
    intro e he
    simp [h e he]
  cases m
  simpa [wipe] using this

theorem delAll_none (c : Cursor) (f : Fam) (xs : List (Str × Str × Nat)) (hf : FamHolds f xs) (p : Str) (hp : '.' ∉ p)
    (h : ∀ x ∈ xs, hasPrefix x.2.1 p = false) : delAll c f p = f := by
  have : (f.entries.map fun o => (o.1, (⟨o.2.seq, wipe c o.2.data p⟩ : Bkt))) = f.entries := by
    conv => rhs; rw [← List.map_id f.entries]
    apply List.map_congr_left
    rintro ⟨o, b⟩ ho
    have hh := hf o
    rw [(f.mem_iff_get o b).1 ho] at hh
    rw [wipe_none]
    · rfl
    · intro e he
      obtain ⟨a, i, ha, hk, -⟩ := hh.1.keys e he
      obtain ⟨x, hm, hn⟩ := Holds.name hh.1 he
      obtain ⟨y, hy, rfl⟩ := List.mem_map.1 hm
      rw [hk, keyPrefix_key ha] at hn
      rw [hk, hasPrefix_sep hp, hn]
      exact h y (List.mem_filter.1 hy).1
  cases f
  simpa [delAll] using this

/-- Clearing by a kind or an action that starts no recorded one changes nothing, whatever the cursor. -/
theorem C112_absent (c : Cursor) (hist : List Rec) (hp : ∀ r ∈ hist, r.Plain) (name : Str) (hd : '.' ∉ name) :
    ((∀ r ∈ hist, hasPrefix r.kind name = false) → clear c (put Db.init hist) name [] = some (put Db.init hist)) ∧
    (name ≠ [] → (∀ r ∈ hist, hasPrefix r.action name = false) →
      clear c (put Db.init hist) [] name = some (put Db.init hist)) := by
  obtain ⟨ha, hk⟩ := puts_holds hist hp
  constructor
  · intro h
    have h1 : (put Db.init hist).kinds.get name = none := by
      have h2 := hk name
      cases hg : (put Db.init hist).kinds.get name with
      | none => rfl
      | some b =>
        rw [hg] at h2
        obtain ⟨x, hx, he⟩ := h2.2
        obtain ⟨r, hr, rfl⟩ := List.mem_map.1 hx
        have h3 := h r hr
        simp only at he
        rw [he, hasPrefix_refl] at h3
        cases h3
    simp only [clear, if_true, h1, Option.isSome_none, Bool.false_eq_true, if_false]
    rw [delAll_none c _ _ ha name hd (by
      intro x hx
      obtain ⟨r, hr, rfl⟩ := List.mem_map.1 hx
      exact h r hr)]
  · intro hne h
    have h1 : (put Db.init hist).acts.get name = none := by
      have h2 := ha name
      cases hg : (put Db.init hist).acts.get name with
      | none => rfl
      | some b =>
        rw [hg] at h2
        obtain ⟨x, hx, he⟩ := h2.2
        obtain ⟨r, hr, rfl⟩ := List.mem_map.1 hx
        have h3 := h r hr
        simp only at he
        rw [he, hasPrefix_refl] at h3
        cases h3
    simp only [clear, if_neg hne, if_true, h1, Option.isSome_none, Bool.false_eq_true, if_false]
    rw [delAll_none c _ _ hk name hd (by
      intro x hx
      obtain ⟨r, hr, rfl⟩ := List.mem_map.1 hx
      exact h r hr)]

example : (∀ r ∈ demo, hasPrefix r.kind "disk".toList = false) ∧ (∀ r ∈ demo, hasPrefix r.action "call".toList = false) := by
  decide

/-- What any cursor leaves in a bucket. -/
theorem wipe_any (c : Cursor) (b : Bkt) (xs : List (Str × Nat)) (h : Holds b xs) (p : Str) (hp : '.' ∉ p)
    (hx : ∀ x ∈ xs, hasPrefix x.1 p = true → x.1 = p) :
    ∃ extra, ((wipe c b.data p).entries.map fun e => (keyPrefix e.1, e.2)).Perm
        ((xs.filter fun x => !decide (x.1 = p)) ++ extra) ∧
      (∀ x ∈ extra, x ∈ xs ∧ x.1 = p) ∧
      ((∃ x ∈ xs, x.1 = p) → extra.length < (xs.filter fun x => decide (x.1 = p)).length) := by
  have hpre := fun e he => Holds.prefix h hp hx (e := e) he
  have hlen : (under b.data p).length = (xs.filter fun x => decide (x.1 = p)).length := by
    have h1 := (h.recs.filter fun x => decide (x.1 = p)).length_eq
    rw [List.filter_map, List.length_map] at h1
    rw [← h1, under]
    congr 1
    apply List.filter_congr
    intro e he
    simpa using hpre e he
  have hleft : ∀ l, (c.left (under b.data p)) = l → (under b.data p ≠ [] → l.length < (under b.data p).length) := by
    intro l hl hne
    cases hu : under b.data p with
    | nil => exact absurd hu hne
    | cons e es =>
      rw [hu] at hl
      have := (c.sub e es).length_le
      rw [hl] at this
      simp only [List.length_cons]; omega
  -- the entries left behind
  have hsplit : (wipe c b.data p).entries.Perm
      ((b.data.entries.filter fun e => !hasPrefix e.1 p) ++
        (b.data.entries.filter fun e => hasPrefix e.1 p && decide (e ∈ c.left (under b.data p)))) := by
    simp only [wipe]
    generalize b.data.entries = L
    generalize c.left (under b.data p) = M
    induction L with
    | nil => simp
    | cons e L ih =>
      simp only [List.filter_cons]
      cases h1 : hasPrefix e.1 p <;> cases h2 : decide (e ∈ M) <;> simp only [Bool.not_false, Bool.not_true,
        Bool.true_or, Bool.false_or, Bool.true_and, Bool.false_and, Bool.false_eq_true, if_true, if_false]
      · exact ih.cons _
      · exact ih.cons _
      · exact ih
      · exact (ih.cons _).trans List.perm_middle.symm
  have hnd : (b.data.entries.filter fun e => hasPrefix e.1 p && decide (e ∈ c.left (under b.data p))).Nodup := by
    have hn : b.data.entries.Nodup := by
      refine b.data.sorted.imp ?_
      intro x y hlt he
      subst he
      rw [strLt_irrefl] at hlt
      cases hlt
    exact hn.sublist List.filter_sublist
  refine ⟨(b.data.entries.filter fun e => hasPrefix e.1 p && decide (e ∈ c.left (under b.data p))).map
    fun e => (keyPrefix e.1, e.2), ?_, ?_, ?_⟩
  · refine (hsplit.map _).trans ?_
    rw [List.map_append]
    refine List.Perm.append_right _ ?_
    have h1 := h.recs.filter fun x => !decide (x.1 = p)
    rw [List.filter_map] at h1
    refine (List.Perm.of_eq ?_).trans h1
    congr 1
    apply List.filter_congr
    intro e he
    simp [hpre e he]
  · intro x hxm
    obtain ⟨e, he, rfl⟩ := List.mem_map.1 hxm
    obtain ⟨h1, h2⟩ := List.mem_filter.1 he
    simp only [Bool.and_eq_true] at h2
    refine ⟨h.recs.mem_iff.1 (List.mem_map.2 ⟨e, h1, rfl⟩), ?_⟩
    rw [hpre e h1] at h2
    simpa using h2.1
  · rintro ⟨x, hxm, hxp⟩
    rw [List.length_map, ← hlen]
    have hne : under b.data p ≠ [] := by
      intro h0
      rw [h0, List.length_nil] at hlen
      have := List.length_eq_zero_iff.1 hlen.symm
      rw [List.filter_eq_nil_iff] at this
      exact this x hxm (by simpa using hxp)
    refine Nat.lt_of_le_of_lt ?_ (hleft _ rfl hne)
    apply nodup_length_le hnd
    intro e he
    have := (List.mem_filter.1 he).2
    simp only [Bool.and_eq_true, decide_eq_true_eq] at this
    exact this.2

/-- With any cursor, clearing by both conditions loses no record of the action that it should keep, and removes at least
one if there is one; it may leave others behind. -/
theorem C112_any_cursor (c : Cursor) (hist : List Rec) (hp : ∀ r ∈ hist, r.Plain) (kind action : Str) (hk : kind ≠ [])
    (ha : action ≠ []) (hdk : '.' ∉ kind) (hK : ∀ r ∈ hist, hasPrefix r.kind kind = true → r.kind = kind) :
    ∃ d rs extra, clear c (put Db.init hist) kind action = some d ∧ getRecs d [] action = some rs ∧
      rs.Perm ((hist.filter fun r => wanted [] action r && !wanted kind action r) ++ extra) ∧
      (∀ r ∈ extra, r ∈ hist ∧ wanted kind action r = true) ∧
      ((∃ r ∈ hist, wanted kind action r = true) → extra.length < (hist.filter (wanted kind action)).length) := by
  have h0 := (Keeps.put Keeps.init hist hp).acts action
  simp only [List.nil_append] at h0
  rw [filter_fam hist Rec.action Rec.kind action] at h0
  obtain ⟨extra, h1, h2, h3⟩ := wipe_any c _ _ h0 kind hdk (by
    intro x hx
    obtain ⟨r, hr, rfl⟩ := List.mem_map.1 hx
    exact hK r (List.mem_filter.1 hr).1)
  have hback : ∀ (p : Rec → Bool), (∀ r, p r = true → r.action = action) →
      ((hist.filter p).map fun r => (⟨r.kind, action, r.cost⟩ : Rec)) = hist.filter p := by
    intro p hpa
    conv => rhs; rw [← List.map_id (hist.filter p)]
    apply List.map_congr_left
    intro r hr
    simp [← hpa r (List.mem_filter.1 hr).2]
  have hw : wanted kind action = fun r => decide (r.kind = kind) && decide (r.action = action) := by
    funext r; simp [wanted, hk, ha]
  refine ⟨⟨delNest c (put Db.init hist).acts action kind, delNest c (put Db.init hist).kinds kind action⟩,
    (wipe c (bucketOf (put Db.init hist).acts action).data kind).entries.map fun e => ⟨keyPrefix e.1, action, e.2⟩,
    extra.map fun x => ⟨x.1, action, x.2⟩, by simp only [clear, if_neg ha, if_neg hk],
    by simp only [getRecs, if_true, getAction, if_neg ha, delNest, KMap.get_put], ?_, ?_, ?_⟩
  · have h4 := h1.map fun x : Str × Nat => (⟨x.1, action, x.2⟩ : Rec)
    rw [List.map_map, List.map_append] at h4
    refine h4.trans (List.Perm.append_right _ (List.Perm.of_eq ?_))
    rw [List.filter_map, List.map_map, List.filter_filter]
    have h5 := hback (fun r => wanted [] action r && !wanted kind action r) (by
      intro r hr
      simp only [wanted, ha, decide_true, Bool.true_or, Bool.true_and, decide_false, Bool.false_or, Bool.and_eq_true,
        decide_eq_true_eq] at hr
      exact hr.1)
    rw [← h5]
    have h6 : (fun r : Rec => ((fun x : Str × Nat => !decide (x.1 = kind)) ∘ fun r : Rec => (r.kind, r.cost)) r &&
        decide (r.action = action)) = fun r => wanted [] action r && !wanted kind action r := by
      funext r
      by_cases h7 : r.action = action <;> simp [wanted, hk, ha, h7]
    rw [h6]
    rfl
  · intro r hr
    obtain ⟨x, hx, rfl⟩ := List.mem_map.1 hr
    obtain ⟨h4, h5⟩ := h2 x hx
    obtain ⟨r, hr', rfl⟩ := List.mem_map.1 h4
    obtain ⟨h6, h7⟩ := List.mem_filter.1 hr'
    simp only [decide_eq_true_eq] at h7 h5
    subst h7
    refine ⟨h6, ?_⟩
    rw [hw]; simp [h5]
  · rintro ⟨r, hr, hwr⟩
    rw [hw] at hwr
    simp only [Bool.and_eq_true, decide_eq_true_eq] at hwr
    have h4 := h3 ⟨(r.kind, r.cost), List.mem_map.2 ⟨r, List.mem_filter.2 ⟨hr, by simpa using hwr.2⟩, rfl⟩, hwr.1⟩
    rw [List.filter_map, List.length_map, List.filter_filter] at h4
    rw [List.length_map, hw]
    exact h4

example : (clear skipping (put Db.init demo) sHttp sRead).map (fun d => getRecs d [] sRead) =
    some (some [⟨sHttp, sRead, 9⟩]) := by decide

/-- FINDING (for such a library).  If a deletion makes the cursor step over a key, half of the records stay. -/
theorem C112_skipping_leaves :
    (Store.init.run skipping ⟨true, true, true, true⟩
      [.put [⟨sHttp, sRead, 5⟩, ⟨sHttp, sRead, 6⟩, ⟨sHttp, sRead, 7⟩], .clear sHttp sRead]).get sHttp sRead =
      some (some [⟨sHttp, sRead, 6⟩]) := by decide

/-! ### Without conditions -/

/-- When the file can be removed and opened again, the store is empty and usable. -/
theorem C112_all (c : Cursor) (e : Env) (s : Store) (hs : s.usable = true) (h1 : e.closeOk = true) (h2 : e.path = true)
    (h3 : e.rmOk = true) (h4 : e.openOk = true) :
    (s.step c e (.clear [] [])).2 = true ∧ ∀ kind action, (s.step c e (.clear [] [])).1.get kind action = some none := by
  have : s.step c e (.clear [] []) = (⟨Db.init, true⟩, true) := by simp [Store.step, hs, clearFile, h1, h2, h3, h4]
  rw [this]
  refine ⟨rfl, fun kind action => ?_⟩
  simp only [Store.get, if_true, getRecs, getAction, getKind]
  by_cases hk : kind = [] <;> by_cases ha : action = [] <;> simp [hk, ha, Db.init, KMap.empty, KMap.get, rawGet]

example : ((Store.init.run exact ⟨true, true, true, true⟩ session).step exact ⟨true, true, true, true⟩ (.clear [] [])).2 =
    true := by decide

/-- `Clear("", "")` reports success only if the store can be used afterwards and is empty; a store that cannot be used
any more was reported. -/
theorem C112_all_reported (c : Cursor) (e : Env) (s : Store) (hs : s.usable = true) :
    ((s.step c e (.clear [] [])).2 = true ↔ e.closeOk ∧ e.path ∧ e.rmOk ∧ e.openOk) ∧
    ((s.step c e (.clear [] [])).2 = true → ∀ kind action, (s.step c e (.clear [] [])).1.get kind action = some none) ∧
    ((s.step c e (.clear [] [])).1.usable = false → (s.step c e (.clear [] [])).2 = false) := by
  have hi : (s.step c e (.clear [] [])).2 = true ↔ e.closeOk ∧ e.path ∧ e.rmOk ∧ e.openOk := by
    obtain ⟨a, b, r, o⟩ := e
    cases a <;> cases b <;> cases r <;> cases o <;> simp [Store.step, hs, clearFile]
  refine ⟨hi, fun h => ?_, fun h => ?_⟩
  · obtain ⟨h1, h2, h3, h4⟩ := hi.1 h
    exact (C112_all c e s hs h1 h2 h3 h4).2
  · obtain ⟨a, b, r, o⟩ := e
    revert h
    cases a <;> cases b <;> cases r <;> cases o <;> simp [Store.step, hs, clearFile]

example : (Store.init.step exact ⟨true, true, true, false⟩ (.clear [] [])).2 = false ∧
    (Store.init.step exact ⟨true, true, true, false⟩ (.clear [] [])).1.usable = false := by decide

/-- FINDING.  Otherwise — in particular when a closed database no longer knows its path — the database stays closed:
the call fails, and every later call fails, until the process ends; the records are still in the file. -/
theorem C112_all_fails (c : Cursor) (e : Env) (s : Store) (hs : s.usable = true) (h1 : e.closeOk = true)
    (h2 : e.path = false) (ops : List Op) :
    (s.step c e (.clear [] [])).2 = false ∧
    (∀ kind action, ((s.step c e (.clear [] [])).1.run c e ops).get kind action = none) ∧
    (∀ o, (((s.step c e (.clear [] [])).1.run c e ops).step c e o).2 = false) ∧
    ((s.step c e (.clear [] [])).1.run c e ops).file = s.file := by
  have h0 : s.step c e (.clear [] []) = ({ s with usable := false }, false) := by
    simp [Store.step, hs, clearFile, h1, h2]
  rw [h0]
  have hst : ∀ o, (({ s with usable := false } : Store).step c e o) = ({ s with usable := false }, false) := by
    intro o; cases o <;> rfl
  have hrun : (({ s with usable := false } : Store).run c e ops) = { s with usable := false } := by
    induction ops with
    | nil => rfl
    | cons o ops ih =>
      simp only [Store.run, List.foldl_cons, hst] at ih ⊢
      exact ih
  rw [hrun]
  exact ⟨rfl, fun _ _ => rfl, fun o => by rw [hst], rfl⟩

example : ((Store.init.run exact ⟨true, false, true, true⟩ (session ++ [.clear [] [], .put [⟨sHttp, sRead, 1⟩]])).get
    sHttp sRead) = none := rfl

/-! ### The store in etcd -/

theorem keyOf_prefix {a action : Str} (ha : '/' ∉ a) (hb : '/' ∉ action) (x y : Str) :
    hasPrefix (Etcd.keyOf a x) (Etcd.keyOf action y) = (decide (a = action) && hasPrefix x y) := by
  have h0 : ∀ (p s t : Str), hasPrefix (p ++ s) (p ++ t) = hasPrefix s t := by
    intro p s t
    induction p with
    | nil => rfl
    | cons c p ih => simp only [hasPrefix] at ih; simp [hasPrefix, ih]
  simp only [Etcd.keyOf]
  rw [h0]
  simp only [hasPrefix, List.isPrefixOf, beq_self_eq_true, Bool.true_and]
  induction a generalizing action with
  | nil =>
    cases action with
    | nil => simp
    | cons d ds =>
      have : d ≠ '/' := fun h => hb (by rw [h]; exact List.mem_cons_self)
      simp [List.isPrefixOf, this]
  | cons c cs ih =>
    cases action with
    | nil =>
      have : c ≠ '/' := fun h => ha (by rw [h]; exact List.mem_cons_self)
      simp [List.isPrefixOf, Ne.symm this]
    | cons d ds =>
      have := ih (action := ds) (fun h => ha (List.mem_cons_of_mem _ h)) (fun h => hb (List.mem_cons_of_mem _ h))
      simp only [List.cons_append, List.isPrefixOf, this, List.cons.injEq]
      by_cases hcd : d = c
      · subst hcd; simp
      · simp [hcd, Ne.symm hcd]

theorem recKey_prefix {r : Rec} (hr : '/' ∉ r.action) {action kind : Str} (ha : '/' ∉ action) (hk : '/' ∉ kind)
    (ms : Nat) :
    hasPrefix (Etcd.recKey r ms) (Etcd.keyOf action kind) = (decide (r.action = action) && hasPrefix r.kind kind) := by
  have h1 : Etcd.recKey r ms = Etcd.keyOf r.action (r.kind ++ '/' :: fmtNat ms) := by
    simp [Etcd.recKey, Etcd.keyOf]
  rw [h1, keyOf_prefix hr ha, hasPrefix_sep hk]

theorem mem_delBelows (ps : List Str) (m : KMap Str) (e : Str × Str) :
    e ∈ (ps.foldl delBelow m).entries ↔ e ∈ m.entries ∧ ∀ p ∈ ps, hasPrefix e.1 p = false := by
  induction ps generalizing m with
  | nil => simp
  | cons p ps ih =>
    rw [List.foldl_cons, ih]
    simp [delBelow, List.mem_filter, and_assoc]

/-- With an action named: the entries of this action whose kind starts with the one named go, all others stay. -/
theorem C112_etcd_one (lib : DelLib) (order : List Str) (m : KMap Str) (kind action : Str) (ha : action ≠ [])
    (hsa : '/' ∉ action) (hsk : '/' ∉ kind) :
    (etcdClear lib order true m kind action).2 = .ok ∧
    ∀ (r : Rec) (ms : Nat) (v : Str), '/' ∉ r.action → (Etcd.recKey r ms, v) ∈ m.entries →
      ((Etcd.recKey r ms, v) ∈ (etcdClear lib order true m kind action).1.entries ↔
        ¬ (r.action = action ∧ hasPrefix r.kind kind = true)) := by
  have h1 : etcdClear lib order true m kind action = (delBelow m (Etcd.keyOf action kind), .ok) := by
    simp [etcdClear, ha, buildDel, lib.first]
  rw [h1]
  refine ⟨rfl, fun r ms v hr hm => ?_⟩
  have h2 := recKey_prefix hr hsa hsk ms
  simp only [delBelow, List.mem_filter, hm, true_and, h2]
  by_cases h3 : r.action = action <;> cases h4 : hasPrefix r.kind kind <;> simp [h3]

/-- In this case the deletion is the one promised, if no recorded kind starts with another. -/
theorem C112_etcd_one_partial (lib : DelLib) (order : List Str) (m : KMap Str) (kind action : Str) (ha : action ≠ [])
    (hsa : '/' ∉ action) (hsk : '/' ∉ kind) (r : Rec) (ms : Nat) (v : Str) (hr : '/' ∉ r.action)
    (hm : (Etcd.recKey r ms, v) ∈ m.entries) (hK : kind ≠ [] → hasPrefix r.kind kind = true → r.kind = kind) :
    (Etcd.recKey r ms, v) ∈ (etcdClear lib order true m kind action).1.entries ↔ wanted kind action r = false := by
  rw [(C112_etcd_one lib order m kind action ha hsa hsk).2 r ms v hr hm]
  simp only [wanted, ha, decide_false, Bool.false_or]
  by_cases hk : kind = []
  · subst hk; simp [hasPrefix]
  · by_cases h1 : r.kind = kind
    · subst h1; simp [hasPrefix_refl, hk]
    · have h2 : hasPrefix r.kind kind = false := by
        cases h : hasPrefix r.kind kind with
        | false => rfl
        | true => exact absurd (hK hk h) h1
      simp [h1, hk, h2]

theorem buildDel_lenient (kind : Str) (ps as : List Str) :
    buildDel lenient kind ps as = some (ps ++ as.map fun a => Etcd.keyOf a kind) := by
  induction as generalizing ps with
  | nil => simp [buildDel]
  | cons a as ih => simp [buildDel, lenient] at ih ⊢; simp [ih]

/-- Without an action and with a library that takes it: the entries of all allowed actions whose kind starts with the one
named. -/
theorem C112_etcd_all (order : List Str) (m : KMap Str) (kind : Str) (hso : ∀ a ∈ order, '/' ∉ a) (hsk : '/' ∉ kind)
    (r : Rec) (ms : Nat) (v : Str) (hr : '/' ∉ r.action) (hm : (Etcd.recKey r ms, v) ∈ m.entries) :
    (etcdClear lenient order true m kind []).2 = .ok ∧
    ((Etcd.recKey r ms, v) ∈ (etcdClear lenient order true m kind []).1.entries ↔
      ¬ (r.action ∈ order ∧ hasPrefix r.kind kind = true)) := by
  have h1 : etcdClear lenient order true m kind [] =
      ((order.map fun a => Etcd.keyOf a kind).foldl delBelow m, .ok) := by
    simp [etcdClear, buildDel_lenient]
  rw [h1]
  refine ⟨rfl, ?_⟩
  rw [mem_delBelows]
  simp only [hm, true_and, List.mem_map, forall_exists_index, and_imp, forall_apply_eq_imp_iff₂]
  constructor
  · rintro h ⟨h2, h3⟩
    have := h r.action h2
    rw [recKey_prefix hr (hso _ h2) hsk, h3] at this
    simp at this
  · intro h a ha
    rw [recKey_prefix hr (hso a ha) hsk]
    by_cases h2 : r.action = a
    · subst h2
      simp only [decide_true, Bool.true_and]
      cases h3 : hasPrefix r.kind kind with
      | false => rfl
      | true => exact absurd ⟨ha, h3⟩ h
    · simp [h2]

/-- Other keys of etcd stay, in every case and with every library. -/
theorem C112_etcd_others (lib : DelLib) (order : List Str) (ok : Bool) (m : KMap Str) (kind action : Str)
    (e : Str × Str) (he : e ∈ m.entries) (hn : hasPrefix e.1 (Etcd.etcdPrefix ++ ['/']) = false) :
    e ∈ (etcdClear lib order ok m kind action).1.entries := by
  have hb : ∀ (as ps ps' : List Str), buildDel lib kind ps as = some ps' →
      (∀ p ∈ ps, ∃ a, p = Etcd.keyOf a kind) → ∀ p ∈ ps', ∃ a, p = Etcd.keyOf a kind := by
    intro as
    induction as with
    | nil => intro ps ps' h hp; simp only [buildDel, Option.some.injEq] at h; subst h; exact hp
    | cons a as ih =>
      intro ps ps' h hp
      simp only [buildDel] at h
      cases hm : lib.more ps (Etcd.keyOf a kind) with
      | none => rw [hm] at h; cases h
      | some qs =>
        rw [hm] at h
        refine ih qs ps' h ?_
        intro p hq
        rcases lib.sound _ _ _ hm p hq with h1 | h1
        · exact hp p h1
        · exact ⟨a, h1⟩
  simp only [etcdClear]
  cases hd : buildDel lib kind [] (if action = [] then order else [action]) with
  | none => exact he
  | some ps =>
    cases ok with
    | false => exact he
    | true =>
      simp only [if_true]
      rw [mem_delBelows]
      refine ⟨he, fun p hp => ?_⟩
      obtain ⟨a, rfl⟩ := hb _ _ _ hd (by intro p hp; cases hp) p hp
      cases h : hasPrefix e.1 (Etcd.keyOf a kind) with
      | false => rfl
      | true =>
        rw [hasPrefix_iff] at h
        obtain ⟨t, ht⟩ := h
        have : hasPrefix e.1 (Etcd.etcdPrefix ++ ['/']) = true := by
          rw [hasPrefix_iff]
          exact ⟨a ++ '/' :: kind ++ t, by rw [ht]; simp [Etcd.keyOf]⟩
        rw [hn] at this
        cases this

/-- A commit that fails removes nothing and is reported. -/
theorem C112_etcd_failed (lib : DelLib) (order : List Str) (m : KMap Str) (kind action : Str) :
    (etcdClear lib order false m kind action).1 = m ∧ (etcdClear lib order false m kind action).2 ≠ .ok := by
  simp only [etcdClear]
  cases buildDel lib kind [] (if action = [] then order else [action]) with
  | none => simp
  | some ps => simp

/-- FINDING (for such a library).  If a second `Then` panics, clearing without an action panics as soon as two actions are
allowed, and removes nothing. -/
theorem C112_etcd_panics (a b : Str) (order : List Str) (ok : Bool) (m : KMap Str) (kind : Str) :
    etcdClear strict (a :: b :: order) ok m kind [] = (m, .panicked) := by
  simp [etcdClear, buildDel, strict]

/-- Some entries of etcd. -/
def etcdDemo : KMap Str :=
  ((((KMap.empty.put (Etcd.recKey ⟨sHttp, sRead, 0⟩ 11) ['5']).put (Etcd.recKey ⟨"http2".toList, sRead, 0⟩ 12) ['6']).put
    (Etcd.recKey ⟨sHttp, sWrite, 0⟩ 13) ['7'])).put "other".toList ['8']

example : (etcdClear strict [sRead, sWrite] true etcdDemo sHttp sWrite).1.keys =
    ["other".toList, Etcd.recKey ⟨sHttp, sRead, 0⟩ 11, Etcd.recKey ⟨"http2".toList, sRead, 0⟩ 12] := by decide
example : (etcdClear lenient [sRead, sWrite] true etcdDemo [] []).1.keys = ["other".toList] := by decide

/-- FINDING.  Here too the kinds that start with the one named go with it. -/
theorem C112_etcd_takes_more :
    (etcdClear strict [sRead, sWrite] true etcdDemo sHttp sRead).1.keys =
      ["other".toList, Etcd.recKey ⟨sHttp, sWrite, 0⟩ 13] := by decide

end Verif.Perf.Clear
