import Verif.Perf.Etcd

/-!
# Properties of the performance store in etcd (C82)
-/

namespace Verif.Perf.Etcd

open KMap

/-! ## Specification -/

/-- An environment without faults or other processes whose `Size` is at most the right number. -/
structure Env.Calm (e : Env) (m : KMap Str) (acts : List Str) : Prop where
  noLock : m.get e.lock = none
  size : e.size ≤ sizeOf m acts [] []
  sizeOk : e.sizeOk = true
  getOk : e.getOk = true
  delOk : e.delOk = true
  commitOk : e.commitOk = true

/-- A history in which all environments are calm. -/
def CalmRun (lib : Lib) (acts : List Str) (m : KMap Str) : List (Env × List (Rec × Nat)) → Prop
  | [] => True
  | (e, rs) :: cs => e.Calm m acts ∧ CalmRun lib acts (put lib acts e m rs).1 cs

/-- What `Get` should return of the records handed to `Put`. -/
def expected (acts : List Str) (cs : List (Env × List (Rec × Nat))) (kind action : Str) : List (Str × Str × Int) :=
  ((cs.flatMap fun c => c.2.map (·.1)).filter fun r =>
    acts.contains r.action && (kind == [] || r.kind == kind) && (action == [] || r.action == action)).map
      fun r => (r.kind, r.action, (r.cost : Int))

/-- Full statement, for the library `lib`: as long as etcd works, what was put is found, and the store holds at
most 100000 records. -/
def C82_statement (lib : Lib) : Prop :=
  ∀ (acts : List Str) (cs : List (Env × List (Rec × Nat))), CalmRun lib acts KMap.empty cs →
    sizeOf (runPuts lib acts KMap.empty cs) acts [] [] ≤ 100000 ∧
    ((cs.flatMap (·.2)).length ≤ 100000 → ∀ kind action,
      (get (runPuts lib acts KMap.empty cs) acts kind action).Perm (expected acts cs kind action))

/-! ## Texts of durations -/

/-- **C82** The text of a duration below a second is written in the largest unit that leaves something before the point: from 1 to
999 of it, and that number is the whole part of the duration in that unit. -/
theorem C82_unit (u : Nat) (h0 : 0 < u) (h1 : u < 1000000000) : ∃ q scale f unit, durString u = fmtNat q ++ f ++ unit ∧
    1 ≤ q ∧ q < 1000 ∧ q * scale ≤ u ∧ u < (q + 1) * scale ∧
    ((scale = 1 ∧ unit = "ns".toList) ∨ (scale = 1000 ∧ unit = "µs".toList) ∨ (scale = 1000000 ∧ unit = "ms".toList)) := by
  unfold durString
  rw [if_neg (by omega)]
  by_cases a : u < 1000
  · rw [if_pos a]
    exact ⟨u, 1, [], "ns".toList, by simp, by omega, by omega, by omega, by omega, .inl ⟨rfl, rfl⟩⟩
  · rw [if_neg a]
    by_cases b : u < 1000000
    · rw [if_pos b]
      exact ⟨u / 1000, 1000, frac u 3, "µs".toList, rfl, by omega, by omega, by omega, by omega, .inr (.inl ⟨rfl, rfl⟩)⟩
    · rw [if_neg b, if_pos h1]
      exact ⟨u / 1000000, 1000000, frac u 6, "ms".toList, rfl, by omega, by omega, by omega, by omega, .inr (.inr ⟨rfl, rfl⟩)⟩

example : durString 1000000 = "1ms".toList ∧ durString 999999 = "999.999µs".toList ∧ durString 1000 = "1µs".toList ∧
    durString 1000000000 = "1s".toList := by decide

/-! ## Texts of durations are not numbers -/

theorem parseDigits_none {s : Str} {c : Char} (h : c ∈ s) (hc : c.isDigit = false) : parseDigits s = none := by
  unfold parseDigits
  rw [if_neg]
  simp only [Bool.and_eq_true, List.all_eq_true, not_and]
  intro _ ha
  exact absurd (ha c h) (by simp [hc])

theorem durString_last (u : Nat) : ∃ a, durString u = a ++ ['s'] := by
  unfold durString
  split
  · exact ⟨['0'], rfl⟩
  split
  · exact ⟨fmtNat u ++ ['n'], by simp⟩
  split
  · exact ⟨fmtNat (u / 1000) ++ frac u 3 ++ ['µ'], by simp⟩
  split
  · exact ⟨fmtNat (u / 1000000) ++ frac u 6 ++ ['m'], by simp⟩
  · exact ⟨_, rfl⟩

theorem atoi_none {s : Str} (h : 's' ∈ s) : atoi s = none := by
  have hd : ('s').isDigit = false := by decide
  unfold atoi
  split
  · rename_i r
    rw [parseDigits_none (c := 's') (by simpa using h) hd]
  · rename_i r
    rw [parseDigits_none (c := 's') (by simpa using h) hd]
  · rw [parseDigits_none h hd]

theorem toInt64_durString (u : Nat) : toInt64 (durString u) = 0 := by
  obtain ⟨a, ha⟩ := durString_last u
  unfold toInt64
  rw [atoi_none (by rw [ha]; simp)]
  rfl

/-! ## Put -/

theorem recKey_prefix (r : Rec) (ms : Nat) : hasPrefix (recKey r ms) etcdPrefix = true := by
  rw [hasPrefix_iff]
  exact ⟨'/' :: (r.action ++ '/' :: r.kind) ++ '/' :: fmtNat ms, by simp [recKey, keyOf]⟩

theorem del_put (m : KMap Str) {k : Str} {v : Str} (h : m.get k = none) : (m.put k v).del k = m := by
  apply ext_get
  intro k'
  rw [get_del, get_put]
  by_cases hk : k' = k
  · subst hk; simp [h]
  · simp [hk]

theorem checkSize_room {e : Env} {n : Nat} (m : KMap Str) (hs : e.sizeOk = true) (hn : e.size + n ≤ maxSize) :
    checkSize e m n = (m, true) := by
  unfold checkSize
  rw [if_pos hs, if_neg (Nat.not_lt.2 hn)]

/-- **C82** A call with one record of an allowed action, among any others, adds this record and changes nothing
else, while there is room.  Missing: several allowed records (`C82_panics`). -/
theorem C82_put_one_partial (lib : Lib) (acts : List Str) (e : Env) (m : KMap Str) (rs : List (Rec × Nat))
    (r : Rec) (ms : Nat) (ha : allows acts rs = [(r, ms)]) (hl : m.get e.lock = none) (hs : e.sizeOk = true)
    (hn : e.size + 1 ≤ 100000) (hc : e.commitOk = true) :
    (put lib acts e m rs).2 = .ok ∧
    ∀ k, (put lib acts e m rs).1.get k = if k = recKey r ms then some (durString r.cost) else m.get k := by
  unfold put
  simp only [ha, List.length_singleton, checkSize_room _ hs hn, build, lib.first, if_true, hc, locked, del_put m hl,
    List.foldl_cons, List.foldl_nil, true_and]
  intro k
  rw [get_put]

/-- **C82** If etcd fails while the size is checked, the call returns an error and the store is as before: nothing is written, and
nothing is removed.  A failed deletion is taken to delete nothing. -/
theorem C82_failed (lib : Lib) (acts : List Str) (e : Env) (m : KMap Str) (rs : List (Rec × Nat)) (hl : m.get e.lock = none)
    (h : e.sizeOk = false ∨ 100000 < e.size + (allows acts rs).length ∧ (e.getOk = false ∨ e.delOk = false)) :
    put lib acts e m rs = (m, .err) := by
  have hc : checkSize e (locked e m) (allows acts rs).length = (locked e m, false) := by
    unfold checkSize
    cases hs : e.sizeOk with
    | false => rfl
    | true =>
      rw [hs] at h
      obtain h | ⟨hn, h⟩ := h
      · cases h
      · rw [if_pos rfl, if_pos (show maxSize < _ from hn)]
        cases hg : e.getOk with
        | false => rfl
        | true =>
          rw [hg] at h
          obtain h | h := h
          · cases h
          · rw [h]; rfl
  unfold put
  dsimp only
  rw [hc]
  show ((locked e m).del e.lock, Out.err) = _
  unfold locked
  rw [del_put m hl]

/-- **C82** A call whose transaction fails never says that all is well. -/
theorem C82_commit_failed (lib : Lib) (acts : List Str) (e : Env) (m : KMap Str) (rs : List (Rec × Nat)) (h : e.commitOk = false) :
    (put lib acts e m rs).2 ≠ .ok := by
  unfold put
  dsimp only
  cases (checkSize e (locked e m) (allows acts rs).length).2 with
  | false => intro x; cases x
  | true =>
    rw [if_pos rfl, h]
    cases build lib [] (allows acts rs) with
    | none => intro x; cases x
    | some ops => intro x; cases x

/-- **C82** Records of other actions are dropped without an error. -/
theorem C82_dropped (lib : Lib) (acts : List Str) (e : Env) (m : KMap Str) (rs : List (Rec × Nat))
    (ha : ∀ r ∈ rs, r.1.action ∉ acts) (hl : m.get e.lock = none) (hs : e.sizeOk = true)
    (hn : e.size ≤ 100000) (hc : e.commitOk = true) : put lib acts e m rs = (m, .ok) := by
  have h0 : allows acts rs = [] := by
    unfold allows
    rw [List.filter_eq_nil_iff]
    intro r hr
    simpa using ha r hr
  unfold put
  simp only [h0, List.length_nil, checkSize_room (n := 0) _ hs hn, build, if_true, hc, locked, del_put m hl, List.foldl_nil]

/-- **C82, refuted for several records** If the library panics on a second `Then`, a call with two or more
allowed records panics and stores none of them. -/
theorem C82_panics (lib : Lib) (hp : ∀ o ops op, lib.more (o :: ops) op = none) (acts : List Str) (e : Env)
    (m : KMap Str) (rs : List (Rec × Nat)) (h2 : 2 ≤ (allows acts rs).length) (hl : m.get e.lock = none)
    (hs : e.sizeOk = true) (hn : e.size + (allows acts rs).length ≤ 100000) :
    put lib acts e m rs = (m, .panicked) := by
  have hb : build lib [] (allows acts rs) = none := by
    match hrs : allows acts rs, h2 with
    | (r1, t1) :: (r2, t2) :: rest, _ => simp only [build, lib.first, hp]
  unfold put
  simp only [checkSize_room _ hs hn, hb, if_true, locked, del_put m hl]

/-! ## Everything in the store was put there -/

/-- An entry of a record handed over in `cs` whose action is allowed. -/
def FromPut (acts : List Str) (cs : List (Env × List (Rec × Nat))) (kv : Str × Str) : Prop :=
  ∃ c ∈ cs, ∃ r ∈ c.2, r.1.action ∈ acts ∧ kv = (recKey r.1 r.2, durString r.1.cost)

theorem build_sound (lib : Lib) : ∀ (rs : List (Rec × Nat)) (ops ops' : List (Str × Str)),
    build lib ops rs = some ops' →
    ∀ o ∈ ops', o ∈ ops ∨ ∃ r ∈ rs, o = (recKey r.1 r.2, durString r.1.cost) := by
  intro rs
  induction rs with
  | nil => intro ops ops' h o ho; simp only [build, Option.some.injEq] at h; subst h; exact Or.inl ho
  | cons r rs ih =>
    intro ops ops' h o ho
    obtain ⟨r, t⟩ := r
    simp only [build] at h
    split at h
    · cases h
    · rename_i ops1 h1
      rcases ih _ _ h o ho with h2 | ⟨r', hr', he⟩
      · rcases lib.sound _ _ _ h1 o h2 with h3 | h3
        · exact Or.inl h3
        · exact Or.inr ⟨(r, t), List.mem_cons_self, h3⟩
      · exact Or.inr ⟨r', List.mem_cons_of_mem _ hr', he⟩

theorem removeOld_sub (m : KMap Str) (n : Nat) {kv : Str × Str} (h : kv ∈ (removeOld m n).entries) :
    kv ∈ m.entries := by
  unfold removeOld at h
  split at h
  · exact (List.mem_filter.1 h).1
  · exact h

theorem checkSize_sub (e : Env) (m : KMap Str) (n : Nat) {kv : Str × Str} (h : kv ∈ (checkSize e m n).1.entries) :
    kv ∈ m.entries := by
  unfold checkSize at h
  generalize maxSize = M at h
  split at h
  · split at h
    · split at h
      · split at h
        · exact removeOld_sub _ _ h
        · exact h
      · exact h
    · exact h
  · exact h

theorem foldl_put_mem : ∀ (ops : List (Str × Str)) (m : KMap Str) {kv : Str × Str},
    kv ∈ (ops.foldl (fun m o => m.put o.1 o.2) m).entries → kv ∈ ops ∨ kv ∈ m.entries := by
  intro ops
  induction ops with
  | nil => intro m kv h; exact Or.inr h
  | cons o ops ih =>
    intro m kv h
    rcases ih _ h with h | h
    · exact Or.inl (List.mem_cons_of_mem _ h)
    · rcases rawPut_keys _ _ _ _ h with h | h
      · exact Or.inl (by rw [h]; exact List.mem_cons_self)
      · exact Or.inr h

theorem put_sub (lib : Lib) (acts : List Str) (e : Env) (m : KMap Str) (rs : List (Rec × Nat)) {kv : Str × Str}
    (h : kv ∈ (put lib acts e m rs).1.entries) :
    kv ∈ m.entries ∨ ∃ r ∈ rs, r.1.action ∈ acts ∧ kv = (recKey r.1 r.2, durString r.1.cost) := by
  have base : ∀ kv, kv ∈ ((checkSize e (locked e m) (allows acts rs).length).1.del e.lock).entries →
      kv ∈ m.entries := by
    intro kv hk
    have hne : kv.1 ≠ e.lock := by
      intro he
      have := (mem_iff_get _ kv.1 kv.2).1 hk
      rw [he] at this
      simp at this
    have h1 := checkSize_sub e _ _ ((rawDel_sublist _ _).subset hk)
    rcases rawPut_keys _ _ _ _ h1 with h2 | h2
    · exact absurd (by rw [h2]) hne
    · exact h2
  unfold put at h
  dsimp only at h
  split at h
  · split at h
    · exact Or.inl (base _ h)
    · rename_i ops hb
      split at h
      · rcases foldl_put_mem _ _ h with h | h
        · rcases build_sound lib _ _ _ hb _ h with h | ⟨r, hr, he⟩
          · cases h
          · refine Or.inr ⟨r, (List.mem_filter.1 hr).1, ?_, he⟩
            have := (List.mem_filter.1 hr).2
            simpa using this
        · exact Or.inl (base _ h)
      · exact Or.inl (base _ h)
  · exact Or.inl (base _ h)

/-- **C82** Whatever etcd, the other processes and the library do: every entry is that of a record of an allowed
action that was put. -/
theorem C82_nothing_invented (lib : Lib) (acts : List Str) (cs : List (Env × List (Rec × Nat))) {kv : Str × Str}
    (h : kv ∈ (runPuts lib acts KMap.empty cs).entries) : FromPut acts cs kv := by
  have key : ∀ (cs : List (Env × List (Rec × Nat))) (m : KMap Str) (kv : Str × Str),
      kv ∈ (runPuts lib acts m cs).entries → kv ∈ m.entries ∨ FromPut acts cs kv := by
    intro cs
    induction cs with
    | nil => intro m kv h; exact Or.inl h
    | cons c cs ih =>
      intro m kv h
      obtain ⟨e, rs⟩ := c
      rcases ih _ kv h with h | ⟨c, hc, h⟩
      · rcases put_sub lib acts e m rs h with h | ⟨r, hr, ha, he⟩
        · exact Or.inl h
        · exact Or.inr ⟨(e, rs), List.mem_cons_self, r, hr, ha, he⟩
      · exact Or.inr ⟨c, List.mem_cons_of_mem _ hc, h⟩
  rcases key cs _ kv h with h | h
  · cases h
  · exact h

/-! ## Get -/

theorem readRec_recKey (action : Str) (r : Rec) (ms : Nat) :
    readRec action (recKey r ms, durString r.cost) = some (fmtNat ms, action, 0) := by
  unfold readRec recKey
  simp only [cutLast_append (fmtNat_not_mem (n := ms) (c := '/') (by decide)), toInt64_durString]

/-- **C82, refuted** Nothing that is read back has the kind or the cost it was put with: the kind is the digits of
the time, the cost is zero, and the action is the argument, even if that is empty. -/
theorem C82_kind_lost (lib : Lib) (acts order : List Str) (cs : List (Env × List (Rec × Nat))) (kind action : Str)
    {k a : Str} {c : Int} (h : (k, a, c) ∈ get (runPuts lib acts KMap.empty cs) order kind action) :
    (∃ ms, k = fmtNat ms) ∧ a = action ∧ c = 0 := by
  unfold get at h
  rw [List.mem_flatMap] at h
  obtain ⟨act, _, h⟩ := h
  rw [List.mem_filterMap] at h
  obtain ⟨kv, hkv, h⟩ := h
  obtain ⟨_, _, r, _, _, rfl⟩ := C82_nothing_invented lib acts cs ((List.mem_filter.1 hkv).1)
  rw [readRec_recKey] at h
  cases h
  exact ⟨⟨_, rfl⟩, rfl, rfl⟩

theorem filterMap_length {α β : Type} (f : α → Option β) : ∀ (l : List α), (∀ x ∈ l, (f x).isSome) →
    (l.filterMap f).length = l.length := by
  intro l
  induction l with
  | nil => intro _; rfl
  | cons x l ih =>
    intro h
    obtain ⟨y, hy⟩ := Option.isSome_iff_exists.1 (h x List.mem_cons_self)
    rw [List.filterMap_cons_some hy, List.length_cons, List.length_cons,
      ih fun z hz => h z (List.mem_cons_of_mem _ hz)]

/-- **C82** `Get` returns as many records as `Size` counts. -/
theorem C82_size (lib : Lib) (acts order : List Str) (cs : List (Env × List (Rec × Nat))) (kind action : Str) :
    (get (runPuts lib acts KMap.empty cs) order kind action).length =
      sizeOf (runPuts lib acts KMap.empty cs) order kind action := by
  unfold get sizeOf
  rw [List.length_flatMap]
  congr 1
  apply List.map_congr_left
  intro a _
  apply filterMap_length
  intro kv hkv
  obtain ⟨_, _, r, _, _, rfl⟩ := C82_nothing_invented lib acts cs ((List.mem_filter.1 hkv).1)
  rw [readRec_recKey]
  rfl

theorem prefix_cut {sep : Char} {a a' x y : Str} (ha : sep ∉ a) (ha' : sep ∉ a') :
    hasPrefix (a ++ sep :: x) (a' ++ sep :: y) = true ↔ a = a' ∧ hasPrefix x y = true := by
  rw [hasPrefix_iff, hasPrefix_iff]
  constructor
  · rintro ⟨t, ht⟩
    have h1 := cutOn_append (b := x) ha
    have h2 := cutOn_append (b := y ++ t) ha'
    rw [ht, List.append_assoc, List.cons_append, h2] at h1
    simp only [Option.some.injEq, Prod.mk.injEq] at h1
    exact ⟨h1.1.symm, t, h1.2.symm⟩
  · rintro ⟨rfl, t, rfl⟩
    exact ⟨t, by simp⟩

/-- Which requests see a record: actions without a slash are told apart, kinds only up to a prefix. -/
theorem seen_iff (r : Rec) (ms : Nat) (action kind : Str) (h1 : '/' ∉ r.action) (h2 : '/' ∉ action) :
    hasPrefix (recKey r ms) (keyOf action kind) = true ↔
      r.action = action ∧ hasPrefix (r.kind ++ '/' :: fmtNat ms) kind = true := by
  have e1 : recKey r ms = etcdPrefix ++ '/' :: (r.action ++ '/' :: (r.kind ++ '/' :: fmtNat ms)) := by
    simp [recKey, keyOf]
  have hp : '/' ∉ etcdPrefix := by decide
  rw [e1, keyOf, prefix_cut hp hp, prefix_cut h1 h2]
  simp

theorem rawPut_filter (p : Str → Bool) (v : Str) : ∀ (l : List (Str × Str)) (k : Str), rawGet l k = none →
    ((rawPut l k v).filter fun e => p e.1).length = (l.filter fun e => p e.1).length + if p k then 1 else 0 := by
  intro l
  induction l with
  | nil => intro k _; by_cases h : p k <;> simp [rawPut, h]
  | cons x l ih =>
    intro k hk
    obtain ⟨k', v'⟩ := x
    simp only [rawGet] at hk
    split at hk
    · cases hk
    · rename_i hne
      simp only [rawPut]
      split
      · rename_i h; exact absurd h.symm hne
      · split
        · by_cases h : p k <;> simp only [List.filter_cons, h, if_true, if_false, List.length_cons, Nat.add_zero] <;> rfl
        · by_cases h : p k' <;> simp [h, ih k hk] <;> omega

/-- **C82** Storing a record under a new key adds one to what `Size` counts for its action and every kind that
begins its own, and leaves the other actions and kinds alone.  Missing: that only its own kind counts it
(`C82_other_kind`), and keys that were in use (`C82_collide`). -/
theorem C82_counted_partial (lib : Lib) (acts order : List Str) (e : Env) (m : KMap Str) (rs : List (Rec × Nat))
    (r : Rec) (ms : Nat) (ha : allows acts rs = [(r, ms)]) (hl : m.get e.lock = none) (hs : e.sizeOk = true)
    (hn : e.size + 1 ≤ 100000) (hc : e.commitOk = true) (hk : m.get (recKey r ms) = none)
    (kind action : Str) (hne : action ≠ []) (h1 : '/' ∉ r.action) (h2 : '/' ∉ action) :
    sizeOf (put lib acts e m rs).1 order kind action = sizeOf m order kind action +
      if r.action = action ∧ hasPrefix (r.kind ++ '/' :: fmtNat ms) kind = true then 1 else 0 := by
  have hm : (put lib acts e m rs).1 = m.put (recKey r ms) (durString r.cost) := by
    apply ext_get
    intro k
    rw [(C82_put_one_partial lib acts e m rs r ms ha hl hs hn hc).2 k, get_put]
  rw [hm]
  unfold sizeOf
  rw [if_neg hne]
  simp only [List.map_cons, List.map_nil, List.sum_cons, List.sum_nil, Nat.add_zero]
  unfold below
  rw [show (m.put (recKey r ms) (durString r.cost)).entries = rawPut m.entries (recKey r ms) (durString r.cost)
    from rfl, rawPut_filter (fun k => hasPrefix k (keyOf action kind)) _ _ _ hk]
  congr 1
  by_cases h : r.action = action ∧ hasPrefix (r.kind ++ '/' :: fmtNat ms) kind = true
  · rw [if_pos h, if_pos ((seen_iff r ms action kind h1 h2).2 h)]
  · rw [if_neg h, if_neg fun hh => h ((seen_iff r ms action kind h1 h2).1 hh)]

/-- **C82, refuted for kinds** A record is also counted, and returned, for every kind that its own begins with. -/
theorem C82_other_kind (r : Rec) (ms : Nat) (kind x : Str) (hk : r.kind = kind ++ x) :
    hasPrefix (recKey r ms) (keyOf r.action kind) = true := by
  rw [hasPrefix_iff]
  exact ⟨x ++ '/' :: fmtNat ms, by simp [recKey, keyOf, hk]⟩

/-- **C82, refuted for one millisecond** Of two records of the same kind and action put in the same millisecond
only the second stays. -/
theorem C82_collide (lib : Lib) (acts : List Str) (e e' : Env) (m : KMap Str) (r r' : Rec) (ms : Nat)
    (hk : r'.kind = r.kind) (ha : r'.action = r.action) (hact : r.action ∈ acts) (hl : m.get e.lock = none)
    (hl' : m.get e'.lock = none) (hlr : e'.lock ≠ recKey r ms) (hs : e.sizeOk = true) (hs' : e'.sizeOk = true)
    (hn : e.size + 1 ≤ 100000) (hn' : e'.size + 1 ≤ 100000) (hc : e.commitOk = true) (hc' : e'.commitOk = true) :
    runPuts lib acts m [(e, [(r, ms)]), (e', [(r', ms)])] = runPuts lib acts m [(e', [(r', ms)])] := by
  have hkey : recKey r' ms = recKey r ms := by simp [recKey, hk, ha]
  have a1 : allows acts [(r, ms)] = [(r, ms)] := by simp [allows, hact]
  have a2 : allows acts [(r', ms)] = [(r', ms)] := by simp [allows, ha, hact]
  have p1 := C82_put_one_partial lib acts e m _ r ms a1 hl hs hn hc
  have hl2 : (put lib acts e m [(r, ms)]).1.get e'.lock = none := by rw [p1.2, if_neg hlr]; exact hl'
  have p2 := C82_put_one_partial lib acts e' _ _ r' ms a2 hl2 hs' hn' hc'
  have p3 := C82_put_one_partial lib acts e' m _ r' ms a2 hl' hs' hn' hc'
  apply ext_get
  intro k
  simp only [runPuts]
  rw [p2.2, p3.2, p1.2, hkey]
  by_cases h : k = recKey r ms <;> simp [h]

/-! ## The limit -/

/-- Counted by `Size("", "")` for the actions `acts`. -/
def counted (acts : List Str) (k : Str) : Bool := acts.any fun a => hasPrefix k (keyOf a [])

theorem counted_prefix {acts : List Str} {k : Str} (h : counted acts k = true) : hasPrefix k etcdPrefix = true := by
  unfold counted at h
  rw [List.any_eq_true] at h
  obtain ⟨a, _, h⟩ := h
  obtain ⟨t, rfl⟩ := (hasPrefix_iff _ _).1 h
  rw [hasPrefix_iff]
  exact ⟨'/' :: (a ++ '/' :: []) ++ t, by simp [keyOf]⟩

theorem keyOf_disjoint {a b k : Str} (ha : '/' ∉ a) (hb : '/' ∉ b) (h1 : hasPrefix k (keyOf a []) = true)
    (h2 : hasPrefix k (keyOf b []) = true) : a = b := by
  obtain ⟨t, rfl⟩ := (hasPrefix_iff _ _).1 h1
  have hp : '/' ∉ etcdPrefix := by decide
  have e1 : keyOf a [] ++ t = etcdPrefix ++ '/' :: (a ++ '/' :: t) := by simp [keyOf]
  rw [e1, keyOf, prefix_cut hp hp, prefix_cut ha hb] at h2
  exact h2.2.1

theorem sizeOf_counted (m : KMap Str) : ∀ (acts : List Str), acts.Nodup → (∀ a ∈ acts, '/' ∉ a) →
    sizeOf m acts [] [] = m.entries.countP fun e => counted acts e.1 := by
  intro acts
  unfold sizeOf
  rw [if_pos rfl]
  induction acts with
  | nil => intro _ _; simp [counted]
  | cons a acts ih =>
    intro hnd hs
    rw [List.nodup_cons] at hnd
    rw [List.map_cons, List.sum_cons, ih hnd.2 fun b hb => hs b (List.mem_cons_of_mem _ hb)]
    unfold below
    rw [← List.countP_eq_length_filter]
    generalize m.entries = l
    induction l with
    | nil => rfl
    | cons x l ihl =>
      simp only [List.countP_cons]
      have hx : (if counted (a :: acts) x.1 = true then 1 else 0) =
          (if hasPrefix x.1 (keyOf a []) = true then 1 else 0) + (if counted acts x.1 = true then 1 else 0) := by
        by_cases h1 : hasPrefix x.1 (keyOf a []) = true
        · have h2 : ¬ counted acts x.1 = true := by
            intro h
            unfold counted at h
            rw [List.any_eq_true] at h
            obtain ⟨b, hb, h⟩ := h
            have := keyOf_disjoint (hs a List.mem_cons_self) (hs b (List.mem_cons_of_mem _ hb)) h1 h
            exact hnd.1 (this ▸ hb)
          simp [counted, h1] at h2 ⊢
          simpa using h2
        · simp [counted, h1]
      rw [hx, ← ihl]
      omega

theorem rawPut_countP_le (p : Str × Str → Bool) (k v : Str) : ∀ (l : List (Str × Str)),
    (rawPut l k v).countP p ≤ l.countP p + if p (k, v) then 1 else 0 := by
  intro l
  induction l with
  | nil => simp [rawPut, List.countP_cons]
  | cons x l ih =>
    obtain ⟨k', v'⟩ := x
    simp only [rawPut]
    split
    · simp only [List.countP_cons]; omega
    · split
      · simp only [List.countP_cons]; omega
      · simp only [List.countP_cons]; omega

theorem countP_three {α : Type} (p c q : α → Bool) : ∀ (l : List α),
    (l.countP fun x => p x && !q x) ≤ (l.countP fun x => c x && !q x) + l.countP fun x => p x && !c x := by
  intro l
  induction l with
  | nil => exact Nat.le_refl _
  | cons x l ih =>
    rw [List.countP_cons, List.countP_cons, List.countP_cons]
    cases p x <;> cases c x <;> cases q x <;>
      simp only [Bool.not_true, Bool.not_false, Bool.and_true, Bool.and_false, Bool.false_and, Bool.true_and,
        if_true, Bool.false_eq_true, if_false] <;> omega

theorem rawPut_others (k v : Str) : ∀ (l : List (Str × Str)),
    (rawPut l k v).filter (fun x => !(x.1 == k)) = l.filter fun x => !(x.1 == k) := by
  intro l
  induction l with
  | nil => simp [rawPut]
  | cons x l ih =>
    obtain ⟨k', v'⟩ := x
    simp only [rawPut]
    split
    · rename_i h; subst h; simp
    · split
      · rw [List.filter_cons_of_neg (by simp)]
      · rw [List.filter_cons, List.filter_cons, ih]

theorem countP_split {α : Type} (p q : α → Bool) : ∀ (l : List α),
    l.countP p = (l.filter q).countP p + l.countP fun x => p x && !q x := by
  intro l
  induction l with
  | nil => rfl
  | cons x l ih =>
    by_cases hq : q x = true <;> by_cases hp : p x = true <;>
      simp [List.countP_cons, hp, hq, ih] <;> omega

/-- The keys before the last of the oldest ones are removed. -/
theorem removed_count (m : KMap Str) (n : Nat) (hn : n ≤ (m.keys.filter (hasPrefix · etcdPrefix)).length) (h0 : 0 < n) :
    ∃ a b, removeOld m n = delRange m a b ∧
      n - 1 ≤ m.keys.countP fun k => hasPrefix k etcdPrefix && !(strLt k a || !strLt k b) := by
  have hlen : (oldest m n).length = n := by unfold oldest; rw [List.length_take]; omega
  have hne : oldest m n ≠ [] := by intro h; rw [h] at hlen; simp at hlen; omega
  obtain ⟨a, l, hl⟩ : ∃ a l, oldest m n = a :: l := List.exists_cons_of_ne_nil hne
  have hsub : (oldest m n).Sublist (m.keys.filter (hasPrefix · etcdPrefix)) := List.take_sublist _ _
  have hsorted : (oldest m n).Pairwise fun a b => strLt a b = true :=
    (m.keys_sorted.sublist List.filter_sublist).sublist hsub
  refine ⟨a, (oldest m n).getLast hne, ?_, ?_⟩
  · unfold removeOld
    rw [List.getLast?_eq_some_getLast hne]
    simp only [hl, List.head?_cons]
  · have hd : (oldest m n).dropLast.countP
        (fun k => !(strLt k a || !strLt k ((oldest m n).getLast hne))) = n - 1 := by
      rw [List.countP_eq_length.2, List.length_dropLast, hlen]
      intro k hk
      have hk1 : strLt k a = false := by
        have := (List.dropLast_sublist _).subset hk
        rw [hl] at this hsorted
        rcases List.mem_cons.1 this with rfl | h
        · exact strLt_irrefl _
        · exact strLt_asymm ((List.pairwise_cons.1 hsorted).1 k h)
      have hk2 : strLt k ((oldest m n).getLast hne) = true := by
        have h2 := hsorted
        rw [← List.dropLast_concat_getLast hne, List.pairwise_append] at h2
        exact h2.2.2 k hk _ (by simp)
      simp [hk1, hk2]
    have h3 := ((List.dropLast_sublist (oldest m n)).trans hsub).countP_le
      (p := fun k => !(strLt k a || !strLt k ((oldest m n).getLast hne)))
    rw [hd, List.countP_filter] at h3
    refine Nat.le_trans h3 (Nat.le_of_eq ?_)
    congr 1
    funext k
    rw [Bool.and_comm]

theorem limit_aux (M : Nat) (hMM : maxSize = M) (hM : 1 ≤ M) (lib : Lib) (acts : List Str) (hnd : acts.Nodup) (hsl : ∀ a ∈ acts, '/' ∉ a) (e : Env)
    (m : KMap Str) (rs : List (Rec × Nat)) (r : Rec) (ms w : Nat) (ha : allows acts rs = [(r, ms)])
    (hex : e.size = sizeOf m acts [] []) (hlc : counted acts e.lock = false)
    (hw : ((locked e m).keys.countP fun k => hasPrefix k etcdPrefix && !counted acts k) ≤ w)
    (hs : e.sizeOk = true) (hg : e.getOk = true) (hd : e.delOk = true) :
    sizeOf (put lib acts e m rs).1 acts [] [] ≤ M + 1 + w := by
  rw [sizeOf_counted _ acts hnd hsl] at hex ⊢
  -- counts in the locked state
  have hcl : (locked e m).entries.countP (fun x => counted acts x.1) ≤ e.size := by
    have := rawPut_countP_le (fun x => counted acts x.1) e.lock [] m.entries
    simp only [hlc, Bool.false_eq_true, if_false, Nat.add_zero] at this
    rw [hex]
    exact this
  have hkc : ∀ (m : KMap Str) (p : Str → Bool), m.keys.countP p = m.entries.countP fun x => p x.1 := by
    intro m p; unfold KMap.keys; rw [List.countP_map]; rfl
  -- what is left after the check
  have hleft : (checkSize e (locked e m) 1).1.entries.countP (fun x => counted acts x.1) ≤ M + w := by
    unfold checkSize
    rw [if_pos hs, hMM]
    by_cases hfull : M < e.size + 1
    · rw [if_pos hfull, if_pos hg, if_pos hd]
      dsimp only
      by_cases hlow : (locked e m).entries.countP (fun x => counted acts x.1) ≤ M + w
      · refine Nat.le_trans ?_ hlow
        refine List.Sublist.countP_le ?_
        unfold removeOld
        split
        · exact List.filter_sublist
        · exact List.Sublist.refl _
      · have hcp : (locked e m).keys.countP (fun k => counted acts k) ≤
            ((locked e m).keys.filter (hasPrefix · etcdPrefix)).length := by
          rw [← List.countP_eq_length_filter]
          exact List.countP_mono_left fun k _ hk => counted_prefix hk
        -- the locked state counts exactly `e.size`
        have hge : e.size ≤ (locked e m).entries.countP (fun x => counted acts x.1) := by
          rw [hex]
          have h1 := countP_split (fun x : Str × Str => counted acts x.1) (fun x => !(x.1 == e.lock)) m.entries
          have h2 : (m.entries.countP fun x => counted acts x.1 && !!(x.1 == e.lock)) = 0 := by
            rw [List.countP_eq_zero]
            intro x _ hx
            simp only [Bool.not_not, Bool.and_eq_true, beq_iff_eq] at hx
            rw [hx.2, hlc] at hx
            exact absurd hx.1 (by decide)
          rw [h1, h2, Nat.add_zero]
          have h3 : (m.entries.filter fun x => !(x.1 == e.lock)).Sublist (locked e m).entries := by
            refine List.Sublist.trans ?_ (List.filter_sublist (p := fun x => !(x.1 == e.lock)))
            have : (locked e m).entries.filter (fun x => !(x.1 == e.lock)) =
                m.entries.filter fun x => !(x.1 == e.lock) := rawPut_others e.lock [] m.entries
            rw [this]
            exact List.Sublist.refl _
          exact h3.countP_le
        have hn1 : e.size + 1 - M ≤ ((locked e m).keys.filter (hasPrefix · etcdPrefix)).length := by
          rw [hkc] at hcp
          omega
        obtain ⟨a, b, hr, hrem⟩ := removed_count (locked e m) (e.size + 1 - M) hn1 (by omega)
        rw [hr]
        have h1 := countP_split (fun x : Str × Str => counted acts x.1)
          (fun x => strLt x.1 a || !strLt x.1 b) (locked e m).entries
        -- of the removed keys with the prefix at most `w` are not counted
        have h2 : ((locked e m).keys.countP fun k => hasPrefix k etcdPrefix && !(strLt k a || !strLt k b)) ≤
            ((locked e m).keys.countP fun k => counted acts k && !(strLt k a || !strLt k b)) +
            (locked e m).keys.countP fun k => hasPrefix k etcdPrefix && !counted acts k := by
          exact countP_three (hasPrefix · etcdPrefix) (counted acts) (fun k => strLt k a || !strLt k b) _
        rw [hkc _ fun k => counted acts k && !(strLt k a || !strLt k b)] at h2
        have h3 : (delRange (locked e m) a b).entries =
            (locked e m).entries.filter fun x => strLt x.1 a || !strLt x.1 b := rfl
        rw [h3]
        omega
    · rw [if_neg hfull]
      dsimp only
      omega
  -- the rest of `Put` adds one at most
  have hdel : ((checkSize e (locked e m) 1).1.del e.lock).entries.countP (fun x => counted acts x.1) ≤ M + w :=
    Nat.le_trans (rawDel_sublist _ _).countP_le hleft
  unfold put
  simp only [ha, List.length_singleton, build, lib.first]
  split
  · split
    · simp only [List.foldl_cons, List.foldl_nil]
      refine Nat.le_trans (rawPut_countP_le _ _ _ _) ?_
      split <;> omega
    · dsimp only; omega
  · dsimp only; omega

/-- **C82** Had `Size` waited for its count, the store would stay within the limit, but for one record and for as
many as there are keys of locks (`w`, that of this process among them).  Missing: that `Size` is right
(`C82_unbounded`). -/
theorem C82_limit_partial (lib : Lib) (acts : List Str) (hnd : acts.Nodup) (hsl : ∀ a ∈ acts, '/' ∉ a) (e : Env)
    (m : KMap Str) (rs : List (Rec × Nat)) (r : Rec) (ms w : Nat) (ha : allows acts rs = [(r, ms)])
    (hex : e.size = sizeOf m acts [] []) (hlc : counted acts e.lock = false)
    (hw : ((locked e m).keys.countP fun k => hasPrefix k etcdPrefix && !counted acts k) ≤ w)
    (hs : e.sizeOk = true) (hg : e.getOk = true) (hd : e.delOk = true) :
    sizeOf (put lib acts e m rs).1 acts [] [] ≤ 100000 + 1 + w :=
  limit_aux 100000 rfl (by decide) lib acts hnd hsl e m rs r ms w ha hex hlc hw hs hg hd

theorem lock_aux (M : Nat) (hMM : maxSize = M) (e : Env) (m : KMap Str) (n : Nat) (k : Str) (hs : e.sizeOk = true) (hg : e.getOk = true)
    (hd : e.delOk = true) (hn : M + 1 < e.size + n) (hp : hasPrefix e.lock etcdPrefix = true)
    (hk : k ∈ m.keys) (hkp : hasPrefix k etcdPrefix = true) (hne : k ≠ e.lock)
    (hfst : ∀ k ∈ m.keys, hasPrefix k etcdPrefix = true → strLt k e.lock = false) :
    (locked e m).get e.lock = some [] ∧ (checkSize e (locked e m) n).1.get e.lock = none := by
  refine ⟨by simp [locked], ?_⟩
  unfold checkSize
  rw [hMM, if_pos hs, if_pos (by omega), if_pos hg, if_pos hd]
  dsimp only
  have hks : ∀ x, x ∈ (locked e m).keys ↔ x = e.lock ∨ x ∈ m.keys := by
    intro x
    rw [mem_keys_iff, mem_keys_iff, locked, get_put]
    by_cases h : x = e.lock <;> simp [h]
  -- the keys below the prefix: the lock, then others
  generalize hF : (locked e m).keys.filter (hasPrefix · etcdPrefix) = F
  have hFs : F.Pairwise fun a b => strLt a b = true := by
    rw [← hF]; exact (locked e m).keys_sorted.sublist List.filter_sublist
  have hmem : ∀ x, x ∈ F ↔ (x = e.lock ∨ x ∈ m.keys) ∧ hasPrefix x etcdPrefix = true := by
    intro x; rw [← hF, List.mem_filter, hks]
  match F, hF, hFs, hmem with
  | [], _, _, hmem => exact absurd ((hmem e.lock).2 ⟨Or.inl rfl, hp⟩) (by simp)
  | [x], _, _, hmem =>
    have h1 := (hmem e.lock).2 ⟨Or.inl rfl, hp⟩
    have h2 := (hmem k).2 ⟨Or.inr hk, hkp⟩
    simp only [List.mem_singleton] at h1 h2
    exact absurd (h2.trans h1.symm) hne
  | x :: y :: l, hF, hFs, hmem =>
    have hx : x = e.lock := by
      have h1 := (hmem e.lock).2 ⟨Or.inl rfl, hp⟩
      rcases List.mem_cons.1 h1 with h | h
      · exact h.symm
      · have h2 := (List.pairwise_cons.1 hFs).1 _ h
        obtain ⟨h3 | h3, h4⟩ := (hmem x).1 List.mem_cons_self
        · exact h3
        · rw [hfst x h3 h4] at h2; exact absurd h2 (by decide)
    subst hx
    obtain ⟨j, hj⟩ : ∃ j, e.size + n - M = j + 2 := ⟨e.size + n - M - 2, by omega⟩
    have hold : oldest (locked e m) (e.size + n - M) = e.lock :: y :: l.take j := by
      unfold oldest; rw [hF, hj]; rfl
    have hlast : strLt e.lock ((y :: l.take j).getLast (by simp)) = true := by
      apply (List.pairwise_cons.1 hFs).1
      have := List.getLast_mem (l := y :: l.take j) (by simp)
      rcases List.mem_cons.1 this with h | h
      · rw [h]; exact List.mem_cons_self
      · exact List.mem_cons_of_mem _ (List.mem_of_mem_take h)
    unfold removeOld
    rw [hold, List.getLast?_eq_some_getLast (by simp), List.head?_cons, List.getLast_cons (by simp)]
    dsimp only
    cases hget : (delRange (locked e m) e.lock ((y :: l.take j).getLast (by simp))).get e.lock with
    | none => rfl
    | some v =>
      have := (List.mem_filter.1 ((mem_iff_get _ _ _).2 hget)).2
      simp [strLt_irrefl, hlast] at this

/-- **C82, refuted for the lock** While old keys are removed the key of the lock is removed as well, if it is the
first below the prefix: the process goes on in its critical section without the lock. -/
theorem C82_lock_removed (e : Env) (m : KMap Str) (n : Nat) (k : Str) (hs : e.sizeOk = true) (hg : e.getOk = true)
    (hd : e.delOk = true) (hn : maxSize + 1 < e.size + n) (hp : hasPrefix e.lock etcdPrefix = true)
    (hk : k ∈ m.keys) (hkp : hasPrefix k etcdPrefix = true) (hne : k ≠ e.lock)
    (hfst : ∀ k ∈ m.keys, hasPrefix k etcdPrefix = true → strLt k e.lock = false) :
    (locked e m).get e.lock = some [] ∧ (checkSize e (locked e m) n).1.get e.lock = none :=
  lock_aux maxSize rfl e m n k hs hg hd hn hp hk hkp hne hfst

/-! ## The limit is not kept -/

def exRec : Rec := ⟨"http".toList, "read".toList, 1500000⟩
def exEnv : Env := ⟨"performance-data/694d".toList, 0, true, true, true, true⟩

/-- One record in each of the milliseconds `b`, `b + 1`, … -/
def exCalls (b : Nat) : Nat → List (Env × List (Rec × Nat))
  | 0 => []
  | n + 1 => (exEnv, [(exRec, b)]) :: exCalls (b + 1) n

theorem exLock_ne (j : Nat) : exEnv.lock ≠ recKey exRec j := by
  intro h
  have h1 : hasPrefix exEnv.lock (keyOf exRec.action []) = true := by
    rw [h, hasPrefix_iff]
    exact ⟨exRec.kind ++ '/' :: fmtNat j, by simp [recKey, keyOf]⟩
  exact absurd h1 (by decide)

theorem recKey_inj (r : Rec) {i j : Nat} (h : recKey r i = recKey r j) : i = j := by
  unfold recKey at h
  have := List.append_cancel_left h
  simp only [List.cons.injEq, true_and] at this
  exact fmtNat_inj this

theorem exCalls_run (lib : Lib) : ∀ (n b : Nat) (m : KMap Str),
    (∀ k, (m.get k).isSome → ∃ j, j < b ∧ k = recKey exRec j) →
    CalmRun lib [exRec.action] m (exCalls b n) ∧
    sizeOf (runPuts lib [exRec.action] m (exCalls b n)) [exRec.action] [] [] =
      sizeOf m [exRec.action] [] [] + n := by
  intro n
  induction n with
  | zero => intro b m _; exact ⟨trivial, rfl⟩
  | succ n ih =>
    intro b m hm
    have ha : allows [exRec.action] [(exRec, b)] = [(exRec, b)] := by simp [allows]
    have hl : m.get exEnv.lock = none := by
      cases h : m.get exEnv.lock with
      | none => rfl
      | some v =>
        obtain ⟨j, _, hj⟩ := hm exEnv.lock (by rw [h]; rfl)
        exact absurd hj (exLock_ne j)
    have hk : m.get (recKey exRec b) = none := by
      cases h : m.get (recKey exRec b) with
      | none => rfl
      | some v =>
        obtain ⟨j, hlt, hj⟩ := hm _ (by rw [h]; rfl)
        exact absurd (recKey_inj _ hj) (by omega)
    have hroom : exEnv.size + 1 ≤ maxSize := by decide
    have hp := C82_put_one_partial lib [exRec.action] exEnv m _ exRec b ha hl rfl hroom rfl
    have hc := C82_counted_partial lib [exRec.action] [exRec.action] exEnv m _ exRec b ha hl rfl hroom rfl hk []
      exRec.action (by decide) (by decide) (by decide)
    rw [if_pos ⟨rfl, (hasPrefix_iff _ _).2 ⟨_, rfl⟩⟩] at hc
    have hsz : ∀ m : KMap Str, sizeOf m [exRec.action] [] exRec.action = sizeOf m [exRec.action] [] [] := by
      intro m; unfold sizeOf; rw [if_pos rfl, if_neg (by decide)]
    rw [hsz, hsz] at hc
    have hnext : ∀ k, ((put lib [exRec.action] exEnv m [(exRec, b)]).1.get k).isSome →
        ∃ j, j < b + 1 ∧ k = recKey exRec j := by
      intro k hkk
      rw [hp.2] at hkk
      by_cases h : k = recKey exRec b
      · exact ⟨b, by omega, h⟩
      · rw [if_neg h] at hkk
        obtain ⟨j, hj, e⟩ := hm k hkk
        exact ⟨j, by omega, e⟩
    obtain ⟨i1, i2⟩ := ih (b + 1) _ hnext
    refine ⟨⟨⟨hl, Nat.zero_le _, rfl, rfl, rfl, rfl⟩, i1⟩, ?_⟩
    simp only [exCalls, runPuts]
    rw [i2, hc]
    omega

/-- **C82, refuted for the limit** Because `Size` returns before its goroutines have counted, the store grows
without bound although etcd never fails: for every `n` there is a history that leaves `n` records. -/
theorem C82_unbounded (lib : Lib) (n : Nat) : ∃ cs, CalmRun lib [exRec.action] KMap.empty cs ∧
    sizeOf (runPuts lib [exRec.action] KMap.empty cs) [exRec.action] [] [] = n := by
  obtain ⟨h1, h2⟩ := exCalls_run lib n 0 KMap.empty (by intro k h; simp at h)
  exact ⟨_, h1, by rw [h2]; simp [sizeOf, below, KMap.empty]⟩

/-- **C82, refuted** Neither part of the statement holds, whatever the library does. -/
theorem C82_statement_fails (lib : Lib) : ¬ C82_statement lib := by
  intro h
  obtain ⟨cs, h1, h2⟩ := C82_unbounded lib (100000 + 1)
  have := (h _ cs h1).1
  rw [h2] at this
  omega

/-- **C82, refuted for reading** Even one record alone is not read back. -/
theorem C82_read_fails (lib : Lib) : ∃ cs, CalmRun lib [exRec.action] KMap.empty cs ∧ (cs.flatMap (·.2)).length = 1 ∧
    ¬ (get (runPuts lib [exRec.action] KMap.empty cs) [exRec.action] exRec.kind exRec.action).Perm
      (expected [exRec.action] cs exRec.kind exRec.action) := by
  refine ⟨exCalls 0 1, (exCalls_run lib 1 0 KMap.empty (by intro k h; simp at h)).1, rfl, ?_⟩
  intro h
  have hm : (exRec.kind, exRec.action, (1500000 : Int)) ∈
      expected [exRec.action] (exCalls 0 1) exRec.kind exRec.action := by decide
  obtain ⟨_, _, hc⟩ := C82_kind_lost lib _ _ _ _ _ (h.mem_iff.2 hm)
  exact absurd hc (by decide)

/-! ## With the collector in front -/

/-- A call of `Put` that returned normally had at most one allowed record, if a second `Then` panics. -/
theorem ok_few (lib : Lib) (hp : ∀ o ops op, lib.more (o :: ops) op = none) (acts : List Str) (e : Env)
    (m : KMap Str) (rs : List (Rec × Nat)) (h : (put lib acts e m rs).2 = .ok) : (allows acts rs).length ≤ 1 := by
  match hrs : allows acts rs with
  | [] => simp
  | [_] => simp
  | (r1, t1) :: (r2, t2) :: rest =>
    have hb : build lib [] (allows acts rs) = none := by rw [hrs]; simp only [build, lib.first, hp]
    unfold put at h
    dsimp only at h
    rw [hb] at h
    split at h <;> cases h

/-- The batch a call of the collector hands to the store, if it does. -/
def batch (c : Col) : Call → List Rec
  | .put r _ => c.mem ++ [r]
  | .flush _ => c.mem

def accepted : Call → Bool
  | .put _ ok => ok
  | .flush ok => ok

/-- The answers in `calls` are those of this store: it accepts a batch only if its `Put` returns normally, for
some state of etcd and some times. -/
def Answered (lib : Lib) (acts : List Str) (cf : Conf) (c : Col) : List Call → Prop
  | [] => True
  | e :: calls => (accepted e = true → ∃ env m rs, rs.map (·.1) = batch c e ∧ (put lib acts env m rs).2 = .ok) ∧
      Answered lib acts cf (step cf c e).1 calls

/-- **C82, refuted with the collector** Once two records of allowed actions are in memory, no flush ever succeeds
again, nothing more reaches the store, and the memory grows with every record, without regard to its limit. -/
theorem C82_stuck (lib : Lib) (hp : ∀ o ops op, lib.more (o :: ops) op = none) (acts : List Str) (cf : Conf)
    (hf : cf.flushWhenReached = true) (calls : List Call) (c : Col)
    (h2 : 2 ≤ (c.mem.filter fun r => acts.contains r.action).length) (ha : Answered lib acts cf c calls) :
    run cf c calls = ⟨c.mem ++ handed calls, c.saved⟩ := by
  have few : ∀ (b : List Rec), (∃ env m rs, rs.map (·.1) = b ∧ (put lib acts env m rs).2 = .ok) →
      (b.filter fun r => acts.contains r.action).length ≤ 1 := by
    rintro b ⟨env, m, rs, rfl, hok⟩
    have := ok_few lib hp acts env m rs hok
    rw [List.filter_map, List.length_map]
    exact this
  induction calls generalizing c with
  | nil => simp [run, handed]
  | cons x calls ih =>
    obtain ⟨h1, h3⟩ := ha
    rw [show run cf c (x :: calls) = run cf (step cf c x).1 calls from rfl]
    have hrej : accepted x = false := by
      cases hx : accepted x with
      | false => rfl
      | true =>
        have := few _ (h1 hx)
        cases x with
        | put r ok => simp only [batch, List.filter_append, List.length_append] at this; omega
        | flush ok => simp only [batch] at this; omega
    cases x with
    | put r ok =>
      simp only [accepted] at hrej
      subst hrej
      have hst : (step cf c (.put r false)).1 = ⟨c.mem ++ [r], c.saved⟩ := by
        simp only [step, collect, hf, if_true, flush]
        split <;> rfl
      rw [hst] at h3 ⊢
      rw [ih _ (by simp only [List.filter_append, List.length_append]; omega) h3]
      simp [handed]
    | flush ok =>
      simp only [accepted] at hrej
      subst hrej
      have hst : (step cf c (.flush false)).1 = c := rfl
      rw [hst] at h3 ⊢
      rw [ih _ h2 h3]
      simp [handed]

/-! ## Cases -/

/-- Cost texts as Go writes them. -/
example : durString 1500000 = "1.5ms".toList ∧ durString 999 = "999ns".toList ∧
    durString 3661000000001 = "1h1m1.000000001s".toList ∧ durString 60000000000 = "1m0s".toList ∧
    durString 1200 = "1.2µs".toList := by decide

/-- One record among others: the hypotheses of `C82_put_one_partial` and `C82_counted_partial` are met. -/
example : allows [exRec.action] [(⟨"http".toList, "delete".toList, 4⟩, 7), (exRec, 8)] = [(exRec, 8)] ∧
    (KMap.empty : KMap Str).get exEnv.lock = none ∧ exEnv.size + 1 ≤ maxSize ∧
    (KMap.empty : KMap Str).get (recKey exRec 8) = none := by decide

/-- What is read of one record. -/
example : get (runPuts lenient [exRec.action] KMap.empty (exCalls 5 1)) [exRec.action] exRec.kind exRec.action =
    [("5".toList, exRec.action, 0)] := by decide

/-- Two records in one call, with either library. -/
example : (put strict [exRec.action] exEnv KMap.empty [(exRec, 1), (exRec, 2)]).2 = .panicked ∧
    (put lenient [exRec.action] exEnv KMap.empty [(exRec, 1), (exRec, 2)]).2 = .ok := by decide

/-- `strict` meets the hypothesis of `C82_panics` and `C82_stuck`. -/
example : ∀ o ops op, strict.more (o :: ops) op = none := fun _ _ _ => rfl

/-- A full store in which the lock comes first: the hypotheses of `C82_lock_removed`. -/
example : strLt (recKey exRec 5) exEnv.lock = false ∧ hasPrefix exEnv.lock etcdPrefix = true ∧
    counted [exRec.action] exEnv.lock = false ∧
    (checkSize { exEnv with size := maxSize + 1 }
      (locked exEnv (runPuts lenient [exRec.action] KMap.empty (exCalls 5 3))) 1).1.get exEnv.lock = none := by
  decide

/-- The hypotheses of `C82_limit_partial`, with the lock of this process as the only key of its sort. -/
example : sizeOf (runPuts lenient [exRec.action] KMap.empty (exCalls 5 3)) [exRec.action] [] [] = 3 ∧
    ((locked exEnv (runPuts lenient [exRec.action] KMap.empty (exCalls 5 3))).keys.countP fun k =>
      hasPrefix k etcdPrefix && !counted [exRec.action] k) = 1 := by decide

/-- The hypotheses of `C82_collide`: two costs in one millisecond, the first is gone. -/
example : (runPuts lenient [exRec.action] KMap.empty
    [(exEnv, [(exRec, 5)]), (exEnv, [({ exRec with cost := 7 }, 5)])]).entries =
      [(recKey exRec 5, "7ns".toList)] := by decide

/-- A collector that is stuck. -/
example : Answered strict [exRec.action] ⟨1, true⟩ ⟨[exRec, exRec], []⟩ [.put exRec false, .flush false] :=
  ⟨fun h => absurd h (by decide), fun h => absurd h (by decide), trivial⟩

example : put lenient [exRec.action] { exEnv with sizeOk := false } KMap.empty [(exRec, 1)] = (KMap.empty, .err) ∧
    put lenient [exRec.action] { exEnv with size := 100000, getOk := false } KMap.empty [(exRec, 1)] = (KMap.empty, .err) ∧
    put lenient [exRec.action] { exEnv with size := 100000, delOk := false } KMap.empty [(exRec, 1)] = (KMap.empty, .err) :=
  ⟨C82_failed _ _ _ _ _ rfl (.inl rfl), C82_failed _ _ _ _ _ rfl (.inr ⟨by decide, .inl rfl⟩),
    C82_failed _ _ _ _ _ rfl (.inr ⟨by decide, .inr rfl⟩)⟩

end Verif.Perf.Etcd
