import Verif.Meta.Props

/-!
# Latest version, retention and version pages: C17, C18, C25
-/

namespace Verif.Meta

open Verif

/-- The keys of an object's versions are ordered as the decimal texts of the numbers. -/
theorem strLt_verKey (n : Str) (q q' : Nat) :
    strLt (verKey n q) (verKey n q') = strLt (fmtNat q) (fmtNat q') := by
  unfold verKey
  rw [strLt_append_left]
  simp [strLt]

theorem pairwise_head {α : Type} {R : α → α → Prop} {a : α} {l : List α} (h : (a :: l).Pairwise R)
    {x : α} (hx : x ∈ a :: l) : x = a ∨ R a x := by
  rcases List.mem_cons.1 hx with h' | h'
  · exact Or.inl h'
  · exact Or.inr ((List.pairwise_cons.1 h).1 x h')

/-- The number read from the last key: stored, and its text is the largest. -/
theorem last_spec {s : Store} (hi : Inv s) {n : Str} {q : Nat} {v : Version} (h : Stored s n q v) :
    ∃ w, Stored s n (lastVersionNumber s n) w ∧
      (q = lastVersionNumber s n ∨ strLt (fmtNat q) (fmtNat (lastVersionNumber s n)) = true) := by
  obtain ⟨b, hb, hg⟩ := h
  have hm : verKey n q ∈ b.items.keys := by rw [KMap.mem_keys_iff, hg]; rfl
  have hne : b.items.keys ≠ [] := by
    intro he; rw [he] at hm; simp at hm
  have hl := List.getLast_mem hne
  rw [KMap.mem_keys_iff, Option.isSome_iff_exists] at hl
  obtain ⟨w, hw⟩ := hl
  obtain ⟨q', hk, _, _⟩ := hi.key n b _ w hb hw
  have hlast : lastVersionNumber s n = q' := by
    unfold lastVersionNumber
    simp only [hb, List.getLast?_eq_some_getLast hne, hk, keySeq_verKey, Option.getD_some]
  rw [hlast]
  refine ⟨w, ⟨b, hb, by rw [← hk]; exact hw⟩, ?_⟩
  rcases pairwise_getLast (KMap.keys_sorted b.items) hne hm with h | h
  · rw [hk] at h; exact Or.inl (verKey_inj h).2
  · rw [hk, strLt_verKey] at h; exact Or.inr h

/-- The number `GetExtra` reports first: stored, and its text is the smallest. -/
theorem first_spec {s : Store} (hi : Inv s) {n : Str} {q : Nat} {v : Version} (h : Stored s n q v) :
    ∃ ex w, getExtra s n = .ok ex ∧ 0 < ex.total ∧ Stored s n ex.firstVersion w ∧
      (q = ex.firstVersion ∨ strLt (fmtNat ex.firstVersion) (fmtNat q) = true) := by
  obtain ⟨b, hb, hg⟩ := h
  have hm : verKey n q ∈ b.items.keys := by rw [KMap.mem_keys_iff, hg]; rfl
  cases hks : b.items.keys with
  | nil => rw [hks] at hm; simp at hm
  | cons k ks =>
    have hl : k ∈ b.items.keys := by rw [hks]; exact List.mem_cons_self ..
    rw [KMap.mem_keys_iff, Option.isSome_iff_exists] at hl
    obtain ⟨w, hw⟩ := hl
    obtain ⟨q', hk, _, _⟩ := hi.key n b _ w hb hw
    have hfirst : extraSeq b.items.keys.head? = q' := by
      rw [hks]
      simp [extraSeq, hk, cutLast_verKey, hi.name n b hb]
    refine ⟨_, w, by rw [getExtra, hb], KMap.size_pos _ hg, ?_, ?_⟩
    · simp only [hfirst]
      exact ⟨b, hb, by rw [← hk]; exact hw⟩
    · simp only [hfirst]
      have hs := KMap.keys_sorted b.items
      rw [hks] at hs hm
      rcases pairwise_head hs hm with h | h
      · rw [hk] at h; exact Or.inl (verKey_inj h).2
      · rw [hk, strLt_verKey] at h; exact Or.inr h

/-! ## C17 -/

/-- Nine versions were added, then a tenth. -/
def tenVersions : Store := (run .empty (.addMeta "b/a".toList (sampleMeta 1) ::
  (List.range 10).map fun i =>
    .addVer "b/a".toList (sampleVer "h".toList (fmtNat i) i))).2

set_option maxRecDepth 10000 in
/-- **C17** as stated *fails*: with ten versions, asking for the latest returns version 9, because
"a.9" is the last key in byte order. -/
theorem C17_statement_fails :
    getVersion tenVersions "b/a".toList 0 = .ok { sampleVer "h".toList "8".toList 8 with sequence := 9 } ∧
    getVer tenVersions "b/a".toList 10 = .ok { sampleVer "h".toList "9".toList 9 with sequence := 10 } :=
  ⟨rfl, rfl⟩

/-- **C17** What the latest version really is, in every reachable store: the version whose decimal
number is last *as text*. -/
theorem C17_latest_is_textual_max {s : Store} (hr : Reachable s) {n : Str} {q : Nat} {v : Version}
    (h : getVer s n q = .ok v) {ver : Int} (hver : ver ≤ 0) :
    ∃ w, getVersion s n ver = .ok w ∧ getVer s n w.sequence = .ok w ∧
      (q = w.sequence ∨ strLt (fmtNat q) (fmtNat w.sequence) = true) := by
  have hi := inv_reachable hr
  obtain ⟨w, hw, hlt⟩ := last_spec hi ((getVer_ok_iff ..).1 h)
  have hw' := (getVer_ok_iff ..).2 hw
  have hseq := C19_version_number hr hw'
  refine ⟨w, ?_, ?_, ?_⟩
  · simp only [getVersion, hver, ↓reduceIte]; exact hw'
  · rw [hseq]; exact hw'
  · rw [hseq]; exact hlt

/-- All stored numbers of the object have the same number of decimal digits. -/
def SameDigits (s : Store) (n : Str) : Prop :=
  ∀ q q' v v', getVer s n q = .ok v → getVer s n q' = .ok v' →
    (fmtNat q).length = (fmtNat q').length

/-- **C17** (partial) When all stored numbers of the object have the same number of digits, asking for
the latest version returns the stored version with the largest number.  Missing: objects whose
numbers cross a power of ten (see the counterexample). -/
theorem C17_latest_partial {s : Store} (hr : Reachable s) {n : Str} (hs : SameDigits s n) {q : Nat}
    {v : Version} (h : getVer s n q = .ok v) {ver : Int} (hver : ver ≤ 0) :
    ∃ w, getVersion s n ver = .ok w ∧ getVer s n w.sequence = .ok w ∧ q ≤ w.sequence := by
  obtain ⟨w, h1, h2, h3⟩ := C17_latest_is_textual_max hr h hver
  refine ⟨w, h1, h2, ?_⟩
  rcases h3 with h3 | h3
  · omega
  · rw [strLt_fmtNat (hs q w.sequence v w h h2)] at h3; omega

/-- Reading a version by its number returns that version, and an object without versions has no
latest version. -/
theorem C17_named {s : Store} (n : Str) (q : Nat) (hq : 1 ≤ q) :
    getVersion s n q = getVer s n q := by
  unfold getVersion
  rw [if_neg (by omega)]; simp

theorem C17_no_version {s : Store} {n : Str} (h : ∀ q v, getVer s n q ≠ .ok v) (ver : Int) :
    getVersion s n ver = .error .notFound := by
  have : ∀ q, getVer s n q = .error .notFound := by
    intro q
    rw [getVer_error_iff]
    exact ⟨rfl, fun v hv => h q v ((getVer_ok_iff ..).2 hv)⟩
  unfold getVersion
  split <;> exact this _

example : getVersion sampleStore "b/a".toList 0 =
    .ok { sampleVer "h2".toList "u2".toList 2 with sequence := 2 } := rfl

/-! ## C18 -/

/-- The retention settings of a bucket. -/
structure Retention where
  versioning : Bool
  remains : Int

/-- Storing one more version of an existing object, `StoreObject`
(src/apiserver/internal/usecase/service/object_service.go:118-125, 182-192) and `finishUpload`
(controller/http/big_api.go:245-262): the extra data is read first, then the version is added, then
the first version is removed when the limit was reached.  Simplified: the removal runs in its own
goroutine after the answer; here it runs to its end before the next request. -/
def storeVersion (r : Retention) (n : Str) (d : Version) (s : Store) : Res × Store :=
  match getExtra s n with
  | .error e => (.err e, s)
  | .ok ex =>
    match step s (.addVer n d) with
    | (.seq q, s1) =>
      if (0 < ex.total ∧ r.versioning = false) ∨ r.remains ≤ ex.total then
        (.seq q, (step s1 (.removeVer n ex.firstVersion)).2)
      else (.seq q, s1)
    | (a, s1) => (a, s1)

/-- The numbers of the stored versions of an object (in key order). -/
def numbers (s : Store) (n : Str) : List Nat :=
  match s.vers.get n with
  | none => []
  | some b => b.items.entries.map (·.2.sequence)

/-- Eleven uploads into a bucket that keeps five versions. -/
def elevenUploads : Store :=
  (List.range 11).foldl
    (fun s i => (storeVersion ⟨true, 5⟩ "b/a".toList (sampleVer "h".toList (fmtNat i) i) s).2)
    (run .empty [.addMeta "b/a".toList (sampleMeta 1)]).2

set_option maxRecDepth 20000 in
/-- **C18** as stated *fails*: in a bucket that keeps five versions the eleventh upload removes version
10 and keeps version 6. -/
theorem C18_statement_fails : numbers elevenUploads "b/a".toList = [11, 6, 7, 8, 9] := by decide

theorem step_removeVer {s : Store} {n : Str} {q : Nat} {b : VBucket} {v : Version}
    (h1 : s.vers.get n = some b) (h2 : b.items.get (verKey n q) = some v) :
    step s (.removeVer n q) = (.ok, { s with
        hashIdx := removeIndex s.hashIdx v.hash (verKey n q)
        uidIdx := removeIndex s.uidIdx v.hash (verKey n q)
        vers := s.vers.put n { b with items := b.items.del (verKey n q) } }) := by
  simp [step, update, removeVer, h1, h2, Res.ofUnit]

/-- What a retained upload does, in every reachable store with at least one version: when the limit
was reached, the version with the textually smallest number is removed and nothing else. -/
theorem C18_removes_textual_min {s s' : Store} (hr : Reachable s) {r : Retention} {n : Str}
    {d v : Version} {q q0 : Nat} {ex : Extra} (h : storeVersion r n d s = (.seq q, s'))
    (hv : getVer s n q0 = .ok v) (hex : getExtra s n = .ok ex)
    (hc : r.versioning = false ∨ r.remains ≤ ex.total) :
    ∃ first w, getVer s n first = .ok w ∧ first ≠ q ∧
      (q0 = first ∨ strLt (fmtNat first) (fmtNat q0) = true) ∧
      getVer s' n first = .error .notFound ∧ getVer s' n q = .ok { d with sequence := q } ∧
      (∀ n' q', (n', q') ≠ (n, q) → (n', q') ≠ (n, first) → getVer s' n' q' = getVer s n' q') ∧
      ∃ ex', getExtra s' n = .ok ex' ∧ ex'.total = ex.total := by
  have hi := inv_reachable hr
  obtain ⟨ex0, w, e1, hpos, hw, hmin⟩ := first_spec hi ((getVer_ok_iff ..).1 hv)
  rw [hex] at e1; cases e1
  have hcond : (0 < ex.total ∧ r.versioning = false) ∨ r.remains ≤ ex.total := by
    rcases hc with hc | hc
    · exact Or.inl ⟨hpos, hc⟩
    · exact Or.inr hc
  unfold storeVersion at h
  rw [hex] at h
  simp only at h
  split at h
  · rename_i q1 s1 hstep
    rw [if_pos hcond] at h
    cases h
    have hadd := C16_added_readable hstep
    have hlt := C16_number_above_stored hr hstep ((getVer_ok_iff ..).2 hw)
    have hne : ex.firstVersion ≠ q := by omega
    obtain ⟨b, hi', ui, f1, f2, f3, f4, f5, f6, f7, hs1⟩ := addVer_ok (step_addVer_seq hstep)
    obtain ⟨b0, hb0, hg0⟩ := hw
    rw [f1] at hb0; cases hb0
    have hb1 : s1.vers.get n = some ⟨q, b.items.put (verKey n q) { d with sequence := q }⟩ := by
      rw [hs1]; exact KMap.get_put_self ..
    have hg1 : (b.items.put (verKey n q) { d with sequence := q }).get (verKey n ex.firstVersion)
        = some w := by
      rw [KMap.get_put_ne]
      · exact hg0
      · intro e; exact hne (verKey_inj e).2
    have hrem := step_removeVer hb1 hg1
    rw [hrem]
    refine ⟨ex.firstVersion, w, (getVer_ok_iff ..).2 ⟨b, f1, hg0⟩, hne, hmin, ?_, ?_, ?_, ?_⟩
    · simp [getVer, KMap.get_put, KMap.get_del]
    · have : verKey n q ≠ verKey n ex.firstVersion := fun e => hne (verKey_inj e).2.symm
      simp [getVer, KMap.get_put, KMap.get_del, this]
    · intro n' q' g1 g2
      rw [← hadd.2.1 n' q' g1]
      simp only [getVer, KMap.get_put]
      by_cases hn : n' = n
      · subst hn
        have : verKey n' q' ≠ verKey n' ex.firstVersion := by
          intro e; rw [(verKey_inj e).2] at g2; exact g2 rfl
        simp [hb1, KMap.get_del, this]
      · simp [hn]
    · refine ⟨_, by rw [getExtra, KMap.get_put_self], ?_⟩
      simp only [KMap.size_del, hg1, Option.isSome_some, ↓reduceIte, KMap.size_put, f4,
        Option.isSome_none, Bool.false_eq_true]
      rw [getExtra, f1] at hex
      cases hex
      simp
  · rename_i hno _
    cases h
    exact (hno _ rfl).elim

/-- Below the limit nothing is removed. -/
theorem C18_below_limit {s s' : Store} {r : Retention} {n : Str} {d : Version} {q : Nat} {ex : Extra}
    (h : storeVersion r n d s = (.seq q, s')) (hex : getExtra s n = .ok ex)
    (hc1 : r.versioning = true ∨ ex.total = 0) (hc2 : ex.total < r.remains) :
    getVer s' n q = .ok { d with sequence := q } ∧
    (∀ n' q', (n', q') ≠ (n, q) → getVer s' n' q' = getVer s n' q') ∧
    ∃ ex', getExtra s' n = .ok ex' ∧ ex'.total = ex.total + 1 := by
  unfold storeVersion at h
  rw [hex] at h
  simp only at h
  have hno : ¬ ((0 < ex.total ∧ r.versioning = false) ∨ r.remains ≤ ex.total) := by
    rintro (⟨h1, h2⟩ | h1)
    · rcases hc1 with hc1 | hc1
      · rw [hc1] at h2; cases h2
      · omega
    · omega
  split at h
  · rename_i q1 s1 hstep
    rw [if_neg hno] at h
    cases h
    have hadd := C16_added_readable hstep
    refine ⟨hadd.1, hadd.2.1, ?_⟩
    obtain ⟨b, hi', ui, f1, f2, f3, f4, f5, f6, f7, hs1⟩ := addVer_ok (step_addVer_seq hstep)
    rw [hs1]
    refine ⟨_, by rw [getExtra, KMap.get_put_self], ?_⟩
    rw [getExtra, f1] at hex
    cases hex
    simp [KMap.size_put, f4]
  · rename_i hno _
    cases h
    exact (hno _ rfl).elim

/-- **C18** (partial) When the stored numbers of the object have the same number of digits, a retained
upload removes the version with the *smallest* number and keeps all others.  Missing: numbers that
cross a power of ten (see the counterexample). -/
theorem C18_removes_oldest_partial {s s' : Store} (hr : Reachable s) {r : Retention} {n : Str}
    {d v : Version} {q q0 : Nat} {ex : Extra} (hsd : SameDigits s n)
    (h : storeVersion r n d s = (.seq q, s'))
    (hv : getVer s n q0 = .ok v) (hex : getExtra s n = .ok ex)
    (hc : r.versioning = false ∨ r.remains ≤ ex.total) :
    ∃ first w, getVer s n first = .ok w ∧ first ≤ q0 ∧ first ≠ q ∧
      getVer s' n first = .error .notFound ∧ getVer s' n q = .ok { d with sequence := q } ∧
      (∀ n' q', (n', q') ≠ (n, q) → (n', q') ≠ (n, first) → getVer s' n' q' = getVer s n' q') := by
  obtain ⟨first, w, h1, h2, h3, h4, h5, h6, _⟩ := C18_removes_textual_min hr h hv hex hc
  refine ⟨first, w, h1, ?_, h2, h4, h5, h6⟩
  rcases h3 with h3 | h3
  · omega
  · rw [strLt_fmtNat (hsd first q0 w v h1 hv)] at h3; omega

/-- **C18** The limit itself is kept, for all version numbers: if at most `remains ≥ 1` versions were
stored, at most `remains` are stored after an upload. -/
theorem C18_at_most_remains {s s' : Store} (hr : Reachable s) {r : Retention} {n : Str} {d : Version}
    {q : Nat} {ex : Extra} (h : storeVersion r n d s = (.seq q, s')) (hex : getExtra s n = .ok ex)
    (h1 : 1 ≤ r.remains) (h2 : ex.total ≤ r.remains) :
    ∃ ex', getExtra s' n = .ok ex' ∧ ex'.total ≤ r.remains := by
  by_cases hc : (0 < ex.total ∧ r.versioning = false) ∨ r.remains ≤ ex.total
  · have hpos : 0 < ex.total := by rcases hc with hc | hc <;> omega
    -- some version is stored
    have hstored : ∃ q0 v, getVer s n q0 = .ok v := by
      have hex' := hex
      unfold getExtra at hex'
      split at hex'
      · cases hex'
      · rename_i b hb
        cases hex'
        cases hks : b.items.entries with
        | nil => simp [KMap.size, hks] at hpos
        | cons e es =>
          have hm : (e.1, e.2) ∈ b.items.entries := by rw [hks]; exact List.mem_cons_self ..
          have hg := (KMap.mem_iff_get ..).1 hm
          obtain ⟨q0, hk, _, _⟩ := (inv_reachable hr).key n b _ _ hb hg
          rw [hk] at hg
          exact ⟨q0, e.2, (getVer_ok_iff ..).2 ⟨b, hb, hg⟩⟩
    obtain ⟨q0, v, hv⟩ := hstored
    obtain ⟨_, _, _, _, _, _, _, _, ex', g1, g2⟩ := C18_removes_textual_min hr h hv hex
      (by rcases hc with hc | hc
          · exact Or.inl hc.2
          · exact Or.inr hc)
    exact ⟨ex', g1, by omega⟩
  · have hc' : ex.total < r.remains := by
      apply Classical.byContradiction; intro hn; exact hc (Or.inr (by omega))
    obtain ⟨_, _, ex', g1, g2⟩ := C18_below_limit h hex (by
      cases hvs : r.versioning with
      | true => exact Or.inl rfl
      | false => right; apply Classical.byContradiction; intro hn; exact hc (Or.inl ⟨by omega, hvs⟩)) hc'
    exact ⟨ex', g1, by omega⟩

/-- Two uploads that both read the extra data before either of them adds its version
(`StoreObject` reads it before streaming the body). -/
def concurrentUploads (r : Retention) (n : Str) (d1 d2 : Version) (s : Store) : Store :=
  match getExtra s n with
  | .error _ => s
  | .ok ex =>
    let s1 := (run s [.addVer n d1, .addVer n d2]).2
    if (0 < ex.total ∧ r.versioning = false) ∨ r.remains ≤ ex.total then
      (run s1 [.removeVer n ex.firstVersion, .removeVer n ex.firstVersion]).2
    else s1

/-- The limit is not kept when uploads of one object overlap: a bucket that keeps one version ends
up with two. -/
theorem C18_concurrent_uploads_exceed_limit :
    numbers (concurrentUploads ⟨true, 1⟩ "b/a".toList (sampleVer "h".toList "x".toList 1)
      (sampleVer "h".toList "y".toList 1)
      (run .empty [.addMeta "b/a".toList (sampleMeta 1),
        .addVer "b/a".toList (sampleVer "h".toList "w".toList 1)]).2) "b/a".toList = [2, 3] := by decide

/-- The partial theorem applies: one version kept, the second upload removes the first version. -/
example :
    let s := (run .empty [.addMeta "b/a".toList (sampleMeta 1),
        .addVer "b/a".toList (sampleVer "h".toList "w".toList 1)]).2
    numbers s "b/a".toList = [1] ∧
    numbers (storeVersion ⟨true, 1⟩ "b/a".toList (sampleVer "h".toList "x".toList 1) s).2 "b/a".toList
      = [2] := by decide

/-! ## C25 -/

/-- What the version pages should be: at most `size` per page, and no version on two pages. -/
def PagesOk (s : Store) (n : Str) (size : Nat) : Prop :=
  ∀ p p' l l' t t', 1 ≤ p → p < p' → listVersions s n p size = .ok (l, t) →
    listVersions s n p' size = .ok (l', t') → l.length ≤ size ∧ ∀ v ∈ l, v ∉ l'

/-- **C25** as stated *fails*: the first page of size 1 has two entries and the second page starts with
the last entry of the first. -/
theorem C25_statement_fails : ¬ ∀ s, Reachable s → ∀ n size, 1 ≤ size → PagesOk s n size := by
  intro h
  have := h sampleStore sampleStore_reachable "b/a".toList 1 (by omega) 1 2 _ _ _ _ (by omega) (by omega)
    (rfl : listVersions sampleStore "b/a".toList 1 1 = .ok
      ([{ sampleVer "h1".toList "u1".toList 1 with sequence := 1 },
        { sampleVer "h2".toList "u2".toList 2 with sequence := 2 }], 2))
    (rfl : listVersions sampleStore "b/a".toList 2 1 = .ok
      ([{ sampleVer "h2".toList "u2".toList 2 with sequence := 2 }], 2))
  exact absurd this.1 (by decide)

set_option maxRecDepth 10000 in
/-- With ten versions and pages of three, version 10 is on the first page, and page four repeats
versions of the pages before it: pages follow the order of the texts. -/
theorem C25_text_order_fails :
    (listVersions tenVersions "b/a".toList 1 3).toOption.map (fun r => r.1.map (·.sequence))
      = some [1, 10, 2, 3] ∧
    (listVersions tenVersions "b/a".toList 4 3).toOption.map (fun r => r.1.map (·.sequence))
      = some [10, 2, 3, 4] := by decide

/-- The listing starts at the first number not textually below the start and is cut after
`size + 1`. -/
theorem listVersions_eq {s : Store} {n : Str} {b : VBucket} (hb : s.vers.get n = some b) (p size : Nat)
    (hp : 1 ≤ p) :
    listVersions s n p size = .ok
      (((b.items.entries.filter fun e => !strLt e.1 (verKey n ((p - 1) * size + 1))).map (·.2)).take
        (size + 1), b.items.size) := by
  have e1 : ((p : Int) - 1) * size + 1 = (((p - 1) * size + 1 : Nat) : Int) := by
    have : ((p - 1 : Nat) : Int) = (p : Int) - 1 := by omega
    push_cast
    rw [this]
  unfold listVersions repoListVersions
  rw [if_neg (by omega)]
  simp only [hb, e1]
  rw [show (name : Str) → name ++ '.' :: fmtInt (((p - 1) * size + 1 : Nat) : Int) =
    verKey name ((p - 1) * size + 1) from fun _ => rfl, KMap.seek_eq_filter]
  congr 3
  omega

/-- The numbers stored for the object are all below ten. -/
def SingleDigit (s : Store) (n : Str) : Prop := ∀ q v, getVer s n q = .ok v → q < 10

theorem fmtNat_lt_ten {q : Nat} (h : q < 10) : (fmtNat q).length = 1 := by
  have : ∀ q : Fin 10, (fmtNat q.1).length = 1 := by decide
  exact this ⟨q, h⟩

/-- A strictly increasing list of numbers in `[a, a + k)` has at most `k` elements. -/
theorem length_le_of_range (l : List Nat) (a k : Nat) (hs : l.Pairwise (· < ·))
    (hb : ∀ x ∈ l, a ≤ x ∧ x < a + k) : l.length ≤ k := by
  induction l generalizing a k with
  | nil => simp
  | cons x xs ih =>
    have hp := List.pairwise_cons.1 hs
    have h0 := hb x (List.mem_cons_self ..)
    cases k with
    | zero => omega
    | succ k =>
      have := ih (a + 1) k hp.2 (fun y hy => by
        have := hp.1 y hy
        have := hb y (List.mem_cons_of_mem _ hy)
        omega)
      simp only [List.length_cons]; omega

/-- **C25** (partial) For objects whose version numbers are below ten: every page has at most one
entry too many, its entries are stored versions with ascending numbers starting at the page's
first number, every stored version `q ≥ 1` is on page `(q-1)/size + 1`, and the total is the number of
stored versions.  Missing: the overlap of one entry with the next page is really there, and for
numbers of ten and more the pages follow the text order (see the counterexamples). -/
theorem C25_pages_partial {s : Store} (hr : Reachable s) {n : Str} (hsd : SingleDigit s n) {size : Nat}
    (hsize : 1 ≤ size) {q : Nat} {v : Version} (hq : 1 ≤ q) (hv : getVer s n q = .ok v) :
    ∃ l t, listVersions s n ((q - 1) / size + 1 : Nat) size = .ok (l, t) ∧ v ∈ l ∧
      l.length ≤ size + 1 ∧ l.Pairwise (fun a b => a.sequence < b.sequence) ∧
      (∀ w ∈ l, getVer s n w.sequence = .ok w ∧ (q - 1) / size * size + 1 ≤ w.sequence) ∧
      ∃ ex, getExtra s n = .ok ex ∧ t = ex.total := by
  have hi := inv_reachable hr
  obtain ⟨b, hb, hg⟩ := (getVer_ok_iff ..).1 hv
  have hdiv : (q - 1) / size * size + 1 ≤ q := by
    have := Nat.div_mul_le_self (q - 1) size; omega
  have hmod : q < (q - 1) / size * size + 1 + size := by
    have := Nat.lt_div_mul_add (a := q - 1) (b := size) (by omega); omega
  have hq10 := hsd q v hv
  -- facts about all entries
  have hent : ∀ e ∈ b.items.entries, e.1 = verKey n e.2.sequence ∧ getVer s n e.2.sequence = .ok e.2 ∧
      e.2.sequence < 10 := by
    intro e he
    have hge := (KMap.mem_iff_get b.items e.1 e.2).1 he
    obtain ⟨q', hk, _, hs⟩ := hi.key n b _ _ hb hge
    have hg' : getVer s n e.2.sequence = .ok e.2 := by
      rw [getVer_ok_iff]; exact ⟨b, hb, by rw [hs, ← hk]; exact hge⟩
    exact ⟨by rw [hs]; exact hk, hg', hsd _ _ hg'⟩
  have hstart : (q - 1) / size * size + 1 < 10 := by omega
  generalize hst : (q - 1) / size * size + 1 = st at hdiv hmod hstart
  let f : List (Str × Version) := b.items.entries.filter fun e => !strLt e.1 (verKey n st)
  have hfmem : ∀ e ∈ f, e ∈ b.items.entries ∧ st ≤ e.2.sequence := by
    intro e he
    obtain ⟨he1, he2⟩ := List.mem_filter.1 he
    refine ⟨he1, ?_⟩
    obtain ⟨g1, g2, g3⟩ := hent e he1
    rw [g1, strLt_verKey] at he2
    have := strLt_fmtNat (a := e.2.sequence) (b := st) (by rw [fmtNat_lt_ten g3, fmtNat_lt_ten hstart])
    cases hlt : strLt (fmtNat e.2.sequence) (fmtNat st) with
    | true => rw [hlt] at he2; cases he2
    | false =>
      rw [hlt] at this
      have : ¬ e.2.sequence < st := fun hh => by have := this.mpr hh; cases this
      omega
  have hfsorted : f.Pairwise fun a b => a.2.sequence < b.2.sequence := by
    have h0 : f.Pairwise fun a b => strLt a.1 b.1 = true := b.items.sorted.sublist List.filter_sublist
    refine List.Pairwise.imp_of_mem ?_ h0
    intro x y hx hy hlt
    obtain ⟨g1, _, g3⟩ := hent x (hfmem x hx).1
    obtain ⟨k1, _, k3⟩ := hent y (hfmem y hy).1
    rw [g1, k1, strLt_verKey, strLt_fmtNat (by rw [fmtNat_lt_ten g3, fmtNat_lt_ten k3])] at hlt
    exact hlt
  have hkq : verKey n q = verKey n v.sequence ∧ v.sequence = q := by
    have := C19_version_number hr hv
    rw [this]; exact ⟨rfl, rfl⟩
  have hvf : (verKey n q, v) ∈ f := by
    refine List.mem_filter.2 ⟨(KMap.mem_iff_get ..).2 hg, ?_⟩
    rw [strLt_verKey]
    have := strLt_fmtNat (a := q) (b := st) (by rw [fmtNat_lt_ten hq10, fmtNat_lt_ten hstart])
    cases hlt : strLt (fmtNat q) (fmtNat st) with
    | true => rw [hlt] at this; have := this.mp rfl; omega
    | false => rfl
  have htake : (verKey n q, v) ∈ f.take (size + 1) := by
    obtain ⟨pre, post, he⟩ := List.append_of_mem hvf
    have hpre : pre.length ≤ size := by
      have hsp : (pre.map (·.2.sequence)).length ≤ size := by
        refine length_le_of_range _ st size ?_ ?_
        · rw [List.pairwise_map]
          rw [he] at hfsorted
          exact (List.pairwise_append.1 hfsorted).1
        · intro x hx
          obtain ⟨e, hem, rfl⟩ := List.mem_map.1 hx
          have h1 := (hfmem e (by rw [he]; exact List.mem_append_left _ hem)).2
          rw [he] at hfsorted
          have h2 := (List.pairwise_append.1 hfsorted).2.2 e hem (verKey n q, v) (List.mem_cons_self ..)
          simp only [hkq.2] at h2
          omega
      simpa using hsp
    rw [he, List.take_append]
    apply List.mem_append_right
    have : 0 < size + 1 - pre.length := by omega
    obtain ⟨k, hk⟩ := Nat.exists_eq_succ_of_ne_zero (Nat.ne_of_gt this)
    rw [hk]; simp
  have hl := listVersions_eq hb ((q - 1) / size + 1) size (Nat.le_add_left ..)
  simp only [Nat.add_sub_cancel] at hl
  rw [hst] at hl
  refine ⟨_, _, hl, ?_, ?_, ?_, ?_, ?_⟩
  · rw [← List.map_take]
    exact List.mem_map.2 ⟨_, htake, rfl⟩
  · simp only [List.length_take]; omega
  · rw [← List.map_take, List.pairwise_map]
    exact hfsorted.sublist (List.take_sublist _ _)
  · intro w hw
    rw [← List.map_take] at hw
    obtain ⟨e, he, rfl⟩ := List.mem_map.1 hw
    have := hfmem e (List.mem_of_mem_take he)
    exact ⟨(hent e this.1).2.1, this.2⟩
  · exact ⟨_, by rw [getExtra, hb], rfl⟩

example : SingleDigit sampleStore "b/a".toList ∧
    (listVersions sampleStore "b/a".toList 2 1).toOption.map (fun r => r.1.map (·.sequence)) = some [2] := by
  refine ⟨?_, by decide⟩
  intro q v h
  rw [getVer_ok_iff] at h
  obtain ⟨b, hb, hg⟩ := h
  have hle := (inv_reachable sampleStore_reachable).key _ b _ v hb hg
  obtain ⟨q', hk, hle, _⟩ := hle
  have : b.seq = 2 := by
    have : sampleStore.vers.get "b/a".toList = some b := hb
    have e : (sampleStore.vers.get "b/a".toList).map VBucket.seq = some 2 := by decide
    rw [this] at e
    simpa using e
  have := (verKey_inj hk).2
  omega

/-- **C17** The numbers of the first and of the last version that the repository answers with: those of the smallest and
of the largest key, 0 for an object whose versions are all gone, 1 for an object that does not exist. -/
theorem C17_first_last_number {s : Store} (hi : Inv s) (n : Str) :
    (s.vers.get n = none → firstVersionNumber s n = 1 ∧ lastVersionNumber s n = 1) ∧
    (∀ b, s.vers.get n = some b → b.items.keys = [] → firstVersionNumber s n = 0 ∧ lastVersionNumber s n = 0) ∧
    (∀ q v, Stored s n q v → ∃ w w', Stored s n (firstVersionNumber s n) w ∧ Stored s n (lastVersionNumber s n) w' ∧
      (q = firstVersionNumber s n ∨ strLt (fmtNat (firstVersionNumber s n)) (fmtNat q) = true) ∧
      (q = lastVersionNumber s n ∨ strLt (fmtNat q) (fmtNat (lastVersionNumber s n)) = true)) := by
  refine ⟨fun h => by simp [firstVersionNumber, lastVersionNumber, h],
    fun b hb he => by simp [firstVersionNumber, lastVersionNumber, hb, he], fun q v h => ?_⟩
  obtain ⟨w', hw1, hw2⟩ := last_spec hi h
  obtain ⟨b, hb, hg⟩ := h
  have hm : verKey n q ∈ b.items.keys := by rw [KMap.mem_keys_iff, hg]; rfl
  cases hks : b.items.keys with
  | nil => rw [hks] at hm; simp at hm
  | cons k ks =>
    have hl : k ∈ b.items.keys := by rw [hks]; exact List.mem_cons_self ..
    rw [KMap.mem_keys_iff, Option.isSome_iff_exists] at hl
    obtain ⟨w, hw⟩ := hl
    obtain ⟨q', hk, _, _⟩ := hi.key n b _ w hb hw
    have hfirst : firstVersionNumber s n = q' := by
      unfold firstVersionNumber
      simp [hb, hks, hk, keySeq_verKey]
    rw [hfirst]
    refine ⟨w, w', ⟨b, hb, by rw [← hk]; exact hw⟩, hw1, ?_, hw2⟩
    have hp := KMap.keys_sorted b.items
    rw [hks] at hp hm
    rcases pairwise_head hp hm with h | h
    · rw [hk] at h; exact Or.inl (verKey_inj h).2
    · rw [hk, strLt_verKey] at h; exact Or.inr h

example : firstVersionNumber sampleStore "b/a".toList = 1 ∧ lastVersionNumber sampleStore "b/a".toList = 2 ∧
    firstVersionNumber .empty "b/a".toList = 1 := ⟨rfl, rfl, rfl⟩

end Verif.Meta
