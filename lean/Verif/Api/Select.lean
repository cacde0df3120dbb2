import Verif.Common.Str
import Verif.Util.Slices
import Mathlib.Data.List.Perm.Basic

/-!
# Choosing data servers: C44, C45, C46

src/apiserver/internal/usecase/componet/selector/*.go and `Discovery.SelectDataServer`,
src/apiserver/internal/usecase/logic/discovery_logic.go:35-46.  Slices are lists: the list a selector works on
is a copy made by the service registry (`list`, src/common/registry/service_list.go), and the two slices of
`IPSelector` have different backing arrays.
-/

namespace Verif.Api

open Verif Verif.Slices

/-- A strategy at one moment: the remaining servers and the server chosen (`Selector.Pop`, selectors.go:14-18);
`none`: panic. -/
abbrev Pop := List Str → Option (List Str × Str)

/-- `RandomSelector.Pop`, random_selector.go:12-18, when the random number (below the length) is `idx`. -/
def randomPop (idx : Nat) : Pop := fun ds =>
  match ds[idx]?, ds.getLast? with
  | some ip, some last => some ((ds.set idx last).take (ds.length - 1), ip)
  | _, _ => none

/-- The load of a server, as used in space_first_selector.go:46-57; a server that is not in the table could
not be asked. -/
abbrev Loads := Str → Option Int

/-- `math.MaxInt64`. -/
def maxInt64 : Int := 9223372036854775807

/-- The comparison in space_first_selector.go:46-57: whether `b` is better than `min`. -/
def betterThan (used : Loads) (min b : Str) : Bool :=
  match used b with
  | none => false
  | some bUsed => decide (bUsed < (used min).getD maxInt64)

/-- `FreeSpaceFirst.Pop`, space_first_selector.go:42-61 (and `WeightedIOFirst.Pop`,
weighted_io_first.go:47-66), for the table `used` they work with. -/
def spacePop (used : Loads) : Pop := fun ds =>
  let idx := extremalIndex (betterThan used) ds
  match ds[idx]?, ds[0]? with
  | some res, some first => some (((ds.set 0 res).set idx first).tail, res)
  | _, _ => none

/-- `FreeSpaceFirst.Select`, space_first_selector.go:63-79. -/
def spaceSelect (used : Loads) (ds : List Str) : Option Str := extremal (betterThan used) ds

/-- `IPSelector`, selectors.go:37-41. -/
structure IPSel where
  ips : List Str
  used : List Str
  deriving DecidableEq

/-- `IPSelector.Select`, selectors.go:47-58. -/
def IPSel.select (pop : Pop) (s : IPSel) : Option (Str × IPSel) :=
  let s := if s.ips = [] then ⟨s.used, s.ips⟩ else s
  (pop s.ips).map fun r => (r.2, ⟨r.1, s.used ++ [r.2]⟩)

/-- Selecting once with each of the given moments of the strategy (random numbers and load tables may be
different each time). -/
def IPSel.selects : List Pop → IPSel → Option (List Str × IPSel)
  | [], s => some ([], s)
  | p :: ps, s =>
    match s.select p with
    | none => none
    | some (ip, s') => (IPSel.selects ps s').map fun r => (ip :: r.1, r.2)

/-- `SelectDataServer`, discovery_logic.go:35-46. -/
def selectDataServer (ds : List Str) (pops : List Pop) : Option (List Str) :=
  if ds = [] then some [] else (IPSel.selects pops ⟨ds, []⟩).map (·.1)

/-! ## Strategies take one server out of the list -/

/-- The chosen server and the remaining ones are the servers there were. -/
def PopOk (p : Pop) : Prop := ∀ ds, ds ≠ [] → ∃ rest ip, p ds = some (rest, ip) ∧ List.Perm (ip :: rest) ds

theorem set_last_perm (ds : List Str) (idx : Nat) (h : idx < ds.length) (last : Str)
    (hl : ds.getLast? = some last) :
    List.Perm (ds[idx] :: (ds.set idx last).take (ds.length - 1)) ds := by
  obtain ⟨init, rfl⟩ : ∃ init, ds = init ++ [last] := by
    obtain ⟨l, hl'⟩ := List.getLast?_eq_some_iff.1 hl
    exact ⟨l, hl'⟩
  by_cases hi : idx < init.length
  · rw [List.set_append_left _ _ hi, List.getElem_append_left hi]
    have e : (init ++ [last]).length - 1 = (init.set idx last).length := by simp
    rw [e, List.take_left]
    have h2 : List.Perm (init[idx] :: init.set idx last) (last :: init) := by
      have e2 : init.set idx last = init.take idx ++ last :: init.drop (idx + 1) := List.set_eq_take_append_cons_drop ▸ by
        simp [hi]
      have e3 : init = init.take idx ++ init[idx] :: init.drop (idx + 1) := by
        rw [← List.drop_eq_getElem_cons hi, List.take_append_drop]
      rw [e2]
      conv_rhs => rw [e3]
      have p1 : List.Perm (init[idx] :: (init.take idx ++ last :: init.drop (idx + 1)))
          (init[idx] :: last :: (init.take idx ++ init.drop (idx + 1))) :=
        List.Perm.cons _ List.perm_middle
      have p2 : List.Perm (last :: (init.take idx ++ init[idx] :: init.drop (idx + 1)))
          (last :: init[idx] :: (init.take idx ++ init.drop (idx + 1))) :=
        List.Perm.cons _ List.perm_middle
      exact p1.trans ((List.Perm.swap _ _ _).trans p2.symm)
    exact h2.trans (List.perm_append_singleton last init).symm
  · have hi' : idx = init.length := by simp at h; omega
    subst hi'
    simpa [List.set_append_right] using (List.perm_append_singleton last init).symm

theorem randomPop_ok (ds : List Str) (idx : Nat) (h : idx < ds.length) :
    ∃ rest ip, randomPop idx ds = some (rest, ip) ∧ List.Perm (ip :: rest) ds := by
  have hne : ds ≠ [] := by intro e; rw [e] at h; simp at h
  obtain ⟨last, hl⟩ : ∃ last, ds.getLast? = some last := ⟨_, List.getLast?_eq_getLast_of_ne_nil hne⟩
  refine ⟨_, ds[idx], ?_, set_last_perm ds idx h last hl⟩
  unfold randomPop
  rw [List.getElem?_eq_getElem h, hl]

theorem better_irr (used : Loads) (a : Str) : betterThan used a a = false := by
  unfold betterThan
  cases used a <;> simp

theorem better_trans (used : Loads) (a b c : Str) (h1 : betterThan used a b = true)
    (h2 : betterThan used b c = true) : betterThan used a c = true := by
  unfold betterThan at *
  cases hb : used b with
  | none => rw [hb] at h1; cases h1
  | some x =>
    cases hc : used c with
    | none => rw [hc] at h2; cases h2
    | some y =>
      rw [hb] at h1 h2; rw [hc] at h2
      simp only [Option.getD_some, decide_eq_true_eq] at *
      omega

theorem extremalIndex_lt {α : Type} (fn : α → α → Bool) (arr : List α) (hne : arr ≠ []) :
    extremalIndex fn arr < arr.length := by
  have key : ∀ (fuel i ex : Nat), ex < arr.length → extremalLoop fn arr fuel i ex < arr.length := by
    intro fuel
    induction fuel with
    | zero => intro i ex h; exact h
    | succ fuel ih =>
      intro i ex h
      unfold extremalLoop
      rw [List.getElem?_eq_getElem h]
      by_cases hi : i < arr.length
      · rw [List.getElem?_eq_getElem hi]
        simp only
        apply ih
        split <;> assumption
      · rw [show arr[i]? = none from List.getElem?_eq_none (by omega)]
        exact h
  exact key _ _ _ (List.length_pos_iff.2 hne)

theorem swap_tail_perm (ds : List Str) (idx : Nat) (h : idx < ds.length) (first : Str)
    (hf : ds[0]? = some first) :
    List.Perm (ds[idx] :: ((ds.set 0 ds[idx]).set idx first).tail) ds := by
  cases ds with
  | nil => cases hf
  | cons x rest =>
    have : x = first := by simpa using hf
    subst this
    cases idx with
    | zero => simp
    | succ n =>
      have hn : n < rest.length := by simpa using h
      simp only [List.set_cons_zero, List.set_cons_succ, List.tail_cons, List.getElem_cons_succ]
      have e2 : rest.set n x = rest.take n ++ x :: rest.drop (n + 1) := List.set_eq_take_append_cons_drop ▸ by
        simp [hn]
      have e3 : rest = rest.take n ++ rest[n] :: rest.drop (n + 1) := by
        rw [← List.drop_eq_getElem_cons hn, List.take_append_drop]
      rw [e2]
      conv_rhs => rw [e3]
      exact (List.Perm.cons _ List.perm_middle).trans
        ((List.Perm.swap _ _ _).trans (List.Perm.cons _ List.perm_middle.symm))

theorem spacePop_ok (used : Loads) : PopOk (spacePop used) := by
  intro ds hne
  have h := extremalIndex_lt (betterThan used) ds hne
  obtain ⟨first, hf⟩ : ∃ first, ds[0]? = some first := ⟨_, List.getElem?_eq_getElem (List.length_pos_iff.2 hne)⟩
  refine ⟨_, ds[extremalIndex (betterThan used) ds], ?_, swap_tail_perm ds _ h first hf⟩
  unfold spacePop
  simp only [List.getElem?_eq_getElem h, hf]

/-- A random strategy whose random number is made fit the list by `Intn`: any function of the length. -/
def randomPopAt (rnd : Nat → Nat) : Pop := fun ds => randomPop (rnd ds.length) ds

theorem randomPopAt_ok (rnd : Nat → Nat) (h : ∀ n, 0 < n → rnd n < n) : PopOk (randomPopAt rnd) := by
  intro ds hne
  exact randomPop_ok ds _ (h _ (List.length_pos_iff.2 hne))

/-! ## C44 -/

/-- After the selections `hist` from the servers `all`: `q` complete rounds and an unfinished one. -/
structure SelInv (all hist : List Str) (s : IPSel) (q : Nat) : Prop where
  perm : List.Perm (s.ips ++ s.used) all
  count : ∀ x ∈ all, hist.count x = q + s.used.count x
  mem : ∀ x ∈ hist, x ∈ all

theorem select_inv {all hist : List Str} (hnd : all.Nodup) (hne : all ≠ []) {s : IPSel} {q : Nat}
    (h : SelInv all hist s q) {p : Pop} (hp : PopOk p) :
    ∃ ip s' q', s.select p = some (ip, s') ∧ SelInv all (hist ++ [ip]) s' q' := by
  -- the state after the exchange of the two lists
  obtain ⟨s1, q1, hs1, hsel, h1⟩ : ∃ s1 q1, s1.ips ≠ [] ∧
      s.select p = (p s1.ips).map (fun r => (r.2, (⟨r.1, s1.used ++ [r.2]⟩ : IPSel))) ∧ SelInv all hist s1 q1 := by
    by_cases he : s.ips = []
    · refine ⟨⟨s.used, s.ips⟩, q + 1, ?_, ?_, ?_⟩
      · intro hu
        have := h.perm
        simp only at hu
        rw [he, hu] at this
        exact hne (List.Perm.nil_eq this).symm
      · unfold IPSel.select; simp only [he, if_true]
      · have hp' : List.Perm s.used all := by have := h.perm; rw [he] at this; simpa using this
        refine ⟨?_, ?_, h.mem⟩
        · show List.Perm (s.used ++ s.ips) all
          rw [he, List.append_nil]; exact hp'
        · intro x hx
          show hist.count x = q + 1 + s.ips.count x
          rw [he, h.count x hx, hp'.count_eq, List.count_eq_one_of_mem hnd hx]; simp
    · exact ⟨s, q, he, by unfold IPSel.select; simp only [if_neg he], h⟩
  obtain ⟨rest, ip, hpop, hperm⟩ := hp s1.ips hs1
  refine ⟨ip, ⟨rest, s1.used ++ [ip]⟩, q1, by rw [hsel, hpop]; rfl, ⟨?_, ?_, ?_⟩⟩
  · show List.Perm (rest ++ (s1.used ++ [ip])) all
    refine List.Perm.trans ?_ h1.perm
    have : List.Perm (rest ++ (s1.used ++ [ip])) (ip :: (rest ++ s1.used)) := by
      rw [← List.append_assoc]
      exact List.perm_append_singleton ip (rest ++ s1.used)
    exact this.trans (hperm.append_right s1.used)
  · intro x hx
    show (hist ++ [ip]).count x = q1 + (s1.used ++ [ip]).count x
    rw [List.count_append, List.count_append, h1.count x hx]; omega
  · intro x hx
    rcases List.mem_append.1 hx with hx | hx
    · exact h.mem x hx
    · rw [List.mem_singleton.1 hx]
      have : ip ∈ s1.ips := hperm.subset (by simp)
      exact h1.perm.subset (List.mem_append_left _ this)

theorem selects_inv {all : List Str} (hnd : all.Nodup) (hne : all ≠ []) (ps : List Pop) (hps : ∀ p ∈ ps, PopOk p)
    (hist : List Str) (s : IPSel) (q : Nat) (h : SelInv all hist s q) :
    ∃ l s' q', IPSel.selects ps s = some (l, s') ∧ l.length = ps.length ∧ SelInv all (hist ++ l) s' q' := by
  induction ps generalizing hist s q with
  | nil => exact ⟨[], s, q, rfl, rfl, by simpa using h⟩
  | cons p ps ih =>
    obtain ⟨ip, s1, q1, h1, h2⟩ := select_inv hnd hne h (hps p (by simp))
    obtain ⟨l, s', q', h3, h4, h5⟩ := ih (fun p' hp' => hps p' (by simp [hp'])) _ _ _ h2
    refine ⟨ip :: l, s', q', ?_, by simp [h4], by simpa using h5⟩
    unfold IPSel.selects
    rw [h1]
    simp only
    rw [h3]
    rfl

/-- **C44**: with any strategy that takes one server at a time out of the list, and different servers, any
number of selections from a selector succeeds with servers from the list, and no server is selected more than
one time more often than another. -/
theorem C44_even (ds : List Str) (hnd : ds.Nodup) (hne : ds ≠ []) (ps : List Pop) (hps : ∀ p ∈ ps, PopOk p) :
    ∃ l, selectDataServer ds ps = some l ∧ l.length = ps.length ∧ (∀ x ∈ l, x ∈ ds) ∧
      ∀ x ∈ ds, ∀ y ∈ ds, l.count x ≤ l.count y + 1 := by
  obtain ⟨l, s', q', h1, h2, h3⟩ := selects_inv hnd hne ps hps [] ⟨ds, []⟩ 0
    ⟨by simp, fun x _ => by simp, by simp⟩
  simp only [List.nil_append] at h3
  refine ⟨l, by unfold selectDataServer; rw [if_neg hne, h1]; rfl, h2, h3.mem, ?_⟩
  intro x hx y hy
  rw [h3.count x hx, h3.count y hy]
  have : s'.used.count x ≤ 1 := by
    have h4 := h3.perm.count_eq x
    rw [List.count_append, List.count_eq_one_of_mem hnd hx] at h4
    omega
  omega

/-- **C44**: at most as many selections as there are servers give different servers. -/
theorem C44_distinct (ds : List Str) (hnd : ds.Nodup) (hne : ds ≠ []) (ps : List Pop)
    (hps : ∀ p ∈ ps, PopOk p) (hk : ps.length ≤ ds.length) :
    ∃ l, selectDataServer ds ps = some l ∧ l.length = ps.length ∧ l.Nodup := by
  obtain ⟨l, h1, h2, h3, h4⟩ := C44_even ds hnd hne ps hps
  refine ⟨l, h1, h2, ?_⟩
  rw [List.nodup_iff_count_le_one]
  intro a
  by_cases ha : a ∈ l
  · refine Nat.le_of_not_lt fun hc => ?_
    -- then every server was selected at least once, and one of them twice: too many selections
    have hall : ∀ y ∈ ds, y ∈ l := fun y hy => by
      have := h4 a (h3 a ha) y hy
      exact List.count_pos_iff.1 (by omega)
    have hsub : List.Subperm (a :: ds) l := by
      rw [List.subperm_ext_iff]
      intro x hx
      by_cases hxa : x = a
      · subst hxa
        rw [List.count_cons_self, List.count_eq_one_of_mem hnd (h3 x ha)]
        omega
      · rw [List.count_cons_of_ne (Ne.symm hxa)]
        have hxd : x ∈ ds := by
          rcases List.mem_cons.1 hx with h | h
          · exact absurd h hxa
          · exact h
        rw [List.count_eq_one_of_mem hnd hxd]
        exact List.count_pos_iff.2 (hall x hxd)
    have := hsub.length_le
    simp at this
    omega
  · rw [List.count_eq_zero_of_not_mem ha]; omega

example : selectDataServer [['a'], ['b'], ['c']] (List.replicate 5 (randomPopAt fun _ => 0)) =
    some [['a'], ['c'], ['b'], ['a'], ['b']] := by decide

/-- Without servers nothing is selected. -/
theorem C44_no_servers (ps : List Pop) : selectDataServer [] ps = some [] := rfl

/-- Every call of `SelectDataServer` begins anew: any number of uploads of one shard each may use the same
server while another one stays idle.  (The property above is about the shards of one object.) -/
theorem C44_no_memory_between_uploads (n : Nat) :
    (List.replicate n [spacePop fun _ => none]).map (selectDataServer [['a'], ['b']]) =
      List.replicate n (some [['a']]) := by
  rw [List.map_replicate]
  exact congrArg _ (by decide)

/-! ## C45 -/

/-- **C45**: whatever the random numbers are, selecting at most as many servers as there are never selects
one twice. -/
theorem C45_random_distinct (ds : List Str) (hnd : ds.Nodup) (hne : ds ≠ []) (rnds : List (Nat → Nat))
    (hr : ∀ r ∈ rnds, ∀ n, 0 < n → r n < n) (hk : rnds.length ≤ ds.length) :
    ∃ l, selectDataServer ds (rnds.map randomPopAt) = some l ∧ l.length = rnds.length ∧ l.Nodup := by
  have := C44_distinct ds hnd hne (rnds.map randomPopAt) (by
    intro p hp
    obtain ⟨r, h1, rfl⟩ := List.mem_map.1 hp
    exact randomPopAt_ok r (hr r h1)) (by simpa using hk)
  simpa using this

/-- … and with more selections a server is selected again only when all have been selected equally often. -/
theorem C45_random_even (ds : List Str) (hnd : ds.Nodup) (hne : ds ≠ []) (rnds : List (Nat → Nat))
    (hr : ∀ r ∈ rnds, ∀ n, 0 < n → r n < n) :
    ∃ l, selectDataServer ds (rnds.map randomPopAt) = some l ∧ l.length = rnds.length ∧
      ∀ x ∈ ds, ∀ y ∈ ds, l.count x ≤ l.count y + 1 := by
  obtain ⟨l, h1, h2, _, h4⟩ := C44_even ds hnd hne (rnds.map randomPopAt) (by
    intro p hp
    obtain ⟨r, h1, rfl⟩ := List.mem_map.1 hp
    exact randomPopAt_ok r (hr r h1))
  exact ⟨l, h1, by simpa using h2, h4⟩

example : selectDataServer [['a'], ['b'], ['c']] ([fun n => n - 1, fun _ => 0, fun _ => 0].map randomPopAt) =
    some [['c'], ['a'], ['b']] := by decide

/-! ## C46 -/

/-- **C46**: the server taken is one of the candidates, and among the servers whose load is known (and below
2^63 - 1) none has a smaller load; a server that could not be asked is taken only if there is no other. -/
theorem C46_least_loaded (used : Loads) (ds : List Str) (hne : ds ≠ []) :
    ∃ rest res, spacePop used ds = some (rest, res) ∧ spaceSelect used ds = some res ∧ res ∈ ds ∧
      ∀ c ∈ ds, ∀ x, used c = some x → x < maxInt64 → ∃ y, used res = some y ∧ y ≤ x := by
  obtain ⟨e, h1, h2, h3⟩ := C58_extremal (betterThan used) ds hne (better_irr used) (better_trans used)
  obtain ⟨first, hf⟩ : ∃ first, ds[0]? = some first := ⟨_, List.getElem?_eq_getElem (List.length_pos_iff.2 hne)⟩
  refine ⟨((ds.set 0 e).set (extremalIndex (betterThan used) ds) first).tail, e, ?_, h1, h2, ?_⟩
  · unfold spacePop
    unfold extremal at h1
    simp only [h1, hf]
  · intro c hc x hx hlt
    have := h3 c hc
    unfold betterThan at this
    rw [hx] at this
    simp only [decide_eq_false_iff_not] at this
    cases he : used e with
    | none => rw [he] at this; simp only [Option.getD_none] at this; omega
    | some y => rw [he] at this; simp only [Option.getD_some] at this; exact ⟨y, rfl, by omega⟩

/-- **C46**: the shards of an object go to different servers as long as there are any, even if the table of
loads is refreshed in between. -/
theorem C46_distinct (ds : List Str) (hnd : ds.Nodup) (hne : ds ≠ []) (tables : List Loads)
    (hk : tables.length ≤ ds.length) :
    ∃ l, selectDataServer ds (tables.map spacePop) = some l ∧ l.length = tables.length ∧ l.Nodup := by
  have := C44_distinct ds hnd hne (tables.map spacePop) (by
    intro p hp
    obtain ⟨t, _, rfl⟩ := List.mem_map.1 hp
    exact spacePop_ok t) (by simpa using hk)
  simpa using this

/-- The load of a server with a known load. -/
def loadOf (used : Loads) (s : Str) : Int := (used s).getD maxInt64

theorem space_sorted (used : Loads) (n : Nat) (ips us : List Str) (hk : n ≤ ips.length)
    (hload : ∀ c ∈ ips, ∃ x, used c = some x ∧ x < maxInt64) :
    ∃ l s', IPSel.selects (List.replicate n (spacePop used)) ⟨ips, us⟩ = some (l, s') ∧
      List.Perm (l ++ s'.ips) ips ∧ l.Pairwise (fun a b => loadOf used a ≤ loadOf used b) ∧
      ∀ a ∈ l, ∀ b ∈ s'.ips, loadOf used a ≤ loadOf used b := by
  induction n generalizing ips us with
  | zero => exact ⟨[], ⟨ips, us⟩, rfl, by simp, List.Pairwise.nil, by simp⟩
  | succ n ih =>
    have hne : ips ≠ [] := by intro e; rw [e] at hk; simp at hk
    obtain ⟨rest, e, h1, _, hmem, h2⟩ := C46_least_loaded used ips hne
    obtain ⟨rest', e', h1', hperm⟩ := spacePop_ok used ips hne
    rw [h1] at h1'
    cases h1'
    have hsub : ∀ c ∈ rest, c ∈ ips := fun c hc => hperm.subset (by simp [hc])
    obtain ⟨l, s', h3, h4, h5, h6⟩ := ih rest (us ++ [e])
      (by have := hperm.length_eq; simp at this; omega) (fun c hc => hload c (hsub c hc))
    have hle : ∀ b ∈ rest, loadOf used e ≤ loadOf used b := by
      intro b hb
      obtain ⟨x, hx, hlt⟩ := hload b (hsub b hb)
      obtain ⟨y, hy, hyx⟩ := h2 b (hsub b hb) x hx hlt
      unfold loadOf; rw [hx, hy]; exact hyx
    refine ⟨e :: l, s', ?_, ?_, ?_, ?_⟩
    · rw [List.replicate_succ]
      unfold IPSel.selects
      have : IPSel.select (spacePop used) ⟨ips, us⟩ = some (e, ⟨rest, us ++ [e]⟩) := by
        unfold IPSel.select; simp only [if_neg hne, h1, Option.map_some]
      rw [this]
      simp only
      rw [h3]
      rfl
    · exact (List.Perm.cons e h4).trans hperm
    · refine List.Pairwise.cons ?_ h5
      intro b hb
      exact hle b (h4.subset (List.mem_append_left _ hb))
    · intro a ha b hb
      rcases List.mem_cons.1 ha with rfl | ha
      · exact hle b (h4.subset (List.mem_append_right _ hb))
      · exact h6 a ha b hb

/-- **C46**: while the loads are known and do not change, the servers selected for an object are ordered by
load, and no server left out has a smaller load than a selected one. -/
theorem C46_least_loaded_first (used : Loads) (ds : List Str) (hne : ds ≠ []) (n : Nat) (hk : n ≤ ds.length)
    (hload : ∀ c ∈ ds, ∃ x, used c = some x ∧ x < maxInt64) :
    ∃ l, selectDataServer ds (List.replicate n (spacePop used)) = some l ∧ l.length = n ∧
      l.Pairwise (fun a b => loadOf used a ≤ loadOf used b) ∧
      ∀ a ∈ l, ∀ b ∈ ds, b ∉ l → loadOf used a ≤ loadOf used b := by
  obtain ⟨l, s', h1, h2, h3, h4⟩ := space_sorted used n ds [] hk hload
  have hlen : ∀ (ps : List Pop) (s : IPSel) (r : List Str × IPSel), IPSel.selects ps s = some r →
      r.1.length = ps.length := by
    intro ps
    induction ps with
    | nil => intro s r h; cases h; rfl
    | cons p ps ih =>
      intro s r h
      unfold IPSel.selects at h
      cases hs : s.select p with
      | none => rw [hs] at h; cases h
      | some x =>
        rw [hs] at h
        simp only at h
        cases hr : IPSel.selects ps x.2 with
        | none => rw [hr] at h; cases h
        | some r' =>
          rw [hr] at h
          cases h
          simp [ih _ _ hr]
  refine ⟨l, by unfold selectDataServer; rw [if_neg hne, h1]; rfl, by simpa using hlen _ _ _ h1, h3, ?_⟩
  intro a ha b hb hnb
  have : b ∈ l ++ s'.ips := h2.symm.subset hb
  rcases List.mem_append.1 this with h | h
  · exact absurd h hnb
  · exact h4 a ha b h

/-- Three servers with loads 5, unknown, 2. -/
def exLoads : Loads := fun s => if s = ['a'] then some 5 else if s = ['c'] then some 2 else none

example : selectDataServer [['a'], ['b'], ['c']] (List.replicate 3 (spacePop exLoads)) =
    some [['c'], ['a'], ['b']] := by decide

/-- A load that can not be parsed counts as zero (`util.ToInt64`), so a server whose answer lacks the header
is preferred to all others. -/
theorem C46_missing_header_preferred (used : Loads) (hz : used ['z'] = some 0)
    (ho : used ['a'] = some 1) : spaceSelect used [['a'], ['z']] = some ['z'] := by
  simp [spaceSelect, extremal, extremalIndex, extremalLoop, betterThan, hz, ho]

end Verif.Api
