import Verif.Common.Str

/-!
# Charts and messages of the web console: C120

Models of src/adminserver/ui/src/components/UsageLine.vue (`fetchTl`), pages/index.vue (`filterLogs`, `getOverview`),
components/CapCard.vue and `updateInfo` of pages/server/data.vue:43-56 and pages/server/meta.vue:210-223.

Simplified: percentages are rational numbers without rounding; sizes are below 2^53; drawing is left to echarts, which
shows the options that it knows by their names and ignores the others (trusted base).
-/

namespace Verif.Ui.Charts

open Verif

/-! ## Usage -/

/-- `TimeStat`; typings/entity.d.ts, src/adminserver/internal/usecase/db/server_stat_db.go:25-28. -/
structure Sample where
  time : Nat
  percent : Rat

/-- The inner loop of `fetchTl`; UsageLine.vue:23-38.  `dateList` and `valueList` grow together and are one list here.
`clock` gives hours and minutes of the local time, UsageLine.vue:24-32. -/
def merge (clock : Nat → Str) : List (Str × Rat) → List Sample → List (Str × Rat)
  | acc, [] => acc
  | [], x :: v => (clock x.time, x.percent * 100) :: merge clock [] v
  | a :: acc, x :: v => (a.1, (a.2 + x.percent * 100) / 2) :: merge clock acc v

/-- `fetchTl`; UsageLine.vue:18-42, for the timelines in the order of their keys. -/
def fetchTl (clock : Nat → Str) (tl : List (List Sample)) : List (Str × Rat) := tl.foldl (merge clock) []

/-! ## Alarms -/

/-- `EtcdStatus`, as far as it is used here. -/
structure Etcd where
  endpoint : Str
  alarms : List Str

/-- `etcdStats`, `alarmMessages` and `currentLog`; index.vue:87-89. -/
structure Home where
  stats : List Etcd
  shown : List Str
  cur : Str

def all : Str := ['a', 'l', 'l']

/-- The loop of `filterLogs`; index.vue:114-119. -/
def collect (stats : List Etcd) (t : Str) : List Str :=
  stats.flatMap fun e => if t = all ∨ e.endpoint = t then e.alarms else []

/-- `filterLogs`; index.vue:109-121. -/
def filterLogs (h : Home) (t : Str) : Home :=
  if t = h.cur then h else { h with cur := t, shown := collect h.stats t }

inductive HomeEv
  /-- the answer of `etcdStat`; index.vue:134-137 -/
  | answer (stats : List Etcd)
  /-- a click on a member or on the heading; index.vue:40 and :43 -/
  | click (t : Str)

def homeStep (h : Home) : HomeEv → Home
  | .answer stats => filterLogs { h with stats := stats } all
  | .click t => filterLogs h t

def homeRun (h : Home) (es : List HomeEv) : Home := es.foldl homeStep h

/-- index.vue:87-89. -/
def home : Home := ⟨[], [], all⟩

/-! ## Capacity -/

/-- `DiskInfo`. -/
structure Disk where
  used : Nat
  total : Nat
  free : Nat
deriving DecidableEq

/-- The loop of `updateInfo`; data.vue:43-56, meta.vue:210-223. -/
def sumCap (servers : List Disk) : Disk :=
  servers.foldl (fun c d => ⟨c.used + d.used, c.total + d.total, c.free + d.free⟩) ⟨0, 0, 0⟩

/-- The card: the numbers (CapCard.vue:5-13) and the values of the pie (CapCard.vue:48-51). -/
structure Card where
  text : Disk
  pieUsed : Nat
  pieFree : Nat

/-- The card is mounted; CapCard.vue:26-54. -/
def mount (servers : List Disk) : Card := ⟨sumCap servers, (sumCap servers).used, (sumCap servers).free⟩

/-- New information on the servers.  `capInfo` gets a new object (data.vue:55), so that the numbers change; the watcher
(CapCard.vue:56-66) watches the object of the time of mounting, which nobody writes to, and would set an option
`serise`, which echarts does not know. -/
def update (c : Card) (servers : List Disk) : Card := { c with text := sumCap servers }

def cards (first : List Disk) (later : List (List Disk)) : Card := later.foldl update (mount first)

/-! ## Specification -/

/-- The mean of some percentages, in percent. -/
def mean (l : List Sample) : Rat := (l.map (·.percent)).sum / (l.length : Nat) * 100

/-- All samples of the servers with a label. -/
def atLabel (clock : Nat → Str) (tl : List (List Sample)) (s : Str) : List Sample :=
  tl.flatten.filter fun x => clock x.time = s

/-- The samples at a place of the timelines. -/
def column (tl : List (List Sample)) (i : Nat) : List Sample := tl.filterMap (·[i]?)

/-- At the same place of the timelines are the samples with the same label. -/
def Aligned (clock : Nat → Str) (tl : List (List Sample)) : Prop :=
  ∀ v ∈ tl, ∀ w ∈ tl, ∀ (i j : Nat) (x y : Sample), v[i]? = some x → w[j]? = some y → (clock x.time = clock y.time ↔ i = j)

/-- The messages of a member, or of all. -/
def Messages (stats : List Etcd) (t m : Str) : Prop := ∃ e ∈ stats, (t = all ∨ e.endpoint = t) ∧ m ∈ e.alarms

/-- **C120**: a point of a chart is the mean usage of the servers at that time; the messages on the first page are those
of the selection; the pie shows the capacity that the numbers beside it tell. -/
def C120_statement : Prop :=
  (∀ clock tl p, p ∈ fetchTl clock tl → p.2 = mean (atLabel clock tl p.1)) ∧
  (∀ es stats m, (homeRun home (es ++ [.answer stats])).stats = stats ∧
    (m ∈ (homeRun home (es ++ [.answer stats])).shown ↔ Messages stats (homeRun home (es ++ [.answer stats])).cur m)) ∧
  (∀ first later, (cards first later).pieUsed = (cards first later).text.used ∧ (cards first later).pieFree = (cards first later).text.free)

/-! ## Usage: lemmas -/

theorem merge_get (clock : Nat → Str) (v : List Sample) : ∀ (acc : List (Str × Rat)) (i : Nat),
    (merge clock acc v)[i]? = match acc[i]?, v[i]? with
      | some a, some x => some (a.1, (a.2 + x.percent * 100) / 2)
      | some a, none => some a
      | none, some x => some (clock x.time, x.percent * 100)
      | none, none => none := by
  induction v with
  | nil => intro acc i; unfold merge; cases acc[i]? <;> simp
  | cons x v ih =>
    intro acc i
    cases acc with
    | nil =>
      unfold merge
      cases i with
      | zero => simp
      | succ i => simpa using ih [] i
    | cons a acc =>
      unfold merge
      cases i with
      | zero => simp
      | succ i => simpa using ih acc i

/-- What becomes of a value. -/
def fade (a : Rat) (y : Sample) : Rat := (a + y.percent * 100) / 2

theorem foldl_get (clock : Nat → Str) (tl : List (List Sample)) (i : Nat) : ∀ acc : List (Str × Rat),
    (tl.foldl (merge clock) acc)[i]? = match acc[i]?, column tl i with
      | some a, l => some (a.1, l.foldl fade a.2)
      | none, x :: l => some (clock x.time, l.foldl fade (x.percent * 100))
      | none, [] => none := by
  induction tl with
  | nil => intro acc; cases h : acc[i]? <;> simp [column, h]
  | cons v tl ih =>
    intro acc
    rw [List.foldl_cons, ih, merge_get]
    cases ha : acc[i]? <;> cases hv : v[i]? <;> simp [column, hv, fade]

/-! ## Usage: theorems -/

/-- **C120** What a point of the chart is made of: the label of the first server that has a sample at this place, and its
value, faded by a half for each further server. -/
theorem C120_point (clock : Nat → Str) (tl : List (List Sample)) (i : Nat) :
    (fetchTl clock tl)[i]? = match column tl i with
      | x :: l => some (clock x.time, l.foldl (fun a y => (a + y.percent * 100) / 2) (x.percent * 100))
      | [] => none := by
  have := foldl_get clock tl i []
  unfold fetchTl
  rw [this]
  cases column tl i <;> rfl

theorem filter_label (clock : Nat → Str) {s : Str} {i : Nat} : ∀ (v : List Sample),
    (∀ (j : Nat) (x : Sample), v[j]? = some x → (clock x.time = s ↔ j = i)) →
    v.filter (fun x => decide (clock x.time = s)) = (v[i]?).toList := by
  intro v
  induction v generalizing i with
  | nil => intro _; rfl
  | cons x v ih =>
    intro h
    cases i with
    | zero =>
      have h0 := (h 0 x rfl).2 rfl
      rw [List.filter_cons_of_pos (by simpa using h0)]
      have : v.filter (fun x => decide (clock x.time = s)) = [] := by
        rw [List.filter_eq_nil_iff]
        intro y hy
        obtain ⟨j, hj⟩ := List.getElem?_of_mem hy
        have := h (j + 1) y (by simpa using hj)
        simpa using mt this.1 (by omega)
      rw [this]
      rfl
    | succ i =>
      have h0 := mt (h 0 x rfl).1 (by omega)
      rw [List.filter_cons_of_neg (by simpa using h0), ih (i := i)]
      · simp
      · intro j y hj
        have := h (j + 1) y (by simpa using hj)
        rw [this]; omega

theorem atLabel_column (clock : Nat → Str) (tl : List (List Sample)) (h : Aligned clock tl) (i : Nat) {x : Sample} (hx : x ∈ column tl i) :
    atLabel clock tl (clock x.time) = column tl i := by
  obtain ⟨w, hw, hwx⟩ := List.mem_filterMap.1 hx
  have key : ∀ v ∈ tl, v.filter (fun y => decide (clock y.time = clock x.time)) = (v[i]?).toList := by
    intro v hv
    exact filter_label clock v fun j y hj => h v hv w hw j i y x hj hwx
  unfold atLabel column
  clear hx h hw hwx
  induction tl with
  | nil => rfl
  | cons v tl ih =>
    rw [List.flatten_cons, List.filter_append, key v List.mem_cons_self, ih fun u hu => key u (List.mem_cons_of_mem _ hu)]
    cases hv : v[i]? <;> simp [hv]

/-- **C120, partial**: with the timelines of one or two servers that have their samples at the same times, every point of
the chart is the mean of the servers at that time.  (Missing: more servers, `C120_three`, and servers that were not
started together, `C120_shifted`.) -/
theorem C120_mean_partial (clock : Nat → Str) (tl : List (List Sample)) (h : Aligned clock tl) (h2 : tl.length ≤ 2)
    (p : Str × Rat) (hp : p ∈ fetchTl clock tl) : p.2 = mean (atLabel clock tl p.1) := by
  obtain ⟨i, hi⟩ := List.getElem?_of_mem hp
  rw [C120_point] at hi
  have hl : (column tl i).length ≤ 2 := Nat.le_trans (List.length_filterMap_le _ _) h2
  split at hi
  · next x l hc =>
    cases hi
    dsimp only
    rw [atLabel_column clock tl h i (x := x) (by rw [hc]; exact List.mem_cons_self), hc]
    rw [hc] at hl
    match l, hl with
    | [], _ => simp [mean]; grind
    | [y], _ => simp [mean]; grind
  · cases hi

/-- A point is never outside of what the servers reported at this place. -/
theorem C120_between (clock : Nat → Str) (tl : List (List Sample)) (i : Nat) (p : Str × Rat) (lo hi : Rat)
    (hp : (fetchTl clock tl)[i]? = some p) (hl : ∀ x ∈ column tl i, lo ≤ x.percent) (hh : ∀ x ∈ column tl i, x.percent ≤ hi) :
    lo * 100 ≤ p.2 ∧ p.2 ≤ hi * 100 := by
  rw [C120_point] at hp
  split at hp
  · next x l hc =>
    cases hp
    rw [hc] at hl hh
    have key : ∀ (l : List Sample) (a : Rat), lo * 100 ≤ a → a ≤ hi * 100 → (∀ y ∈ l, lo ≤ y.percent) → (∀ y ∈ l, y.percent ≤ hi) →
        lo * 100 ≤ l.foldl (fun a y => (a + y.percent * 100) / 2) a ∧ l.foldl (fun a y => (a + y.percent * 100) / 2) a ≤ hi * 100 := by
      intro l
      induction l with
      | nil => intro a h1 h2 _ _; exact ⟨h1, h2⟩
      | cons y l ih =>
        intro a h1 h2 h3 h4
        rw [List.foldl_cons]
        have a1 := h3 y List.mem_cons_self
        have a2 := h4 y List.mem_cons_self
        exact ih _ (by grind) (by grind) (fun z hz => h3 z (List.mem_cons_of_mem _ hz)) (fun z hz => h4 z (List.mem_cons_of_mem _ hz))
    have b1 := hl x List.mem_cons_self
    have b2 := hh x List.mem_cons_self
    exact key l _ (by grind) (by grind) (fun z hz => hl z (List.mem_cons_of_mem _ hz)) (fun z hz => hh z (List.mem_cons_of_mem _ hz))
  · cases hp

/-- The last server counts as much as all others together. -/
theorem C120_last_half (clock : Nat → Str) (tl : List (List Sample)) (i : Nat) (p : Str × Rat) (v : List Sample) (x : Sample)
    (hp : (fetchTl clock tl)[i]? = some p) (hx : v[i]? = some x) :
    (fetchTl clock (tl ++ [v]))[i]? = some (p.1, (p.2 + x.percent * 100) / 2) := by
  have : fetchTl clock (tl ++ [v]) = merge clock (fetchTl clock tl) v := by simp [fetchTl]
  rw [this, merge_get, hp, hx]

/-- Of three servers the chart shows the mean exactly if the last one has the mean of the other two. -/
theorem C120_three (clock : Nat → Str) (x y z : Sample) :
    ∃ p, fetchTl clock [[x], [y], [z]] = [p] ∧ (p.2 = mean [x, y, z] ↔ z.percent = (x.percent + y.percent) / 2) := by
  refine ⟨_, rfl, ?_⟩
  simp [mean]
  grind

/-- **C120 fails**: three servers, two of them idle and the last one busy, are shown at half load instead of a third; in
another order at a quarter. -/
theorem C120_order (clock : Nat → Str) :
    fetchTl clock [[⟨0, 0⟩], [⟨0, 0⟩], [⟨0, 1⟩]] = [(clock 0, 50)] ∧ fetchTl clock [[⟨0, 1⟩], [⟨0, 0⟩], [⟨0, 0⟩]] = [(clock 0, 25)] ∧
    mean [⟨0, 0⟩, ⟨0, 0⟩, ⟨0, 1⟩] ≠ 50 ∧ mean [⟨0, 1⟩, ⟨0, 0⟩, ⟨0, 0⟩] ≠ 25 := by
  refine ⟨?_, ?_, ?_, ?_⟩
  · simp [fetchTl, merge]; grind
  · simp [fetchTl, merge]; grind
  · simp [mean]; grind
  · simp [mean]; grind

/-- A clock that shows the number. -/
def tick (n : Nat) : Str := fmtNat n

/-- **C120 fails**: a server that was started at 1 is added to what another one reported at 0. -/
theorem C120_shifted : fetchTl tick [[⟨0, 0⟩, ⟨1, 0⟩], [⟨1, 1⟩]] = [(tick 0, 50), (tick 1, 0)] ∧
    atLabel tick [[⟨0, 0⟩, ⟨1, 0⟩], [⟨1, 1⟩]] (tick 0) = [⟨0, 0⟩] ∧ mean [⟨0, 0⟩] = 0 := by
  refine ⟨?_, ?_, ?_⟩
  · simp [fetchTl, merge]; grind
  · have h : tick 1 ≠ tick 0 := by decide
    simp [atLabel, h]
  · simp [mean]; grind

/-- Hypotheses of `C120_mean_partial`. -/
example : Aligned tick [[⟨0, 1⟩, ⟨1, 0⟩], [⟨0, 0⟩]] := by
  intro v hv w hw i j x y hx hy
  have h : tick 0 ≠ tick 1 := by decide
  have h' : tick 1 ≠ tick 0 := by decide
  have c : ∀ v ∈ ([[⟨0, 1⟩, ⟨1, 0⟩], [⟨0, 0⟩]] : List (List Sample)), ∀ (i : Nat) (x : Sample), v[i]? = some x →
      x.time = i ∧ i < 2 := by
    intro v hv i x hx
    rcases List.mem_cons.1 hv with rfl | hv
    · match i, hx with
      | 0, hx => cases hx; exact ⟨rfl, by omega⟩
      | 1, hx => cases hx; exact ⟨rfl, by omega⟩
      | i + 2, hx => cases hx
    · rw [List.mem_singleton.1 hv] at hx
      match i, hx with
      | 0, hx => cases hx; exact ⟨rfl, by omega⟩
      | i + 1, hx => cases hx
  obtain ⟨e1, l1⟩ := c v hv i x hx
  obtain ⟨e2, l2⟩ := c w hw j y hy
  rw [e1, e2]
  constructor
  · intro e
    match i, j, l1, l2 with
    | 0, 0, _, _ => rfl
    | 1, 1, _, _ => rfl
    | 0, 1, _, _ => exact absurd e h
    | 1, 0, _, _ => exact absurd e h'
  · rintro rfl; rfl

/-! ## Alarms: theorems -/

theorem mem_collect (stats : List Etcd) (t m : Str) : m ∈ collect stats t ↔ Messages stats t m := by
  unfold collect Messages
  rw [List.mem_flatMap]
  constructor
  · rintro ⟨e, he, h⟩
    split at h
    · next hc => exact ⟨e, he, hc, h⟩
    · cases h
  · rintro ⟨e, he, hc, h⟩
    exact ⟨e, he, by rw [if_pos hc]; exact h⟩

/-- **C120, partial**: with the answer there, the messages of whatever is chosen next are shown, and from then on those of
the selection.  (Missing: before another selection nothing is shown, `C120_alarms_hidden`.) -/
theorem C120_alarms_partial (stats : List Etcd) (t : Str) (ts : List Str) (ht : t ≠ all) (m : Str) :
    let h := homeRun home (.answer stats :: .click t :: ts.map .click)
    h.cur = (t :: ts).getLast (by simp) ∧ (m ∈ h.shown ↔ Messages stats h.cur m) := by
  have key : ∀ (ts : List Str) (t : Str) (h : Home), h.cur = t → h.stats = stats → h.shown = collect stats t →
      let h' := homeRun h (ts.map .click)
      h'.cur = (t :: ts).getLast (by simp) ∧ h'.shown = collect stats h'.cur := by
    intro ts
    induction ts with
    | nil => intro t h h1 h2 h3; exact ⟨h1, by rw [h1.symm] at h3; exact h3⟩
    | cons u ts ih =>
      intro t h h1 h2 h3
      have e : (t :: u :: ts).getLast (by simp) = (u :: ts).getLast (by simp) := by simp
      rw [e]
      have e2 : homeRun h ((u :: ts).map .click) = homeRun (filterLogs h u) (ts.map .click) := rfl
      rw [e2]
      unfold filterLogs
      split
      · next hu => exact ih u h hu.symm h2 (by rw [h3, hu, h1])
      · exact ih u { h with cur := u, shown := collect h.stats u } rfl h2 (by dsimp only; rw [h2])
  have e : homeRun home (.answer stats :: .click t :: ts.map .click) = homeRun ⟨stats, collect stats t, t⟩ (ts.map .click) := by
    show homeRun (filterLogs (filterLogs { home with stats := stats } all) t) _ = _
    have h1 : filterLogs { home with stats := stats } all = { home with stats := stats } := rfl
    rw [h1]
    unfold filterLogs
    rw [if_neg (show ¬ t = home.cur from ht)]
  obtain ⟨k1, k2⟩ := key ts t ⟨stats, collect stats t, t⟩ rfl rfl rfl
  dsimp only
  rw [e]
  exact ⟨k1, by rw [k2, mem_collect]⟩

/-- If something else was selected before the answer arrived, all messages are shown. -/
theorem C120_alarms_early (stats : List Etcd) (t : Str) (ht : t ≠ all) (m : Str) :
    let h := homeRun home [.click t, .answer stats]
    h.cur = all ∧ h.stats = stats ∧ (m ∈ h.shown ↔ Messages stats all m) := by
  have e : homeRun home [.click t, .answer stats] = ⟨stats, collect stats all, all⟩ := by
    show filterLogs { filterLogs home t with stats := stats } all = _
    have h1 : filterLogs home t = ⟨[], collect [] t, t⟩ := if_neg ht
    rw [h1]
    unfold filterLogs
    rw [if_neg (fun h => ht h.symm)]
  dsimp only
  rw [e]
  exact ⟨rfl, rfl, mem_collect stats all m⟩

/-- **C120 fails**: after the page was opened no message is shown, whatever etcd reports, and clicks on the heading do not
change this. -/
theorem C120_alarms_hidden (stats : List Etcd) (n : Nat) :
    (homeRun home (.answer stats :: List.replicate n (.click all))).shown = [] ∧
    (homeRun home (.answer stats :: List.replicate n (.click all))).cur = all ∧
    (homeRun home (.answer stats :: List.replicate n (.click all))).stats = stats := by
  have : ∀ n, homeRun ⟨stats, [], all⟩ (List.replicate n (.click all)) = ⟨stats, [], all⟩ := by
    intro n
    induction n with
    | zero => rfl
    | succ n ih => rw [List.replicate_succ]; exact ih
  have e : homeRun home (.answer stats :: List.replicate n (.click all)) = ⟨stats, [], all⟩ := this n
  rw [e]
  exact ⟨rfl, rfl, rfl⟩

example : Messages [⟨['e'], [['N', 'O', 'S', 'P', 'A', 'C', 'E']]⟩] all ['N', 'O', 'S', 'P', 'A', 'C', 'E'] :=
  ⟨_, List.mem_singleton.2 rfl, .inl rfl, List.mem_singleton.2 rfl⟩
example : (['e'] : Str) ≠ all := by decide

/-! ## Capacity: theorems -/

/-- The numbers of the card are the sums over the servers of the last answer. -/
theorem C120_sums (first : List Disk) (later : List (List Disk)) :
    let now := (first :: later).getLast (by simp)
    (cards first later).text.used = (now.map (·.used)).sum ∧ (cards first later).text.total = (now.map (·.total)).sum ∧
      (cards first later).text.free = (now.map (·.free)).sum := by
  have hs : ∀ (l : List Disk) (c : Disk), l.foldl (fun c d => (⟨c.used + d.used, c.total + d.total, c.free + d.free⟩ : Disk)) c =
      ⟨c.used + (l.map (·.used)).sum, c.total + (l.map (·.total)).sum, c.free + (l.map (·.free)).sum⟩ := by
    intro l
    induction l with
    | nil => intro c; rfl
    | cons d l ih => intro c; rw [List.foldl_cons, ih]; simp [Nat.add_assoc]
  have ht : ∀ (later : List (List Disk)) (first : List Disk) (c : Card), c.text = sumCap first →
      (later.foldl update c).text = sumCap ((first :: later).getLast (by simp)) := by
    intro later
    induction later with
    | nil => intro first c h; exact h
    | cons l later ih =>
      intro first c _
      rw [List.foldl_cons]
      have := ih l (update c l) rfl
      simpa using this
  have := ht later first (mount first) rfl
  dsimp only
  unfold cards
  rw [this]
  unfold sumCap
  rw [hs]
  simp

/-- **C120, partial**: the pie shows the capacity of the time when the page was opened, so it is right as long as used and
free space are what they were.  (Missing: it does not follow, `C120_pie_fails`.) -/
theorem C120_pie_partial (first : List Disk) (later : List (List Disk)) :
    (cards first later).pieUsed = (first.map (·.used)).sum ∧ (cards first later).pieFree = (first.map (·.free)).sum := by
  have hp : ∀ (later : List (List Disk)) (c : Card), (later.foldl update c).pieUsed = c.pieUsed ∧ (later.foldl update c).pieFree = c.pieFree := by
    intro later
    induction later with
    | nil => intro c; exact ⟨rfl, rfl⟩
    | cons l later ih => intro c; exact ih (update c l)
  obtain ⟨h1, h2⟩ := hp later (mount first)
  obtain ⟨s1, _, s3⟩ := C120_sums first []
  exact ⟨h1.trans s1, h2.trans s3⟩

/-- **C120 fails**: the page is opened before the first answer is there, and the pie stays empty. -/
theorem C120_pie_fails : (cards [] [[⟨1, 3, 2⟩, ⟨2, 3, 1⟩]]).text = ⟨3, 6, 3⟩ ∧ (cards [] [[⟨1, 3, 2⟩, ⟨2, 3, 1⟩]]).pieUsed = 0 ∧
    (cards [] [[⟨1, 3, 2⟩, ⟨2, 3, 1⟩]]).pieFree = 0 := by decide

theorem C120_statement_fails : ¬ C120_statement := by
  rintro ⟨_, _, h⟩
  exact absurd (h [] [[⟨1, 3, 2⟩, ⟨2, 3, 1⟩]]).1 (by decide)

/-- The first two parts fail as well. -/
theorem C120_statement_parts_fail :
    (¬ ∀ clock tl p, p ∈ fetchTl clock tl → p.2 = mean (atLabel clock tl p.1)) ∧
    ¬ ∀ es stats m, (m ∈ (homeRun home (es ++ [.answer stats])).shown ↔ Messages stats (homeRun home (es ++ [.answer stats])).cur m) := by
  constructor
  · intro h
    obtain ⟨h1, h2, h3⟩ := C120_shifted
    have := h tick [[⟨0, 0⟩, ⟨1, 0⟩], [⟨1, 1⟩]] (tick 0, 50) (by rw [h1]; exact List.mem_cons_self)
    dsimp only at this
    rw [h2, h3] at this
    exact absurd this (by decide)
  · intro h
    have := (h [] [⟨['e'], [['x']]⟩] ['x']).2 ⟨_, List.mem_singleton.2 rfl, .inl rfl, List.mem_singleton.2 rfl⟩
    cases this

end Verif.Ui.Charts
