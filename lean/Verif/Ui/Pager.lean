import Verif.Admin.Paging

/-!
# The lists of the web console and their pager (C116)

Models src/adminserver/ui/src/components/Pagination.vue and the parts of pages/metadata.vue (lines 109-171) and
pages/bucket.vue (lines 138-257) that ask for a page and show the answer.

Simplified: numbers of JavaScript are integers; the property `modelValue` and the field `curPage` of the pager are
one field `cur`, because the pager writes both at once (Pagination.vue:59-65) and the pages never write the page
themselves; watchers run at once; answers that are errors show a message and change nothing, so a failed request is
one that is never answered.
-/

namespace Verif.Ui

/-- What is asked for; `MetadataReq` and `BucketReq` (typings/request.d.ts) without the bucket, which does not change
while a page is open. -/
structure Query where
  name : Str
  page : Int
  size : Int
deriving DecidableEq, Repr

/-- The state of a page with a list.  `start` and `cur` are the data of the pager (Pagination.vue:52-57), `name`,
`size` and `total` the rest of `dataReq` (metadata.vue:118, bucket.vue:149), `rows` is `dataList`, `pend` the requests
on their way in the order of sending. -/
structure St (α : Type) where
  start : Int
  cur : Int
  name : Str
  size : Int
  total : Int
  rows : List α
  pend : List Query

/-- `Math.ceil(this.total / this.pageSize)`; Pagination.vue:48-50. -/
def totalPage (total size : Int) : Int := -((-total) / size)

def St.pages {α : Type} (s : St α) : Int := totalPage s.total s.size

def St.query {α : Type} (s : St α) : Query := ⟨s.name, s.cur, s.size⟩

/-- `queryMetadata`, `queryVersion` and `queryBuckets`; metadata.vue:127-150, bucket.vue:190-197: the request is sent with the
present selection. -/
def ask {α : Type} (s : St α) : St α := { s with pend := s.pend ++ [s.query] }

/-- `setCurrentPage` with the watcher of the page; Pagination.vue:59-65 and metadata.vue:152-154, bucket.vue:247-249.
A watcher does not run when the value stays the same. -/
def setCurrentPage {α : Type} (s : St α) (i : Int) : St α :=
  if i ≤ s.pages ∧ 0 < i then
    if i = s.cur then s else ask { s with cur := i }
  else s

/-- `changeStart`; Pagination.vue:70-76. -/
def changeStart {α : Type} (max : Int) (s : St α) : St α :=
  if s.cur ≥ s.start + max then { s with start := s.start + max }
  else if s.cur < s.start then { s with start := s.start - max }
  else s

/-- `switchPage`; Pagination.vue:66-69. -/
def switchPage {α : Type} (max : Int) (s : St α) (i : Int) : St α := changeStart max (setCurrentPage s (s.cur + i))

/-- The numbers on display; Pagination.vue:11-15. -/
def St.visible {α : Type} (max : Int) (s : St α) (i : Int) : Prop :=
  1 ≤ i ∧ i ≤ s.pages ∧ s.start ≤ i ∧ i < s.start + max

instance {α : Type} (max : Int) (s : St α) (i : Int) : Decidable (s.visible max i) := by
  unfold St.visible; infer_instance

/-- The controls of the pager; Pagination.vue:1-29. -/
inductive Control
  | prev
  | next
  | number (i : Int)
deriving DecidableEq, Repr

inductive Ev (α : Type)
  | control (c : Control)
  /-- the choice of a page size; metadata.vue:50-52 and :155-157, bucket.vue:47-49 and :250-252 -/
  | resize (n : Int)
  /-- `searchData` (metadata.vue:122-125), or `queryVersion` for another object (:140-150) -/
  | search (name : Str)
  /-- the answer to the request at place `i` of those on their way: its rows and the total number; metadata.vue:129-132,
  bucket.vue:191-194 -/
  | answer (i : Nat) (rows : List α) (total : Int)

/-- A control is used; a number that is not on display cannot be. -/
def control {α : Type} (max : Int) (s : St α) : Control → St α
  | .prev => switchPage max s (-1)
  | .next => switchPage max s 1
  | .number i => if s.visible max i then setCurrentPage s i else s

def step {α : Type} (max : Int) (s : St α) : Ev α → St α
  | .control c => control max s c
  | .resize n => if n = s.size then s else ask { s with size := n }
  | .search name => ask { s with name := name }
  | .answer i rows total =>
    if i < s.pend.length then { s with rows := rows, total := total, pend := s.pend.eraseIdx i } else s

def run {α : Type} (max : Int) (s : St α) : List (Ev α) → St α
  | [] => s
  | e :: es => run max (step max s e) es

/-- A page as it is opened: the first request has been sent; metadata.vue:114-118 and :167-170, bucket.vue:147-149
and :254-256.  The size is 10. -/
def opened {α : Type} (name : Str) : St α := ask ⟨1, 1, name, 10, 0, [], []⟩

/-! ## Specification -/

/-- The controls are used one after the other, with nothing else going on. -/
def controls {α : Type} (max : Int) (s : St α) (cs : List Control) : St α := cs.foldl (control max) s

/-- Page `p` can be chosen from `s` by the controls. -/
def CanReach {α : Type} (max : Int) (s : St α) (p : Int) : Prop := ∃ cs, (controls max s cs).cur = p

/-- The number of a page is on display, within a window of `max` numbers that begins at `1`, `1 + max`, … -/
def Window {α : Type} (max : Int) (s : St α) : Prop :=
  1 ≤ s.cur ∧ s.start ≤ s.cur ∧ s.cur < s.start + max ∧ max ∣ s.start - 1

/-- Page `p` (from 1) of a list, `n` to a page. -/
def pageRows {α : Type} (l : List α) (p n : Int) : List α := (l.drop ((p - 1) * n).toNat).take n.toNat

/-- What the server holds for a name. -/
abbrev Server (α : Type) := Str → List α

/-- The total number that comes with a page: `MetadataPaging` reports none at all when there is no such page (`zero`;
src/adminserver/internal/usecase/logic/metadata_logic.go:81-84), the lists of buckets (:123-124) and of versions
report all. -/
def reported {α : Type} (zero : Bool) (l : List α) (p n : Int) : Int :=
  if zero = true ∧ (l.length : Int) ≤ (p - 1) * n then 0 else l.length

/-- Every answer is that of a server holding `srv` to the request in question. -/
def Honest {α : Type} (max : Int) (zero : Bool) (srv : Server α) (s : St α) : List (Ev α) → Prop
  | [] => True
  | e :: es =>
    (match e with
     | .answer i rows total => ∀ q, s.pend[i]? = some q → rows = pageRows (srv q.name) q.page q.size ∧
         total = reported zero (srv q.name) q.page q.size
     | .resize n => 0 < n
     | _ => True) ∧ Honest max zero srv (step max s e) es

/-- Nothing is chosen while an answer is awaited. -/
def Patient {α : Type} (max : Int) (s : St α) : List (Ev α) → Prop
  | [] => True
  | e :: es => (match e with | .answer _ _ _ => True | _ => s.pend = []) ∧ Patient max (step max s e) es

/-- **C116**: with all requests answered, a list shows the page that is selected of what is stored for the name that is
typed, and every page of it can be chosen. -/
def C116_statement : Prop :=
  ∀ (max : Int) (zero : Bool) (srv : Server Nat) (name : Str) (es : List (Ev Nat)), 0 < max → Honest max zero srv (opened name) es →
    (run max (opened name) es).pend = [] →
    (run max (opened name) es).rows = pageRows (srv (run max (opened name) es).name) (run max (opened name) es).cur
      (run max (opened name) es).size ∧
    ∀ p, 1 ≤ p → p ≤ (run max (opened name) es).pages → CanReach max (run max (opened name) es) p

/-! ## The window -/

theorem set_cases {α : Type} (s : St α) (i : Int) :
    (setCurrentPage s i).start = s.start ∧ (setCurrentPage s i).size = s.size ∧ (setCurrentPage s i).total = s.total ∧
    (setCurrentPage s i).name = s.name ∧
    (setCurrentPage s i).cur = if i ≤ s.pages ∧ 0 < i then i else s.cur := by
  unfold setCurrentPage ask
  split
  · split
    · next h => exact ⟨rfl, rfl, rfl, rfl, h.symm⟩
    · exact ⟨rfl, rfl, rfl, rfl, rfl⟩
  · exact ⟨rfl, rfl, rfl, rfl, rfl⟩

theorem change_cases {α : Type} (max : Int) (s : St α) :
    (changeStart max s).cur = s.cur ∧ (changeStart max s).size = s.size ∧ (changeStart max s).total = s.total ∧
    (changeStart max s).name = s.name ∧
    (changeStart max s).start = if s.cur ≥ s.start + max then s.start + max else if s.cur < s.start then s.start - max else s.start := by
  unfold changeStart
  split
  · exact ⟨rfl, rfl, rfl, rfl, rfl⟩
  · split <;> exact ⟨rfl, rfl, rfl, rfl, rfl⟩

theorem control_window {α : Type} (max : Int) (hm : 0 < max) (s : St α) (h : Window max s) (c : Control) :
    Window max (control max s c) ∧ (control max s c).total = s.total ∧ (control max s c).size = s.size := by
  obtain ⟨h1, h2, h3, k, hk⟩ := h
  have key : ∀ i : Int, (i = 1 ∨ i = -1) → Window max (switchPage max s i) ∧ (switchPage max s i).total = s.total ∧
      (switchPage max s i).size = s.size := by
    intro i hi
    unfold switchPage Window
    obtain ⟨a1, a2, a3, a4, a5⟩ := set_cases s (s.cur + i)
    obtain ⟨b1, b2, b3, b4, b5⟩ := change_cases max (setCurrentPage s (s.cur + i))
    rw [b5, b1, b2, b3, a1, a2, a3, a5]
    refine ⟨?_, rfl, rfl⟩
    by_cases hc : s.cur + i ≤ s.pages ∧ 0 < s.cur + i
    · rw [if_pos hc]
      by_cases g1 : s.cur + i ≥ s.start + max
      · rw [if_pos g1]
        refine ⟨by omega, by omega, by omega, k + 1, ?_⟩
        rw [Int.mul_add, ← hk]; omega
      · rw [if_neg g1]
        by_cases g2 : s.cur + i < s.start
        · rw [if_pos g2]
          refine ⟨by omega, by omega, by omega, k - 1, ?_⟩
          rw [Int.mul_sub, ← hk]; omega
        · rw [if_neg g2]
          exact ⟨by omega, by omega, by omega, k, hk⟩
    · rw [if_neg hc, if_neg (by omega), if_neg (by omega)]
      exact ⟨h1, h2, h3, k, hk⟩
  cases c with
  | prev => exact key (-1) (.inr rfl)
  | next => exact key 1 (.inl rfl)
  | number i =>
    unfold control
    dsimp only
    split
    · next hv =>
      obtain ⟨a1, a2, a3, a4, a5⟩ := set_cases s i
      unfold Window
      rw [a1, a2, a3, a5, if_pos ⟨hv.2.1, by have := hv.1; omega⟩]
      exact ⟨⟨hv.1, hv.2.2.1, hv.2.2.2, k, hk⟩, rfl, rfl⟩
    · exact ⟨⟨h1, h2, h3, k, hk⟩, rfl, rfl⟩

theorem step_window {α : Type} (max : Int) (hm : 0 < max) (s : St α) (h : Window max s) (e : Ev α) : Window max (step max s e) := by
  cases e with
  | control c => exact (control_window max hm s h c).1
  | resize n => unfold step; dsimp only; split <;> exact h
  | search name => exact h
  | answer i rows total => unfold step; dsimp only; split <;> exact h

theorem run_window {α : Type} (max : Int) (hm : 0 < max) (es : List (Ev α)) : ∀ s : St α, Window max s → Window max (run max s es) := by
  induction es with
  | nil => exact fun s h => h
  | cons e es ih => exact fun s h => ih _ (step_window max hm s h e)

/-- **C116** Whatever is done and answered, the selected page lies in the window on display. -/
theorem C116_window {α : Type} (max : Int) (hm : 0 < max) (name : Str) (es : List (Ev α)) :
    Window max (run max (opened name) es) :=
  run_window max hm es _ ⟨by show (1 : Int) ≤ 1; omega, by show (1 : Int) ≤ 1; omega, by show (1 : Int) < 1 + max; omega, 0, by show (1 : Int) - 1 = _; omega⟩

set_option maxRecDepth 10000 in
/-- Not vacuous: twelve pages, ten numbers to a window. -/
example : let s : St Nat := run 10 (opened []) (.answer 0 [] 120 :: List.replicate 10 (.control .next))
    s.cur = 11 ∧ s.start = 11 ∧ s.pages = 12 := by decide

/-! ## Reaching the pages -/

theorem pages_eq {α : Type} {s s' : St α} (h1 : s'.total = s.total) (h2 : s'.size = s.size) : s'.pages = s.pages := by
  unfold St.pages; rw [h1, h2]

theorem next_cur {α : Type} (max : Int) (s : St α) (h : 1 ≤ s.cur) (hp : s.cur + 1 ≤ s.pages) :
    (control max s .next).cur = s.cur + 1 := by
  show (switchPage max s 1).cur = _
  unfold switchPage
  rw [(change_cases max _).1, (set_cases s _).2.2.2.2, if_pos ⟨hp, by omega⟩]

theorem prev_cur {α : Type} (max : Int) (s : St α) (h : 1 < s.cur) (hp : s.cur - 1 ≤ s.pages) :
    (control max s .prev).cur = s.cur - 1 := by
  show (switchPage max s (-1)).cur = _
  unfold switchPage
  rw [(change_cases max _).1, (set_cases s _).2.2.2.2, if_pos ⟨by omega, by omega⟩]
  omega

theorem reach_up {α : Type} (max : Int) (hm : 0 < max) (n : Nat) : ∀ s : St α, Window max s → s.cur + n ≤ s.pages →
    CanReach max s (s.cur + n) := by
  induction n with
  | zero => exact fun s _ _ => ⟨[], by show s.cur = _; omega⟩
  | succ n ih =>
    intro s h hp
    have hn := next_cur max s h.1 (by omega)
    obtain ⟨hw, ht, hs⟩ := control_window max hm s h .next
    obtain ⟨cs, hcs⟩ := ih (control max s .next) hw (by rw [pages_eq ht hs, hn]; omega)
    exact ⟨.next :: cs, by show (controls max (control max s .next) cs).cur = _; rw [hcs, hn]; omega⟩

theorem reach_down {α : Type} (max : Int) (hm : 0 < max) (n : Nat) : ∀ s : St α, Window max s → 1 ≤ s.cur - n → s.cur - 1 ≤ s.pages →
    CanReach max s (s.cur - n) := by
  induction n with
  | zero => exact fun s _ _ _ => ⟨[], by show s.cur = _; omega⟩
  | succ n ih =>
    intro s h h1 hp
    have hn := prev_cur max s (by omega) hp
    obtain ⟨hw, ht, hs⟩ := control_window max hm s h .prev
    obtain ⟨cs, hcs⟩ := ih (control max s .prev) hw (by rw [hn]; omega) (by rw [pages_eq ht hs, hn]; omega)
    exact ⟨.prev :: cs, by show (controls max (control max s .prev) cs).cur = _; rw [hcs, hn]; omega⟩

theorem reach_near {α : Type} (max : Int) (hm : 0 < max) (s : St α) (h : Window max s) (hc : s.cur - 1 ≤ s.pages) (p : Int)
    (h1 : 1 ≤ p) (hp : p ≤ s.pages) : CanReach max s p := by
  by_cases hle : s.cur ≤ p
  · obtain ⟨cs, hcs⟩ := reach_up max hm (p - s.cur).toNat s h (by omega)
    exact ⟨cs, by rw [hcs]; omega⟩
  · obtain ⟨cs, hcs⟩ := reach_down max hm (s.cur - p).toNat s h (by omega) hc
    exact ⟨cs, by rw [hcs]; omega⟩

/-- None of the controls has an effect. -/
def Stuck {α : Type} (max : Int) (s : St α) : Prop := ∀ c, control max s c = s

theorem set_refused {α : Type} (s : St α) (i : Int) (h : ¬ (i ≤ s.pages ∧ 0 < i)) : setCurrentPage s i = s := by
  unfold setCurrentPage; rw [if_neg h]

theorem change_none {α : Type} (max : Int) (s : St α) (h : Window max s) : changeStart max s = s := by
  unfold changeStart
  rw [if_neg (by have := h.2.2.1; omega), if_neg (by have := h.2.1; omega)]

/-- **C116** Which pages can be chosen, in every state that occurs: all of them, if a number is on display or the selected
page is at most one beyond the last; otherwise no control has any effect. -/
theorem C116_reach {α : Type} (max : Int) (hm : 0 < max) (s : St α) (h : Window max s) :
    (s.start ≤ s.pages ∨ s.cur ≤ s.pages + 1 → ∀ p, 1 ≤ p → p ≤ s.pages → CanReach max s p) ∧
    (s.pages < s.start ∧ s.pages + 1 < s.cur → Stuck max s) := by
  constructor
  · intro hs p h1 hp
    by_cases hc : s.cur - 1 ≤ s.pages
    · exact reach_near max hm s h hc p h1 hp
    · have hst : s.start ≤ s.pages := by omega
      obtain ⟨w1, w2, w3, k, hk⟩ := h
      by_cases hpos : 1 ≤ s.start
      · have hv : s.visible max s.start := ⟨hpos, hst, by omega, by omega⟩
        have hw := control_window max hm s ⟨w1, w2, w3, k, hk⟩ (.number s.start)
        have hcur : (control max s (.number s.start)).cur = s.start := by
          show (if s.visible max s.start then setCurrentPage s s.start else s).cur = _
          rw [if_pos hv, (set_cases s _).2.2.2.2, if_pos ⟨hst, by omega⟩]
        obtain ⟨cs, hcs⟩ := reach_near max hm _ hw.1 (by rw [hcur, pages_eq hw.2.1 hw.2.2]; omega) p h1
          (by rw [pages_eq hw.2.1 hw.2.2]; exact hp)
        exact ⟨.number s.start :: cs, hcs⟩
      · -- the window begins at 1 or later
        exfalso
        have hk0 : k ≤ -1 := by
          apply Int.le_of_lt_add_one
          apply Int.lt_of_mul_lt_mul_left (a := max) _ (by omega)
          rw [← hk]; omega
        have : max * k ≤ max * (-1) := Int.mul_le_mul_of_nonneg_left hk0 (by omega)
        rw [← hk] at this
        omega
  · rintro ⟨hs, hc⟩ c
    cases c with
    | prev =>
      show changeStart max (setCurrentPage s (s.cur + -1)) = s
      rw [set_refused s _ (by omega), change_none max s h]
    | next =>
      show changeStart max (setCurrentPage s (s.cur + 1)) = s
      rw [set_refused s _ (by omega), change_none max s h]
    | number i =>
      show (if s.visible max i then setCurrentPage s i else s) = s
      rw [if_neg]
      rintro ⟨_, h2, h3, _⟩
      omega

/-- Not vacuous, first part: page 3 of 2 is selected, the numbers 1 and 2 are on display. -/
example : let s : St Nat := run 10 (opened []) [.answer 0 [] 30, .control .next, .control .next, .answer 0 [] 30, .answer 0 [] 20]
    s.start = 1 ∧ s.cur = 3 ∧ s.pages = 2 := by decide

set_option maxRecDepth 100000 in
/-- **C116** Refuted: after a search while page 11 is selected the pager is stuck although there are pages. -/
theorem C116_stuck (a : List Nat) (n : Int) (h1 : 0 < n) (h2 : n ≤ 90) (name : Str) :
    let s := run 10 (opened [])
      (.answer 0 [] 120 :: List.replicate 10 (.control .next) ++ List.replicate 10 (.answer 0 [] 120) ++ [.search name, .answer 0 a n])
    s.total = n ∧ 1 ≤ s.pages ∧ s.cur = 11 ∧ s.pend = [] ∧ Stuck 10 s := by
  intro s
  have e1 : s = ⟨11, 11, name, 10, n, a, []⟩ := rfl
  have hp : s.pages = -((-n) / 10) := by rw [e1]; rfl
  refine ⟨by rw [e1], by omega, by rw [e1], by rw [e1], ?_⟩
  have hw : Window 10 s := by rw [e1]; exact ⟨(by decide : (1 : Int) ≤ 11), (by decide : (11 : Int) ≤ 11), (by decide : (11 : Int) < 11 + 10), 1, (by decide : (11 : Int) - 1 = 10 * 1)⟩
  refine (C116_reach 10 (by decide) s hw).2 ⟨?_, ?_⟩ <;> rw [hp, e1] <;> dsimp only <;> omega

example : (3 : Int) ≤ 90 := by decide

/-! ## The rows -/

/-- With one request at a time, the rows are those of the selection. -/
structure Fresh {α : Type} (zero : Bool) (srv : Server α) (s : St α) : Prop where
  one : s.pend = [] ∨ s.pend = [s.query]
  rows : s.pend = [] → s.rows = pageRows (srv s.name) s.cur s.size ∧ s.total = reported zero (srv s.name) s.cur s.size

theorem fresh_set {α : Type} (zero : Bool) (srv : Server α) (s : St α) (h : Fresh zero srv s) (hp : s.pend = []) (i : Int) :
    Fresh zero srv (setCurrentPage s i) := by
  unfold setCurrentPage
  split
  · split
    · exact h
    · exact ⟨.inr (by simp [ask, hp]; rfl), by simp [ask]⟩
  · exact h

theorem fresh_change {α : Type} (max : Int) (zero : Bool) (srv : Server α) (s : St α) (h : Fresh zero srv s) : Fresh zero srv (changeStart max s) := by
  unfold changeStart
  split
  · exact ⟨h.one, h.rows⟩
  · split
    · exact ⟨h.one, h.rows⟩
    · exact h

theorem fresh_step {α : Type} (max : Int) (zero : Bool) (srv : Server α) (s : St α) (e : Ev α) (es : List (Ev α)) (h : Fresh zero srv s)
    (hh : Honest max zero srv s (e :: es)) (hp : Patient max s (e :: es)) : Fresh zero srv (step max s e) := by
  cases e with
  | control c =>
    have h0 : s.pend = [] := hp.1
    cases c with
    | prev => exact fresh_change max zero srv _ (fresh_set zero srv s h h0 _)
    | next => exact fresh_change max zero srv _ (fresh_set zero srv s h h0 _)
    | number i =>
      show Fresh zero srv (if s.visible max i then setCurrentPage s i else s)
      split
      · exact fresh_set zero srv s h h0 i
      · exact h
  | resize n =>
    have h0 : s.pend = [] := hp.1
    show Fresh zero srv (if n = s.size then s else ask { s with size := n })
    split
    · exact h
    · exact ⟨.inr (by simp [ask, h0]; rfl), by simp [ask]⟩
  | search name =>
    have h0 : s.pend = [] := hp.1
    exact ⟨.inr (by simp [step, ask, h0]; rfl), by simp [step, ask]⟩
  | answer i rows total =>
    show Fresh zero srv (if i < s.pend.length then { s with rows := rows, total := total, pend := s.pend.eraseIdx i } else s)
    split
    · next hi =>
      rcases h.one with h0 | h0
      · rw [h0] at hi; exact absurd hi (by simp)
      · rw [h0] at hi
        obtain rfl : i = 0 := by simpa using hi
        have ha := hh.1 s.query (by rw [h0]; rfl)
        exact ⟨.inl (by simp [h0]), fun _ => ha⟩
    · exact h

theorem fresh_run {α : Type} (max : Int) (zero : Bool) (srv : Server α) (es : List (Ev α)) : ∀ s : St α, Fresh zero srv s → Honest max zero srv s es →
    Patient max s es → Fresh zero srv (run max s es) := by
  induction es with
  | nil => exact fun s h _ _ => h
  | cons e es ih => exact fun s h hh hp => ih _ (fresh_step max zero srv s e es h hh hp) hh.2 hp.2

/-- **C116** If nothing is chosen while an answer is awaited, the rows shown are those of the selected page of what is stored
for the name typed.  Missing from the full statement: choices made while an answer is awaited, and the pages that cannot be
chosen. -/
theorem C116_rows_partial {α : Type} (max : Int) (zero : Bool) (srv : Server α) (name : Str) (es : List (Ev α))
    (hh : Honest max zero srv (opened name) es) (hp : Patient max (opened name) es) (hdone : (run max (opened name) es).pend = []) :
    (run max (opened name) es).rows = pageRows (srv (run max (opened name) es).name) (run max (opened name) es).cur
      (run max (opened name) es).size ∧
    (run max (opened name) es).total = reported zero (srv (run max (opened name) es).name) (run max (opened name) es).cur
      (run max (opened name) es).size :=
  (fresh_run max zero srv es _ ⟨.inr rfl, fun h => absurd h (by simp [opened, ask])⟩ hh hp).rows hdone

/-- The objects of the examples: 25, of which three begin with `a`. -/
def sampleSrv : Server Nat := fun name => if name = ['a'] then [3, 5, 7] else List.range 25

/-- Not vacuous: the second of three pages. -/
example : let es : List (Ev Nat) := [.answer 0 (List.range 10) 25, .control .next, .answer 0 ((List.range 20).drop 10) 25]
    Honest 10 true sampleSrv (opened []) es ∧ Patient 10 (opened []) es ∧ (run 10 (opened []) es).pend = [] ∧
    (run 10 (opened []) es).rows = (List.range 20).drop 10 := by
  refine ⟨⟨?_, trivial, ?_, trivial⟩, ⟨trivial, rfl, trivial, trivial⟩, rfl, rfl⟩
  · rintro q h; cases h; exact ⟨rfl, rfl⟩
  · rintro q h; cases h; exact ⟨rfl, rfl⟩

/-- The state after a search that was answered. -/
def searched {α : Type} (max : Int) (zero : Bool) (srv : Server α) (s : St α) (name : Str) : St α :=
  run max s [.search name, .answer 0 (pageRows (srv name) s.cur s.size) (reported zero (srv name) s.cur s.size)]

theorem searched_eq {α : Type} (max : Int) (zero : Bool) (srv : Server α) (s : St α) (name : Str) (h : s.pend = []) :
    searched max zero srv s name = ⟨s.start, s.cur, name, s.size, reported zero (srv name) s.cur s.size,
      pageRows (srv name) s.cur s.size, []⟩ := by
  simp [searched, run, step, ask, h]

/-- **C116** A search keeps the selected page: whenever it finds no more than the pages before hold, nothing is shown,
however many there are. -/
theorem C116_search_empty {α : Type} (max : Int) (zero : Bool) (srv : Server α) (s : St α) (name : Str) (h : s.pend = [])
    (hf : ((srv name).length : Int) ≤ (s.cur - 1) * s.size) :
    (searched max zero srv s name).rows = [] ∧ (searched max zero srv s name).cur = s.cur := by
  rw [searched_eq max zero srv s name h]
  refine ⟨?_, rfl⟩
  show pageRows (srv name) s.cur s.size = []
  unfold pageRows
  rw [List.drop_eq_nil_of_le (by omega), List.take_nil]

/-- **C116** In the list of objects such a search also leaves a pager of which no control has an effect, on every page but
the first. -/
theorem C116_search_stuck {α : Type} (max : Int) (srv : Server α) (s : St α) (name : Str) (h : s.pend = [])
    (hw : Window max s) (hm : 0 < max) (hc : 2 ≤ s.cur) (hf : ((srv name).length : Int) ≤ (s.cur - 1) * s.size) :
    (searched max true srv s name).total = 0 ∧ Stuck max (searched max true srv s name) := by
  rw [searched_eq max true srv s name h]
  have hr : reported true (srv name) s.cur s.size = 0 := if_pos ⟨rfl, hf⟩
  refine ⟨hr, (C116_reach max hm ⟨s.start, s.cur, name, s.size, reported true (srv name) s.cur s.size,
    pageRows (srv name) s.cur s.size, []⟩ hw).2 ?_⟩
  have hp : (St.mk s.start s.cur name s.size (reported true (srv name) s.cur s.size) (pageRows (srv name) s.cur s.size) []).pages = 0 := by
    show totalPage (reported true (srv name) s.cur s.size) s.size = 0
    rw [hr]; unfold totalPage; simp
  rw [hp]
  refine ⟨?_, ?_⟩
  · show 0 < s.start
    obtain ⟨_, _, h3, k, hk⟩ := hw
    by_cases hpos : 1 ≤ s.start
    · omega
    · exfalso
      have hk0 : k ≤ -1 := by
        apply Int.le_of_lt_add_one
        apply Int.lt_of_mul_lt_mul_left (a := max) _ (by omega)
        rw [← hk]; omega
      have : max * k ≤ max * (-1) := Int.mul_le_mul_of_nonneg_left hk0 (by omega)
      rw [← hk] at this
      omega
  · show 0 + 1 < s.cur
    omega

/-- Not vacuous: three objects are found and none is shown. -/
example : let s := run 10 (opened []) [.answer 0 (List.range 10) 25, .control .next, .answer 0 ((List.range 20).drop 10) 25]
    s.pend = [] ∧ 2 ≤ s.cur ∧ ((sampleSrv ['a']).length : Int) ≤ (s.cur - 1) * s.size ∧ (sampleSrv ['a']).length = 3 := by decide

/-- **C116** Refuted: the answer to an earlier request arrives after that to a later one; the rows are not those of the
selection. -/
theorem C116_late_answer :
    let es : List (Ev Nat) := [.answer 0 (List.range 10) 25, .control .next, .search ['a'], .answer 1 [] 0,
      .answer 0 ((List.range 20).drop 10) 25]
    Honest 10 true sampleSrv (opened []) es ∧ (run 10 (opened []) es).pend = [] ∧ (run 10 (opened []) es).name = ['a'] ∧
    (run 10 (opened []) es).total = 25 ∧
    (run 10 (opened []) es).rows = (List.range 20).drop 10 := by
  refine ⟨⟨?_, trivial, trivial, ?_, ?_, trivial⟩, rfl, rfl, rfl, rfl⟩
  · rintro q h; cases h; exact ⟨rfl, rfl⟩
  · rintro q h; cases h; exact ⟨rfl, rfl⟩
  · rintro q h; cases h; exact ⟨rfl, rfl⟩

theorem C116_statement_fails : ¬ C116_statement := by
  intro h
  obtain ⟨h1, h2, _, _, h5⟩ := C116_late_answer
  have := (h 10 true sampleSrv [] _ (by decide) h1 h2).1
  rw [h5] at this
  exact absurd this (by decide)

/-- **C116** The page shown is the one the administration server cuts out (`PagingOffset`, C13), for every page and size that
the console can choose. -/
theorem C116_server_page {α : Type} (l : List α) (p n : Int) (hp : 1 ≤ p) (hn : 1 ≤ n) :
    Admin.pageOf l p n = some (pageRows l p n) := by
  have hoff : 0 ≤ (p - 1) * n := Int.mul_nonneg (by omega) (by omega)
  unfold Admin.pageOf Admin.pagingOffset pageRows
  rw [if_neg (by omega)]
  dsimp only
  split
  · next st ed hm =>
    split at hm
    · exact absurd hm (by simp)
    · next hlt =>
      simp only [Prod.mk.injEq, and_true] at hm
      obtain ⟨rfl, rfl⟩ := hm
      unfold Admin.slice
      split
      · next hgt =>
        rw [if_pos ⟨hoff, by omega, by omega⟩]
        congr 1
        rw [List.take_of_length_le (by simp; omega), List.take_of_length_le (by simp; omega)]
      · next hgt =>
        rw [if_pos ⟨hoff, by omega, by omega⟩]
        congr 2
        omega
  · next hm =>
    split at hm
    · next hle => rw [List.drop_eq_nil_of_le (by omega), List.take_nil]
    · exact absurd hm (by simp)

example : Admin.pageOf (List.range 25) 3 10 = some [20, 21, 22, 23, 24] := by decide

end Verif.Ui
