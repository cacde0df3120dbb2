import Verif.Object.DataServer

/-!
# The content cache of a data server and requests at the same time (C115)

Models the handlers `GetFromCache` (src/objectserver/internal/controller/http/objects/objects_cache.go:11-22),
`Put`, `Delete` and `Get` (objects_rest.go:18-93) for one shard, with the goroutines that put what was sent or
read into the cache after the request was answered.  In C50 these have finished before the next request.
-/

namespace Verif.Object.CacheRace

/-- A request that stores the shard: the whole body, what is still to be written, and whether the file is
still the one under the name of the shard. -/
structure Writer where
  body : Bytes
  rest : Bytes
  linked : Bool
  deriving DecidableEq

/-- `file`: what is stored under the name; `cache`: the entry of the cache for the name; `pend`: goroutines that
have not yet executed `pool.Cache.Set`; `dels`: deletions that have removed the entry of the cache and not yet
the file. -/
structure St where
  file : Option Bytes
  cache : Option Bytes
  pend : List Bytes
  puts : List Writer
  dels : Nat
  deriving DecidableEq

inductive Ev
  | put (body : Bytes)
  | write (i : Nat)
  | get (size : Nat)
  | delCache
  | delFile
  | set (i : Nat)
  | evict
  deriving DecidableEq

/-- Configuration: buffer of the copy, and `cache.max-item-size`. -/
structure Conf where
  B : Nat
  maxItem : Nat

/-- The answer of `Get`: the cache comes first (objects_cache.go:13-21), then the file, of which as much is
delivered as was asked for (`GetFile`; see C48 and C114 for its other results).  `none`: 404. -/
def St.answer (s : St) (size : Nat) : Option Bytes :=
  match s.cache with
  | some b => some b
  | none => s.file.map (·.take size)

/-- `Exist`, objects_service.go:27-45, without the marks (C67): a cached content counts as well as a file. -/
def St.exist (s : St) : Bool := s.cache.isSome || s.file.isSome

/-- What `Put` and `Get` hand to a goroutine for the cache, objects_rest.go:33-36,41-46,78-81,86-91. -/
def toCache (c : Conf) (size : Nat) (b : Bytes) : List Bytes :=
  if size ≤ c.maxItem ∧ b ≠ [] then [b] else []

/-- One step.  `put`: the question whether the shard exists and the creation of the file (objects_rest.go:27-30,
objects_service.go:84-103; C113 takes the two apart).  `write`: one pass of the copy loop, or the end of the
request.  `get`: a whole request (the file is read in one step).  `delCache`, `delFile`: objects_rest.go:52-53. -/
def step (c : Conf) (s : St) : Ev → St
  | .put body =>
    if s.exist then s
    else { s with file := some [], puts := s.puts ++ [⟨body, body, true⟩] }
  | .write i =>
    match s.puts[i]? with
    | none => s
    | some w =>
      if w.rest = [] then
        { s with puts := s.puts.eraseIdx i, pend := s.pend ++ toCache c w.body.length w.body }
      else
        { s with
          file := if w.linked then s.file.map (· ++ padded (w.rest.take c.B)) else s.file
          puts := s.puts.set i { w with rest := w.rest.drop c.B } }
  | .get size =>
    match s.cache, s.file with
    | none, some f => { s with pend := s.pend ++ toCache c size (f.take size) }
    | _, _ => s
  | .delCache => { s with cache := none, dels := s.dels + 1 }
  | .delFile =>
    if s.dels = 0 then s
    else { s with
      file := none, dels := s.dels - 1, puts := s.puts.map fun w => { w with linked := false } }
  | .set i =>
    match s.pend[i]? with
    | none => s
    | some b => { s with cache := some b, pend := s.pend.eraseIdx i }
  | .evict => { s with cache := none }

def init : St := ⟨none, none, [], [], 0⟩

def run (c : Conf) : List Ev → St → St
  | [], s => s
  | e :: es, s => run c es (step c s e)

/-! ## What is to be shown -/

/-- Nothing is going on. -/
def Quiet (s : St) : Prop := s.pend = [] ∧ s.puts = [] ∧ s.dels = 0

/-- The name of a shard is a hash of its content: all bodies are `b`, and it is read with its length. -/
def Named (b : Bytes) (es : List Ev) : Prop :=
  ∀ e ∈ es, (∀ x, e = .put x → x = b) ∧ ∀ n, e = .get n → n = b.length

/-- Who reads the shard while nothing is going on gets it whole or not at all. -/
def Exact : Prop :=
  ∀ (c : Conf) (b : Bytes) (es : List Ev), 0 < c.B → pageSize ∣ c.B → b ≠ [] → Named b es →
    Quiet (run c es init) → (run c es init).answer b.length = none ∨ (run c es init).answer b.length = some b

/-- A shard that is not stored is not delivered. -/
def Gone : Prop :=
  ∀ (c : Conf) (b : Bytes) (es : List Ev), 0 < c.B → pageSize ∣ c.B → b ≠ [] → Named b es →
    Quiet (run c es init) → (run c es init).file = none → (run c es init).answer b.length = none

def C115_statement : Prop := Exact ∧ Gone

/-- Along the run every step satisfies `P` in the state before it. -/
def Along (c : Conf) (P : St → Ev → Prop) : List Ev → St → Prop
  | [], _ => True
  | e :: es, s => P s e ∧ Along c P es (step c s e)

/-- No request reads the file while somebody writes it. -/
def NoEarlyRead (s : St) (e : Ev) : Prop :=
  ∀ n, e = .get n → s.cache = none → ∀ w ∈ s.puts, w.linked = false

/-- A deletion begins when nothing else is going on, and nothing else begins before its end. -/
def DeletesAlone (s : St) (e : Ev) : Prop :=
  (e = .delCache → s.pend = [] ∧ s.puts = []) ∧
    (0 < s.dels → (∀ n, e ≠ .get n) ∧ ∀ b, e ≠ .put b)

/-! ## Invariants -/

theorem run_induct {c : Conf} {P : St → Ev → Prop} {I : St → Prop}
    (hstep : ∀ s e, I s → P s e → I (step c s e)) :
    ∀ (es : List Ev) (s : St), I s → Along c P es s → I (run c es s) := by
  intro es
  induction es with
  | nil => intro s h _; exact h
  | cons e es ih => intro s h ha; exact ih _ (hstep s e h ha.1) ha.2

theorem mem_toCache {c : Conf} {n : Nat} {b x : Bytes} (h : x ∈ toCache c n b) : x = b ∧ n ≤ c.maxItem := by
  unfold toCache at h
  split at h
  · next hc => exact ⟨by simpa using h, hc.1⟩
  · simp at h

/-- Nobody writes to the file under the name. -/
def Free (s : St) : Prop := ∀ w ∈ s.puts, w.linked = false

/-- The invariant behind `Exact`. -/
structure Whole (b : Bytes) (B : Nat) (s : St) : Prop where
  cached : s.cache = none ∨ s.cache = some b
  pending : ∀ x ∈ s.pend, x = b
  writer : ∀ w ∈ s.puts, w.body = b ∧ ∃ k, w.rest = b.drop (k * B) ∧
    (w.linked = true → s.file = some (padded (b.take (k * B))))
  one : (s.puts.map (·.linked)).Pairwise fun x y => ¬ (x = true ∧ y = true)
  file : Free s → s.file = none ∨ s.file = some (padded b)

theorem take_padded (b : Bytes) : (padded b).take b.length = b := by
  unfold padded
  rw [List.take_left']
  rfl

theorem padded_step {b : Bytes} {B k : Nat} (hp : pageSize ∣ B) (h : b.drop (k * B) ≠ []) :
    padded (b.take (k * B)) ++ padded ((b.drop (k * B)).take B) = padded (b.take ((k + 1) * B)) := by
  have hl : k * B < b.length := by
    rcases Nat.lt_or_ge (k * B) b.length with h1 | h1
    · exact h1
    · exact absurd (List.drop_eq_nil_of_le h1) h
  have ha : pageSize ∣ (b.take (k * B)).length := by
    rw [List.length_take, Nat.min_eq_left (Nat.le_of_lt hl)]
    exact Nat.dvd_mul_left_of_dvd hp k
  rw [padded_of_dvd _ ha, ← padded_append _ _ ha, Nat.add_mul, Nat.one_mul, List.take_add]

theorem unique_linked {ps : List Writer} (h : (ps.map (·.linked)).Pairwise fun x y => ¬ (x = true ∧ y = true))
    {i j : Nat} (hi : i < ps.length) (hj : j < ps.length) (h1 : ps[i].linked = true)
    (h2 : ps[j].linked = true) : i = j := by
  rw [List.pairwise_iff_getElem] at h
  rcases Nat.lt_trichotomy i j with hlt | heq | hlt
  · exact absurd ⟨by simpa using h1, by simpa using h2⟩ (h i j (by simpa using hi) (by simpa using hj) hlt)
  · exact heq
  · exact absurd ⟨by simpa using h2, by simpa using h1⟩ (h j i (by simpa using hj) (by simpa using hi) hlt)

theorem Whole.step {c : Conf} {b : Bytes} (hp : pageSize ∣ c.B) {s : St} {e : Ev}
    (h : Whole b c.B s) (he : NoEarlyRead s e) (hb : ∀ x, e = .put x → x = b)
    (hg : ∀ n, e = .get n → n = b.length) : Whole b c.B (step c s e) := by
  cases e with
  | put x =>
    have hx := hb x rfl
    subst hx
    cases hex : s.exist with
    | true => simpa [CacheRace.step, hex] using h
    | false =>
      have hf : s.file = none := by
        simp only [St.exist, Bool.or_eq_false_iff, Option.isSome_eq_false_iff, Option.isNone_iff_eq_none] at hex
        exact hex.2
      have hfree : Free s := by
        intro w hw
        cases hl : w.linked with
        | false => rfl
        | true =>
          obtain ⟨_, k, _, h2⟩ := h.writer w hw
          rw [h2 hl] at hf
          exact absurd hf (by simp)
      simp only [CacheRace.step, hex, Bool.false_eq_true, if_false]
      refine ⟨h.cached, h.pending, ?_, ?_, ?_⟩
      · intro w hw
        rcases List.mem_append.1 hw with hw | hw
        · obtain ⟨h1, k, h2, _⟩ := h.writer w hw
          exact ⟨h1, k, h2, fun hl => by rw [hfree w hw] at hl; exact absurd hl (by simp)⟩
        · simp only [List.mem_singleton] at hw
          subst hw
          exact ⟨rfl, 0, by simp, fun _ => by simp [padded, alignedSize]⟩
      · rw [List.map_append, List.pairwise_append]
        refine ⟨h.one, by simp, ?_⟩
        intro x hx y _ hxy
        obtain ⟨w, hw, rfl⟩ := List.mem_map.1 hx
        rw [hfree w hw] at hxy
        exact absurd hxy.1 (by simp)
      · intro hfr
        have := hfr ⟨x, x, true⟩ (by simp)
        exact absurd this (by simp)
  | write i =>
    cases hw : s.puts[i]? with
    | none => simpa [CacheRace.step, hw] using h
    | some w =>
      obtain ⟨hi, hwi⟩ := List.getElem?_eq_some_iff.1 hw
      have hmem : w ∈ s.puts := by rw [← hwi]; exact List.getElem_mem hi
      obtain ⟨h1, k, h2, h3⟩ := h.writer w hmem
      by_cases hr : w.rest = []
      · simp only [CacheRace.step, hw, if_pos hr]
        have hfull : b.take (k * c.B) = b := by
          rw [hr] at h2
          have := List.drop_eq_nil_iff.1 h2.symm
          exact List.take_of_length_le this
        refine ⟨h.cached, ?_, ?_, ?_, ?_⟩
        · intro x hx
          rcases List.mem_append.1 hx with hx | hx
          · exact h.pending x hx
          · rw [(mem_toCache hx).1, h1]
        · exact fun w' hw' => h.writer w' (List.mem_of_mem_eraseIdx hw')
        · exact h.one.sublist ((List.eraseIdx_sublist _ _).map _)
        · intro hfr
          by_cases hl : w.linked = true
          · right
            rw [h3 hl, hfull]
          · refine h.file fun w' hw' => ?_
            obtain ⟨j, hj, rfl⟩ := List.getElem_of_mem hw'
            by_cases hji : j = i
            · subst hji; rw [hwi]; simpa using hl
            · exact hfr _ (List.mem_eraseIdx_iff_getElem.2 ⟨j, hj, hji, rfl⟩)
      · simp only [CacheRace.step, hw, if_neg hr]
        have hlinked : (s.puts.set i { w with rest := w.rest.drop c.B }).map (·.linked) =
            s.puts.map (·.linked) := by
          rw [List.map_set]
          apply List.ext_getElem?
          intro j
          rw [List.getElem?_set]
          split
          · next hij =>
            subst hij
            simp [hwi, hi]
          · rfl
        refine ⟨h.cached, h.pending, ?_, by rw [hlinked]; exact h.one, ?_⟩
        · intro w' hw'
          obtain ⟨j, hj, rfl⟩ := List.getElem_of_mem hw'
          rw [List.length_set] at hj
          by_cases hji : j = i
          · subst hji
            rw [List.getElem_set_self]
            refine ⟨h1, k + 1, ?_, ?_⟩
            · show w.rest.drop c.B = _
              rw [h2, List.drop_drop, Nat.add_mul, Nat.one_mul]
            · intro hl
              have hl' : w.linked = true := hl
              simp only [hl', if_true, h3 hl', Option.map_some]
              rw [h2, padded_step hp (by rw [← h2]; exact hr)]
          · rw [List.getElem_set_ne (Ne.symm hji)]
            obtain ⟨g1, m, g2, g3⟩ := h.writer s.puts[j] (List.getElem_mem hj)
            refine ⟨g1, m, g2, fun hl => ?_⟩
            cases hwl : w.linked with
            | false => simpa using g3 hl
            | true => exact absurd (unique_linked h.one hj hi hl (by rw [hwi]; exact hwl)) hji
        · intro hfr
          have hwl : w.linked = false := hfr { w with rest := w.rest.drop c.B } (by
            rw [List.mem_iff_getElem]
            exact ⟨i, by rw [List.length_set]; exact hi, by rw [List.getElem_set_self]⟩)
          simp only [hwl, Bool.false_eq_true, if_false]
          refine h.file fun w' hw' => ?_
          obtain ⟨j, hj, rfl⟩ := List.getElem_of_mem hw'
          by_cases hji : j = i
          · subst hji; rw [hwi]; exact hwl
          · refine hfr _ ?_
            rw [List.mem_iff_getElem]
            exact ⟨j, by rw [List.length_set]; exact hj, by rw [List.getElem_set_ne (Ne.symm hji)]⟩
  | get n =>
    have hn := hg n rfl
    subst hn
    cases hc : s.cache with
    | some x => simpa [CacheRace.step, hc] using h
    | none =>
      cases hf : s.file with
      | none => simpa [CacheRace.step, hc, hf] using h
      | some f =>
        have hfree : Free s := he _ rfl hc
        have hfb : f = padded b := by
          rcases h.file hfree with h1 | h1
          · rw [hf] at h1; exact absurd h1 (by simp)
          · rw [hf] at h1; exact Option.some.inj h1
        simp only [CacheRace.step, hc, hf]
        refine ⟨by simpa [hc] using h.cached, ?_, ?_, h.one, ?_⟩
        · intro x hx
          rcases List.mem_append.1 hx with hx | hx
          · exact h.pending x hx
          · rw [(mem_toCache hx).1, hfb, take_padded]
        · simpa [hf] using h.writer
        · intro hfr
          simpa [hf] using h.file hfr
  | delCache =>
    exact ⟨.inl rfl, h.pending, h.writer, h.one, h.file⟩
  | delFile =>
    by_cases hd : s.dels = 0
    · simpa [CacheRace.step, hd] using h
    · simp only [CacheRace.step, if_neg hd]
      refine ⟨h.cached, h.pending, ?_, ?_, fun _ => .inl rfl⟩
      · intro w hw
        obtain ⟨w0, hw0, rfl⟩ := List.mem_map.1 hw
        obtain ⟨g1, m, g2, _⟩ := h.writer w0 hw0
        exact ⟨g1, m, g2, fun hl => absurd hl (by simp)⟩
      · rw [List.map_map, List.pairwise_map]
        exact List.Pairwise.imp (R := fun _ _ => True) (fun _ hh => absurd hh.1 (by simp))
          (List.pairwise_of_forall (fun _ _ => trivial))
  | set i =>
    cases hx : s.pend[i]? with
    | none => simpa [CacheRace.step, hx] using h
    | some x =>
      have hxb : x = b := h.pending x (List.mem_of_getElem? hx)
      simp only [CacheRace.step, hx]
      exact ⟨.inr (by rw [hxb]), fun y hy => h.pending y (List.mem_of_mem_eraseIdx hy), h.writer, h.one,
        h.file⟩
  | evict => exact ⟨.inl rfl, h.pending, h.writer, h.one, h.file⟩

theorem Whole.run {c : Conf} {b : Bytes} (hp : pageSize ∣ c.B) :
    ∀ (es : List Ev) (s : St), Whole b c.B s → Named b es → Along c NoEarlyRead es s →
      Whole b c.B (CacheRace.run c es s) := by
  intro es
  induction es with
  | nil => intro s h _ _; exact h
  | cons e es ih =>
    intro s h hn ha
    obtain ⟨n1, n2⟩ := hn e (by simp)
    exact ih _ (h.step hp ha.1 n1 n2) (fun e' he' => hn e' (by simp [he'])) ha.2

/-- **C115** If no request reads the file of the shard while somebody writes it, the cache never holds
anything but the whole shard: whoever reads while nobody writes gets the whole shard or 404, whatever else
happens at the same time.  Missing for `Exact`: reads during a write (`C115_early_read`). -/
theorem C115_exact_partial {c : Conf} (hp : pageSize ∣ c.B) (b : Bytes) (es : List Ev) (hn : Named b es)
    (ha : Along c NoEarlyRead es init) (hw : Free (run c es init)) :
    ((run c es init).cache = none ∨ (run c es init).cache = some b) ∧
    ((run c es init).answer b.length = none ∨ (run c es init).answer b.length = some b) := by
  have h0 : Whole b c.B init :=
    ⟨.inl rfl, by simp [init], by simp [init], by simp [init], fun _ => .inl rfl⟩
  have h := h0.run hp es init hn ha
  refine ⟨h.cached, ?_⟩
  rcases h.cached with hc | hc
  · rcases h.file hw with hf | hf
    · left; simp [St.answer, hc, hf]
    · right; simp [St.answer, hc, hf, take_padded]
  · right; simp [St.answer, hc]

/-- Storing, a read, a deletion, a late entry in the cache. -/
def exRun : List Ev := [.put [1, 2], .write 0, .write 0, .get 2, .delCache, .delFile, .set 1]

example : Named [1, 2] exRun ∧ Along ⟨4096, 10⟩ NoEarlyRead exRun init := by
  refine ⟨?_, ?_⟩
  · intro e he
    simp only [exRun, List.mem_cons, List.not_mem_nil, or_false] at he
    rcases he with rfl | rfl | rfl | rfl | rfl | rfl | rfl <;> simp
  · refine ⟨?_, ?_, ?_, ?_, ?_, ?_, ?_, trivial⟩
    · intro n h; exact absurd h (by simp)
    · intro n h; exact absurd h (by simp)
    · intro n h; exact absurd h (by simp)
    · intro n _ _ w hw
      simp [step, init, St.exist] at hw
    · intro n h; exact absurd h (by simp)
    · intro n h; exact absurd h (by simp)
    · intro n h; exact absurd h (by simp)

/-- The invariant behind `Gone`: without a file nothing is cached or on the way into the cache. -/
structure Clean (s : St) : Prop where
  noFile : s.file = none → s.cache = none ∧ s.pend = [] ∧ s.puts = []
  deleting : 0 < s.dels → s.cache = none ∧ s.pend = [] ∧ s.puts = []

theorem Clean.step {c : Conf} {s : St} {e : Ev} (h : Clean s) (he : DeletesAlone s e) :
    Clean (step c s e) := by
  obtain ⟨h1, h2⟩ := h
  obtain ⟨d1, d2⟩ := he
  cases e with
  | put x =>
    cases hex : s.exist with
    | true => simpa [CacheRace.step, hex] using Clean.mk h1 h2
    | false =>
      simp only [CacheRace.step, hex, Bool.false_eq_true, if_false]
      refine ⟨fun hh => absurd hh (by simp), fun hd => absurd rfl ((d2 hd).2 x)⟩
  | write i =>
    cases hw : s.puts[i]? with
    | none => simpa [CacheRace.step, hw] using Clean.mk h1 h2
    | some w =>
      have hne : s.puts ≠ [] := by intro h; rw [h] at hw; simp at hw
      have hf : s.file ≠ none := fun h => hne (h1 h).2.2
      have hd : ¬ 0 < s.dels := fun h => hne (h2 h).2.2
      simp only [CacheRace.step, hw]
      split
      · exact ⟨fun h => absurd h hf, fun h => absurd h hd⟩
      · refine ⟨fun h => ?_, fun h => absurd h hd⟩
        simp only at h
        split at h
        · exact absurd (Option.map_eq_none_iff.1 h) hf
        · exact absurd h hf
  | get n =>
    cases hc : s.cache with
    | some x => simpa [CacheRace.step, hc] using Clean.mk h1 h2
    | none =>
      cases hf : s.file with
      | none => simpa [CacheRace.step, hc, hf] using Clean.mk h1 h2
      | some f =>
        simp only [CacheRace.step, hc, hf]
        exact ⟨fun h => absurd h (by simp), fun hd => absurd rfl ((d2 hd).1 n)⟩
  | delCache =>
    obtain ⟨e1, e2⟩ := d1 rfl
    exact ⟨fun _ => ⟨rfl, e1, e2⟩, fun _ => ⟨rfl, e1, e2⟩⟩
  | delFile =>
    by_cases hd : s.dels = 0
    · simpa [CacheRace.step, hd] using Clean.mk h1 h2
    · obtain ⟨g1, g2, g3⟩ := h2 (by omega)
      simp only [CacheRace.step, if_neg hd]
      exact ⟨fun _ => ⟨g1, g2, by simp [g3]⟩, fun _ => ⟨g1, g2, by simp [g3]⟩⟩
  | set i =>
    cases hx : s.pend[i]? with
    | none => simpa [CacheRace.step, hx] using Clean.mk h1 h2
    | some x =>
      have hne : s.pend ≠ [] := by intro h; rw [h] at hx; simp at hx
      simp only [CacheRace.step, hx]
      exact ⟨fun h => absurd (h1 h).2.1 hne, fun h => absurd (h2 h).2.1 hne⟩
  | evict =>
    exact ⟨fun h => ⟨rfl, (h1 h).2⟩, fun h => ⟨rfl, (h2 h).2⟩⟩

/-- **C115** If deletions begin when nothing else is going on, and nothing else begins before they end, a shard
that is not stored is never delivered, for every sequence of requests with any bodies and sizes.  Missing for
`Gone`: deletions shortly after a read or a request to store (`C115_late_set`). -/
theorem C115_gone_partial {c : Conf} (es : List Ev) (ha : Along c DeletesAlone es init) (size : Nat)
    (hf : (run c es init).file = none) : (run c es init).answer size = none := by
  have h0 : Clean init := ⟨fun _ => ⟨rfl, rfl, rfl⟩, fun h => absurd h (by simp [init])⟩
  have h := run_induct (c := c) (P := DeletesAlone) (I := Clean) (fun s e h he => h.step he) es init h0 ha
  simp [St.answer, hf, (h.noFile hf).1]

example : Along ⟨4096, 10⟩ DeletesAlone [.put [1], .write 0, .write 0, .set 0, .get 1, .delCache, .delFile]
    init := by
  refine ⟨?_, ?_, ?_, ?_, ?_, ?_, ?_, trivial⟩ <;> refine ⟨?_, ?_⟩ <;> intro h <;>
    simp [step, init, toCache, St.exist] at h ⊢

/-- The cache holds nothing. -/
def NoCache (s : St) : Prop := s.cache = none ∧ s.pend = []

/-- **C115** Shards larger than `cache.max-item-size` are never cached: no read of their size depends on the
past, and none that is not stored is delivered. -/
theorem C115_large {c : Conf} (b : Bytes) (es : List Ev) (hn : Named b es) (hl : c.maxItem < b.length) :
    (run c es init).answer b.length = (run c es init).file.map (·.take b.length) := by
  have key : ∀ (es : List Ev) (s : St), Named b es → NoCache s → (∀ w ∈ s.puts, w.body = b) →
      NoCache (run c es s) := by
    intro es
    induction es with
    | nil => intro s _ h _; exact h
    | cons e es ih =>
      intro s hn h hw
      have hn' : Named b es := fun e' he' => hn e' (by simp [he'])
      obtain ⟨n1, n2⟩ := hn e (by simp)
      have ht : ∀ x : Bytes, toCache c b.length x = [] := by
        intro x
        unfold toCache
        rw [if_neg]
        rintro ⟨hh, _⟩
        omega
      refine ih _ hn' ?_ ?_
      · cases e with
        | put x => simp only [step]; split <;> exact h
        | write i =>
          simp only [step]
          split
          · exact h
          · next w hwi =>
            split
            · refine ⟨h.1, ?_⟩
              have := hw w (List.mem_of_getElem? hwi)
              simp only [this, ht, h.2, List.append_nil]
            · exact h
        | get n =>
          have := n2 n rfl
          subst this
          simp only [step]
          split
          · exact ⟨h.1, by simp only [ht, h.2, List.append_nil]⟩
          · exact h
        | delCache => exact ⟨rfl, h.2⟩
        | delFile => simp only [step]; split <;> exact h
        | set i => simp only [step, h.2]; exact h
        | evict => exact ⟨rfl, h.2⟩
      · cases e with
        | put x =>
          have := n1 x rfl
          subst this
          simp only [step]
          split
          · exact hw
          · intro w hw'
            rcases List.mem_append.1 hw' with h1 | h1
            · exact hw w h1
            · simp only [List.mem_singleton] at h1; rw [h1]
        | write i =>
          simp only [step]
          split
          · exact hw
          · next w hwi =>
            split
            · exact fun w' h' => hw w' (List.mem_of_mem_eraseIdx h')
            · intro w' h'
              rcases List.mem_or_eq_of_mem_set h' with h' | h'
              · exact hw w' h'
              · rw [h']; exact hw w (List.mem_of_getElem? hwi)
        | get n => simp only [step]; split <;> exact hw
        | delCache => exact hw
        | delFile =>
          simp only [step]
          split
          · exact hw
          · intro w h'
            obtain ⟨w0, h0, rfl⟩ := List.mem_map.1 h'
            exact hw w0 h0
        | set i => simp only [step]; split <;> exact hw
        | evict => exact hw
  have h := key es init hn ⟨rfl, rfl⟩ (by simp [init])
  simp [St.answer, h.1]

example : (⟨4096, 1⟩ : Conf).maxItem < [1, 2].length := by decide

/-! ## What goes wrong -/

/-- **C115 fails**: a read, a deletion that is answered before the goroutine of the read runs, and then the
goroutine.  Nothing is stored, and the shard is delivered until the entry is evicted. -/
theorem C115_late_set (b : Bytes) (hb : b ≠ []) (c : Conf) (hB : b.length ≤ c.B) (hm : b.length ≤ c.maxItem) :
    let s := run c [.put b, .write 0, .write 0, .set 0, .evict, .get b.length, .delCache, .delFile, .set 0] init
    Quiet s ∧ s.file = none ∧ s.answer b.length = some b := by
  have ht : ∀ x, x ≠ [] → toCache c b.length x = [x] := fun x hx => by simp [toCache, hm, hx]
  have hd : b.drop c.B = [] := List.drop_eq_nil_of_le hB
  have htk : b.take c.B = b := List.take_of_length_le hB
  simp [run, step, init, hb, hd, htk, ht, take_padded, Quiet, St.answer, St.exist]

/-- A deletion right after the request that stored the shard: the same. -/
theorem C115_late_put (b : Bytes) (hb : b ≠ []) (c : Conf) (hB : b.length ≤ c.B) (hm : b.length ≤ c.maxItem) :
    let s := run c [.put b, .write 0, .write 0, .delCache, .delFile, .set 0] init
    Quiet s ∧ s.file = none ∧ s.answer b.length = some b := by
  have ht : ∀ x, x ≠ [] → toCache c b.length x = [x] := fun x hx => by simp [toCache, hm, hx]
  have hd : b.drop c.B = [] := List.drop_eq_nil_of_le hB
  simp [run, step, init, hb, hd, ht, Quiet, St.answer, St.exist]

/-- After that, a request to store the shard again is answered with success, because the cached content counts as
the shard, and nothing is stored: once the entry is evicted the shard is lost. -/
theorem C115_lost (b : Bytes) (hb : b ≠ []) (c : Conf) (hB : b.length ≤ c.B) (hm : b.length ≤ c.maxItem) :
    let s := run c [.put b, .write 0, .write 0, .delCache, .delFile, .set 0] init
    Quiet s ∧ step c s (.put b) = s ∧ (step c s .evict).answer b.length = none := by
  obtain ⟨h1, h2, h3⟩ := C115_late_put b hb c hB hm
  refine ⟨h1, ?_, ?_⟩
  · have hc : (run c [.put b, .write 0, .write 0, .delCache, .delFile, .set 0] init).exist = true := by
      cases hc : (run c [.put b, .write 0, .write 0, .delCache, .delFile, .set 0] init).cache with
      | some x => simp [St.exist, hc]
      | none => rw [St.answer, hc, h2] at h3; exact absurd h3 (by simp)
    simp only [step]
    rw [if_pos hc]
  · simp only [step, St.answer]
    rw [h2]
    rfl

/-- Whatever the state: who is told that the shard is stored although it is only cached has stored nothing. -/
theorem C115_put_cached (c : Conf) (s : St) (b : Bytes) (h : s.cache.isSome = true) : step c s (.put b) = s := by
  simp [step, St.exist, h]

/-- **C115 fails**: a read while the shard is being written puts a part of it into the cache, which is
delivered as the shard long after it was stored whole. -/
theorem C115_early_read (b : Bytes) (c : Conf) (hp : pageSize ∣ c.B) (h0 : 0 < c.B) (h1 : c.B < b.length)
    (h2 : b.length ≤ 2 * c.B) (hm : b.length ≤ c.maxItem) :
    let s := run c [.put b, .write 0, .get b.length, .write 0, .write 0, .set 1, .set 0] init
    Quiet s ∧ s.file = some (padded b) ∧ s.answer b.length = some (b.take c.B) := by
  have hb : b ≠ [] := by intro h; rw [h] at h1; simp at h1
  have hd1 : b.drop c.B ≠ [] := by
    intro h; have := List.drop_eq_nil_iff.1 h; omega
  have hd2 : (b.drop c.B).drop c.B = [] := by
    rw [List.drop_drop]; exact List.drop_eq_nil_of_le (by omega)
  have hlen : (b.take c.B).length = c.B := by rw [List.length_take]; omega
  have hpad : padded (b.take c.B) = b.take c.B := padded_of_dvd _ (by rw [hlen]; exact hp)
  have htk : (b.take c.B).take b.length = b.take c.B := List.take_of_length_le (by omega)
  have hne : b.take c.B ≠ [] := by intro h; rw [h] at hlen; simp at hlen; omega
  have ht : ∀ x, x ≠ [] → toCache c b.length x = [x] := fun x hx => by simp [toCache, hm, hx]
  have htk2 : (b.drop c.B).take c.B = b.drop c.B := List.take_of_length_le (by simp; omega)
  have hfile : b.take c.B ++ padded (b.drop c.B) = padded b := by
    rw [← padded_append _ _ (by rw [hlen]; exact hp), List.take_append_drop]
  simp only [run, step, init, Quiet, St.answer, St.exist, Option.isSome_none, Bool.or_self, Bool.false_eq_true,
    if_false, List.nil_append, List.getElem?_cons_zero, if_neg hb, hpad,
    Option.map_some, List.set_cons_zero, htk, ht _ hne, if_neg hd1, hd2, if_true, List.eraseIdx_cons_zero,
    ht b hb, htk2, hfile]
  simp

/-- **C115 fails** as stated. -/
theorem C115_statement_fails : ¬ Exact ∧ ¬ Gone := by
  constructor
  · intro h
    obtain ⟨b, hlen⟩ : ∃ b : Bytes, b.length = 4097 := ⟨List.replicate 4097 1, List.length_replicate⟩
    have hb : b ≠ [] := by
      intro hh; rw [hh] at hlen; simp at hlen
    obtain ⟨q, _, ha⟩ := C115_early_read b ⟨4096, 10000⟩ (by decide) (by decide)
      (by rw [hlen]; decide) (by rw [hlen]; decide) (by rw [hlen]; decide)
    have := h ⟨4096, 10000⟩ b
      [.put b, .write 0, .get b.length, .write 0, .write 0,
        .set 1, .set 0]
      (by decide) (by decide) hb (by
        intro e he
        simp only [List.mem_cons, List.not_mem_nil, or_false] at he
        rcases he with rfl | rfl | rfl | rfl | rfl | rfl | rfl <;> simp) q
    rw [ha] at this
    rcases this with h1 | h1
    · exact absurd h1 (by simp)
    · have := congrArg List.length (Option.some.inj h1)
      rw [List.length_take, hlen] at this
      exact absurd this (by decide)
  · intro h
    obtain ⟨q, hf, ha⟩ := C115_late_put [1] (by simp) ⟨4096, 10⟩ (by decide) (by decide)
    have := h ⟨4096, 10⟩ [1] [.put [1], .write 0, .write 0, .delCache, .delFile, .set 0] (by decide) (by decide)
      (by simp) (by
        intro e he
        simp only [List.mem_cons, List.not_mem_nil, or_false] at he
        rcases he with rfl | rfl | rfl | rfl | rfl | rfl <;> simp) q hf
    have ha' : (run ⟨4096, 10⟩ [.put [1], .write 0, .write 0, .delCache, .delFile, .set 0] init).answer
      ([1] : Bytes).length = some [1] := ha
    rw [ha'] at this
    exact absurd this (by simp)

end Verif.Object.CacheRace
