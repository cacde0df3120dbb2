import Mathlib.Data.Finset.Card

/-!
# Sets, maps and the cache wrapper: C59

src/common/collection/set/map_set.go, src/common/util/sync_map.go, src/common/cache/cache.go.
-/

namespace Verif.Collections

variable {α : Type} [DecidableEq α]

/-! ## `MapSet` -/

/-- `MapSet`, map_set.go:5-7: the keys of the Go map, in some order. -/
abbrev MapSet (α : Type) := List α

/-- `Contains`, map_set.go:21-24. -/
def MapSet.contains (s : MapSet α) (x : α) : Bool := decide (x ∈ s)
/-- `Add`, map_set.go:9-11: assigning to a key of a Go map. -/
def MapSet.add (s : MapSet α) (x : α) : MapSet α := if x ∈ s then s else s ++ [x]
/-- `Remove`, map_set.go:13-19. -/
def MapSet.remove (s : MapSet α) (x : α) : Bool × MapSet α :=
  if MapSet.contains s x then (true, s.erase x) else (false, s)
/-- `Size`, map_set.go:26-28. -/
def MapSet.size (s : MapSet α) : Nat := s.length

inductive SetOp (α : Type)
  | add (x : α)
  | remove (x : α)
  | contains (x : α)
  | size

inductive SetRes
  | unit
  | bool (b : Bool)
  | nat (n : Nat)
  deriving DecidableEq

def MapSet.step (s : MapSet α) : SetOp α → SetRes × MapSet α
  | .add x => (.unit, s.add x)
  | .remove x => (.bool (s.remove x).1, (s.remove x).2)
  | .contains x => (.bool (s.contains x), s)
  | .size => (.nat s.size, s)

def MapSet.run (s : MapSet α) : List (SetOp α) → List SetRes × MapSet α
  | [] => ([], s)
  | op :: rest =>
    let r := MapSet.step s op
    let r' := MapSet.run r.2 rest
    (r.1 :: r'.1, r'.2)

/-- The specification: a finite set. -/
def specStep (s : Finset α) : SetOp α → SetRes × Finset α
  | .add x => (.unit, insert x s)
  | .remove x => (.bool (decide (x ∈ s)), s.erase x)
  | .contains x => (.bool (decide (x ∈ s)), s)
  | .size => (.nat s.card, s)

def specRun (s : Finset α) : List (SetOp α) → List SetRes × Finset α
  | [] => ([], s)
  | op :: rest =>
    let r := specStep s op
    let r' := specRun r.2 rest
    (r.1 :: r'.1, r'.2)

theorem step_refines (s : MapSet α) (hn : List.Nodup s) (op : SetOp α) :
    (s.step op).1 = (specStep s.toFinset op).1 ∧ (s.step op).2.toFinset = (specStep s.toFinset op).2 ∧
      List.Nodup (s.step op).2 := by
  cases op with
  | add x =>
    unfold MapSet.step specStep MapSet.add
    by_cases h : x ∈ s
    · simp [h, hn]
    · simp only [if_neg h]
      refine ⟨trivial, ?_, ?_⟩
      · ext y; simp
      · rw [List.nodup_append]
        refine ⟨hn, by simp, ?_⟩
        intro a ha b hb hab
        rw [List.mem_singleton.1 hb] at hab
        exact h (hab ▸ ha)
  | remove x =>
    unfold MapSet.step specStep MapSet.remove MapSet.contains
    by_cases h : x ∈ s
    · simp only [h, decide_true, if_true, List.mem_toFinset]
      refine ⟨trivial, ?_, hn.erase _⟩
      ext y
      rw [List.mem_toFinset, hn.mem_erase_iff, Finset.mem_erase, List.mem_toFinset]
    · simp only [h, decide_false, List.mem_toFinset]
      refine ⟨rfl, ?_, hn⟩
      ext y
      simp only [Finset.mem_erase, List.mem_toFinset]
      constructor
      · intro hy; exact ⟨fun e => h (e ▸ hy), hy⟩
      · intro hy; exact hy.2
  | contains x => simp [MapSet.step, specStep, MapSet.contains, hn]
  | size =>
    refine ⟨?_, rfl, hn⟩
    simp [MapSet.step, specStep, MapSet.size, List.toFinset_card_of_nodup hn]

/-- **C59** (sets): every history of operations on a new set has the results it has on an abstract set. -/
theorem C59_set (ops : List (SetOp α)) :
    (MapSet.run ([] : MapSet α) ops).1 = (specRun (∅ : Finset α) ops).1 := by
  have key : ∀ (ops : List (SetOp α)) (s : MapSet α), List.Nodup s →
      (s.run ops).1 = (specRun s.toFinset ops).1 := by
    intro ops
    induction ops with
    | nil => intro s _; rfl
    | cons op rest ih =>
      intro s hn
      obtain ⟨h1, h2, h3⟩ := step_refines s hn op
      simp only [MapSet.run, specRun]
      rw [h1, ← h2, ih _ h3]
  exact key ops [] List.nodup_nil

example : (MapSet.run [] [.add 1, .add 2, .add 1, .size, .remove 1, .remove 1, .contains 2, .size]).1 =
    [.unit, .unit, .unit, .nat 2, .bool true, .bool false, .bool true, .nat 1] := by decide

/-! ## `WriteSyncSet`: the lock -/

/-- What a goroutine is doing with a `WriteSyncSet`, map_set.go:40-59: `Add` and `Remove` take the lock and
write to the map; `Contains`, `Size` and `Foreach` (promoted from `MapSet`) read it without the lock. -/
inductive Phase
  | idle
  | locked
  | writing
  | wrote
  | reading
  deriving DecidableEq

/-- The goroutines by number, and who holds the lock. -/
structure Threads where
  phase : Nat → Phase
  lock : Option Nat

def Threads.set (t : Threads) (i : Nat) (p : Phase) : Nat → Phase := fun j => if j = i then p else t.phase j

/-- One step of one goroutine. -/
inductive TStep : Threads → Threads → Prop
  | lock (t : Threads) (i : Nat) : t.phase i = .idle → t.lock = none → TStep t ⟨t.set i .locked, some i⟩
  | begin (t : Threads) (i : Nat) : t.phase i = .locked → TStep t ⟨t.set i .writing, t.lock⟩
  | finish (t : Threads) (i : Nat) : t.phase i = .writing → TStep t ⟨t.set i .wrote, t.lock⟩
  | unlock (t : Threads) (i : Nat) : t.phase i = .wrote → TStep t ⟨t.set i .idle, none⟩
  | read (t : Threads) (i : Nat) : t.phase i = .idle → TStep t ⟨t.set i .reading, t.lock⟩
  | doneReading (t : Threads) (i : Nat) : t.phase i = .reading → TStep t ⟨t.set i .idle, t.lock⟩

inductive TReach : Threads → Prop
  | init : TReach ⟨fun _ => .idle, none⟩
  | step {t t' : Threads} : TReach t → TStep t t' → TReach t'

/-- The phases during which the lock is held. -/
def Phase.holds (p : Phase) : Bool := p = .locked || p = .writing || p = .wrote

theorem lock_inv {t : Threads} (h : TReach t) : ∀ i, (t.phase i).holds = true → t.lock = some i := by
  induction h with
  | init => intro i hi; simp [Phase.holds] at hi
  | step _ hs ih =>
    cases hs with
    | lock i hp hl =>
      intro j hj
      simp only [Threads.set] at hj
      split at hj
      · rename_i e; rw [e]
      · have := ih j hj; rw [hl] at this; cases this
    | begin i hp =>
      intro j hj
      simp only [Threads.set] at hj
      split at hj
      · rename_i e; subst e; exact ih j (by rw [hp]; rfl)
      · exact ih j hj
    | finish i hp =>
      intro j hj
      simp only [Threads.set] at hj
      split at hj
      · rename_i e; subst e; exact ih j (by rw [hp]; rfl)
      · exact ih j hj
    | unlock i hp =>
      intro j hj
      simp only [Threads.set] at hj
      split at hj
      · exact absurd hj (by decide)
      · rename_i e
        have h1 := ih j hj
        have h2 := ih i (by rw [hp]; rfl)
        rw [h1] at h2
        exact absurd (Option.some.inj h2) e
    | read i hp =>
      intro j hj
      simp only [Threads.set] at hj
      split at hj
      · exact absurd hj (by decide)
      · exact ih j hj
    | doneReading i hp =>
      intro j hj
      simp only [Threads.set] at hj
      split at hj
      · exact absurd hj (by decide)
      · exact ih j hj

/-- **C59** (locking): however many goroutines there are and however they are scheduled, two never write to
the set at the same time. -/
theorem C59_writers_exclude {t : Threads} (h : TReach t) {i j : Nat} (hi : t.phase i = .writing)
    (hj : t.phase j = .writing) : i = j := by
  have h1 := lock_inv h i (by rw [hi]; rfl)
  have h2 := lock_inv h j (by rw [hj]; rfl)
  rw [h1] at h2
  exact Option.some.inj h2

/-- One goroutine has the lock and writes, another one waits. -/
def exWriting : Threads := ⟨fun j => if j = 0 then .writing else .idle, some 0⟩

theorem exWriting_reach : TReach exWriting := by
  have h1 := TReach.step TReach.init (TStep.lock ⟨fun _ => .idle, none⟩ 0 rfl rfl)
  have h2 := TReach.step h1 (TStep.begin _ 0 (by simp [Threads.set]))
  have e : exWriting = ⟨Threads.set ⟨Threads.set ⟨fun _ => .idle, none⟩ 0 .locked, some 0⟩ 0 .writing, some 0⟩ := by
    unfold exWriting Threads.set
    congr 1
    funext j
    by_cases hj : j = 0 <;> simp [hj]
  rw [e]
  exact h2

example : TReach exWriting ∧ exWriting.phase 0 = .writing := ⟨exWriting_reach, rfl⟩

/-- The full statement: nobody reads while another one writes. -/
def ReadersExcluded : Prop :=
  ∀ t, TReach t → ∀ i j, t.phase i = .writing → t.phase j ≠ .reading

/-- **C59 fails** for reading: `Contains` does not take the lock, so it can read the Go map while another
goroutine writes it, which makes the Go run time abort the whole process. -/
theorem C59_read_during_write : ¬ ReadersExcluded := by
  intro h
  have hr := TReach.step exWriting_reach (TStep.read exWriting 1 (by decide))
  exact h _ hr 0 1 (by decide) (by decide)

/-! ## `SyncMap` -/

variable {β : Type}

/-- `sync.Map` of the Go library, as a map (trusted). -/
abbrev GoMap (α β : Type) := α → Option β

/-- `Get`, sync_map.go:21-28. -/
def SyncMap.get (m : GoMap α β) (k : α) : Option β × Bool :=
  match m k with
  | some v => (some v, true)
  | none => (none, false)
/-- `Put`, sync_map.go:58-60. -/
def SyncMap.put (m : GoMap α β) (k : α) (v : β) : GoMap α β := fun j => if j = k then some v else m j
/-- `Remove`, sync_map.go:49-56 (`LoadAndDelete`). -/
def SyncMap.remove (m : GoMap α β) (k : α) : (Option β × Bool) × GoMap α β :=
  (SyncMap.get m k, fun j => if j = k then none else m j)
/-- `Contains`, sync_map.go:62-65. -/
def SyncMap.contains (m : GoMap α β) (k : α) : Bool := (m k).isSome

inductive MapOp (α β : Type)
  | put (k : α) (v : β)
  | remove (k : α)

def SyncMap.apply (m : GoMap α β) : MapOp α β → GoMap α β
  | .put k v => SyncMap.put m k v
  | .remove k => (SyncMap.remove m k).2

def MapOp.key : MapOp α β → α
  | .put k _ => k
  | .remove k => k

/-- What the last operation on a key left there. -/
def lastOf (k : α) : List (MapOp α β) → Option β → Option β
  | [], v => v
  | .put j x :: rest, v => lastOf k rest (if j = k then some x else v)
  | .remove j :: rest, v => lastOf k rest (if j = k then none else v)

/-- **C59** (maps): after any history a key has the value of the last `Put` that was not followed by a
`Remove`; `Get`, `Contains` and `Remove` agree on it. -/
theorem C59_map (ops : List (MapOp α β)) (k : α) :
    let m := ops.foldl SyncMap.apply (fun _ => none)
    SyncMap.get m k = (lastOf k ops none, (lastOf k ops none).isSome) ∧
      SyncMap.contains m k = (lastOf k ops none).isSome ∧
      (SyncMap.remove m k).1 = (lastOf k ops none, (lastOf k ops none).isSome) := by
  have key : ∀ (ops : List (MapOp α β)) (m : GoMap α β), ops.foldl SyncMap.apply m k = lastOf k ops (m k) := by
    intro ops
    induction ops with
    | nil => intro m; rfl
    | cons op rest ih =>
      intro m
      rw [List.foldl_cons, ih]
      cases op with
      | put j x =>
        simp only [SyncMap.apply, SyncMap.put, lastOf]
        by_cases h : j = k
        · subst h; simp
        · rw [if_neg h, if_neg (fun e => h e.symm)]
      | remove j =>
        simp only [SyncMap.apply, SyncMap.remove, lastOf]
        by_cases h : j = k
        · subst h; simp
        · rw [if_neg h, if_neg (fun e => h e.symm)]
  simp only
  have h := key ops (fun _ => none)
  have hget : SyncMap.get (ops.foldl SyncMap.apply (fun _ => none)) k =
      (lastOf k ops none, (lastOf k ops none).isSome) := by
    unfold SyncMap.get
    rw [h]
    cases lastOf k ops none <;> rfl
  exact ⟨hget, by unfold SyncMap.contains; rw [h], hget⟩

example : lastOf 1 [.put 1 'a', .put 2 'b', .remove 1, .put 1 'c'] (none : Option Char) = some 'c' := by decide

/-! ## `Cache` -/

/-- What is used of bigcache: `set` may fail (`false`), `get` may find nothing. -/
structure Backing (σ κ ν : Type) where
  get : σ → κ → Option ν
  set : σ → κ → ν → Bool × σ
  delete : σ → κ → σ

variable {σ κ ν : Type}

/-- `Cache.Set`, cache.go:78-80: the result is `error != nil`. -/
def cacheSet (b : Backing σ κ ν) (s : σ) (k : κ) (v : ν) : Bool × σ := (!(b.set s k v).1, (b.set s k v).2)

/-- `Cache.SetGob`, cache.go:96-106, for a value that can be encoded. -/
def cacheSetGob (b : Backing σ κ ν) (s : σ) (k : κ) (v : ν) : Bool × σ :=
  if (b.set s k v).1 then (true, (b.set s k v).2) else (false, (b.set s k v).2)

/-- `Has`, cache.go:73-76. -/
def cacheHas (b : Backing σ κ ν) (s : σ) (k : κ) : Bool := (b.get s k).isSome

/-- `Delete`, cache.go:82-87. -/
def cacheDelete (b : Backing σ κ ν) (s : σ) (k : κ) : σ := if cacheHas b s k then b.delete s k else s

/-- `Refresh`, cache.go:108-113. -/
def cacheRefresh (b : Backing σ κ ν) (s : σ) (k : κ) : σ :=
  match b.get s k with
  | some v => (cacheSet b (cacheDelete b s k) k v).2
  | none => s

/-- bigcache: what was stored is found until something else happens to the entry, and a key that was deleted
is not found. -/
structure Backing.Ok (b : Backing σ κ ν) : Prop where
  stored : ∀ s k v, (b.set s k v).1 = true → b.get (b.set s k v).2 k = some v
  deleted : ∀ s k, b.get (b.delete s k) k = none

/-- **C59** (cache): `SetGob` reports success exactly when the value was stored, and then it is found. -/
theorem C59_cache_set_gob (b : Backing σ κ ν) (hb : b.Ok) (s : σ) (k : κ) (v : ν) :
    (cacheSetGob b s k v).1 = (b.set s k v).1 ∧
      ((cacheSetGob b s k v).1 = true → b.get (cacheSetGob b s k v).2 k = some v) := by
  unfold cacheSetGob
  by_cases h : (b.set s k v).1 = true
  · rw [if_pos h]; exact ⟨h.symm, fun _ => hb.stored s k v h⟩
  · rw [if_neg h]
    refine ⟨?_, fun h' => absurd h' (by simp)⟩
    cases hh : (b.set s k v).1 with
    | true => exact absurd hh h
    | false => rfl

theorem C59_cache_delete (b : Backing σ κ ν) (hb : b.Ok) (s : σ) (k : κ) :
    cacheHas b (cacheDelete b s k) k = false := by
  unfold cacheDelete
  by_cases h : cacheHas b s k = true
  · rw [if_pos h]; unfold cacheHas; rw [hb.deleted]; rfl
  · rw [if_neg h]; simpa using h

/-- Refreshing keeps the value, unless storing it again fails. -/
theorem C59_cache_refresh (b : Backing σ κ ν) (hb : b.Ok) (s : σ) (k : κ)
    (hs : ∀ v, (b.set (cacheDelete b s k) k v).1 = true) : b.get (cacheRefresh b s k) k = b.get s k := by
  unfold cacheRefresh
  cases h : b.get s k with
  | none => simp only; exact h
  | some v => exact hb.stored _ _ _ (hs v)

/-- A backing store that is a map which refuses the value 0. -/
def exBacking : Backing (Nat → Option Nat) Nat Nat where
  get s k := s k
  set s k v := if v = 0 then (false, s) else (true, fun j => if j = k then some v else s j)
  delete s k := fun j => if j = k then none else s j

theorem exBacking_ok : exBacking.Ok := by
  refine ⟨?_, ?_⟩
  · intro s k v h
    by_cases hv : v = 0
    · simp [exBacking, hv] at h
    · simp [exBacking, hv]
  · intro s k; simp [exBacking]

example : exBacking.Ok ∧ (cacheSetGob exBacking (fun _ => none) 3 7).1 = true ∧
    (cacheSetGob exBacking (fun _ => none) 3 0).1 = false := ⟨exBacking_ok, by decide, by decide⟩

/-- The full statement: storing reports success when it stored. -/
def SetReportsSuccess : Prop :=
  ∀ (σ κ ν : Type) (b : Backing σ κ ν), b.Ok → ∀ (s : σ) (k : κ) (v : ν),
    (cacheSet b s k v).1 = (b.set s k v).1

/-- **C59 fails**: the result of `Set` is inverted: it is true exactly when storing failed. -/
theorem C59_cache_set_inverted : ¬ SetReportsSuccess := by
  intro h
  exact absurd (h _ _ _ exBacking exBacking_ok (fun _ => none) 3 7) (by decide)

theorem C59_cache_set_partial (b : Backing σ κ ν) (hb : b.Ok) (s : σ) (k : κ) (v : ν)
    (h : (cacheSet b s k v).1 = false) : b.get (cacheSet b s k v).2 k = some v :=
  hb.stored s k v (by simpa [cacheSet] using h)

end Verif.Collections
