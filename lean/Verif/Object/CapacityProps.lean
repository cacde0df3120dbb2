import Verif.Object.Capacity

/-!
# C89 — the recorded capacity of a data server is the size of what it stores

The counter is wrong after any of: a compressed object, two deletions that overlap, a deletion that overtakes
the goroutine of a commit, a file received twice or announced twice, a write that fails half way, a warm-up
that meets an error.  `C89_partial` proves that these are all: in an execution where none of them happens the
counter is, once all goroutines have run, the size of the files plus the size of the directories met when the
server started.  Such a server leaves the cluster without leaving files behind
(`C89_leave_sends_all_partial`); a server with compressed objects does not.
-/

namespace Verif.Object.Capacity

/-- Nothing is under way. -/
def quiet (s : State) : Prop := s.todo = [] ∧ s.deleting = [] ∧ s.received = []

/-- **C89**, the full statement: whenever nothing is under way the counter is the size of the files. -/
def C89_statement : Prop := ∀ acts : List Act, quiet (exec init acts) →
  (exec init acts).cap = total (exec init acts).files

/-- Nothing is under way that concerns this file. -/
def untouched (s : State) (n : Str) : Prop :=
  Todo.stat n ∉ s.todo ∧ n ∉ s.deleting.map (·.1) ∧ n ∉ s.received

/-- The walks of a start meet no error, no temporary file, and exactly the bytes of the files. -/
def seen (f : Files) (walks : List Walk) : Prop :=
  (∀ w ∈ walks, w.broken = false ∧ ∀ e ∈ w.entries, hasPrefix e.name tempPrefix = false) ∧
  ((walks.flatMap (·.entries)).filter fun e => !e.isDir).foldr (fun e a => e.bytes + a) 0 = total f

/-- The bytes `info.Size()` reports for the directories. -/
def dirBytes (walks : List Walk) : Nat :=
  ((walks.flatMap (·.entries)).filter fun e => e.isDir).foldr (fun e a => e.bytes + a) 0

/-- The conditions on one event: not compressed, not failing, and no second event on a file while one is
under way; a received file is new and announced once. -/
def Calm (s : State) : Act → Prop
  | .put n hit compress _ _ fails => hit = true ∨ (compress = false ∧ fails = false ∧ untouched s n)
  | .commit n compress _ _ => has s.files n = true ∨ (compress = false ∧ untouched s n)
  | .delStat n hit => hit = false ∨ untouched s n
  | .delRemove _ => True
  | .receive n _ => has s.files n = false ∧ untouched s n
  | .finish n _ => n ∈ s.received
  | .run _ => True
  | .restart walks => seen s.files walks

/-- Every event of an execution is calm. -/
def CalmRun : State → List Act → Prop
  | _, [] => True
  | s, a :: r => Calm s a ∧ CalmRun (step s a) r

instance (s : State) (n : Str) : Decidable (untouched s n) := by unfold untouched; infer_instance
instance (f : Files) (w : List Walk) : Decidable (seen f w) := by unfold seen; infer_instance
instance (s : State) (a : Act) : Decidable (Calm s a) := by
  cases a <;> dsimp only [Calm] <;> infer_instance
instance instCalmRun : (s : State) → (l : List Act) → Decidable (CalmRun s l)
  | _, [] => .isTrue trivial
  | s, a :: r => @instDecidableAnd _ _ _ (instCalmRun (step s a) r)

/-- What the last start counted for directories. -/
def dirs : Nat → List Act → Nat
  | d, [] => d
  | _, .restart w :: r => dirs (dirBytes w) r
  | d, _ :: r => dirs d r

/-! ## Sizes -/

theorem size_none {f : Files} {n : Str} (h : has f n = false) : size f n = 0 := by
  induction f with
  | nil => rfl
  | cons e r ih =>
    obtain ⟨m, y⟩ := e
    simp only [has, List.any_cons, Bool.or_eq_false_iff, decide_eq_false_iff_not] at h
    simp only [size, if_neg h.1]
    exact ih h.2

theorem size_write (f : Files) (n m : Str) (z : Nat) :
    size (write f n z) m = if m = n then z else size f m := by
  induction f with
  | nil =>
    by_cases h : m = n
    · subst h; simp [write, size]
    · simp [write, size, h, Ne.symm h]
  | cons e r ih =>
    obtain ⟨k, y⟩ := e
    by_cases hk : k = n
    · subst hk
      by_cases h : m = k
      · subst h; simp [write, size]
      · simp [write, size, h, Ne.symm h]
    · simp only [write, if_neg hk, size, ih]
      by_cases h : k = m
      · subst h; simp [hk]
      · simp [h]

theorem size_remove {f : Files} {n m : Str} (h : m ≠ n) : size (remove f n) m = size f m := by
  induction f with
  | nil => rfl
  | cons e r ih =>
    obtain ⟨k, y⟩ := e
    by_cases hk : k = n
    · subst hk
      simp [remove, size, Ne.symm h]
    · simp only [remove, if_neg hk, size, ih]

theorem total_write (f : Files) (n : Str) (z : Nat) : total (write f n z) + size f n = total f + z := by
  induction f with
  | nil => simp [write, total, size]
  | cons e r ih =>
    obtain ⟨k, y⟩ := e
    by_cases hk : k = n
    · simp only [write, if_pos hk, size, total, List.map_cons, List.sum_cons]; omega
    · simp only [total] at ih
      simp only [write, if_neg hk, size, total, List.map_cons, List.sum_cons]; omega

theorem total_remove (f : Files) (n : Str) : total (remove f n) + size f n = total f := by
  induction f with
  | nil => rfl
  | cons e r ih =>
    obtain ⟨k, y⟩ := e
    by_cases hk : k = n
    · simp only [remove, if_pos hk, size, total, List.map_cons, List.sum_cons]; omega
    · simp only [total] at ih
      simp only [remove, if_neg hk, size, total, List.map_cons, List.sum_cons]; omega

/-! ## The invariant -/

/-- What the goroutines would add now. -/
def owed (f : Files) (l : List Todo) : Int := (l.map (value f)).sum

/-- The bytes received and not counted. -/
def uncounted (f : Files) (l : List Str) : Int := (l.map fun n => (size f n : Int)).sum

theorem owed_append (f : Files) (l l' : List Todo) : owed f (l ++ l') = owed f l + owed f l' := by
  simp [owed]

theorem owed_write {f : Files} {n : Str} {z : Nat} {l : List Todo} (h : Todo.stat n ∉ l) :
    owed (write f n z) l = owed f l := by
  unfold owed
  congr 1
  refine List.map_congr_left fun t ht => ?_
  cases t with
  | add z => rfl
  | stat m =>
    have : m ≠ n := by rintro rfl; exact h ht
    simp only [value, size_write, if_neg this]

theorem owed_remove {f : Files} {n : Str} {l : List Todo} (h : Todo.stat n ∉ l) :
    owed (remove f n) l = owed f l := by
  unfold owed
  congr 1
  refine List.map_congr_left fun t ht => ?_
  cases t with
  | add z => rfl
  | stat m =>
    have : m ≠ n := by rintro rfl; exact h ht
    simp only [value, size_remove this]

theorem uncounted_write {f : Files} {n : Str} {z : Nat} {l : List Str} (h : n ∉ l) :
    uncounted (write f n z) l = uncounted f l := by
  unfold uncounted
  congr 1
  refine List.map_congr_left fun m hm => ?_
  have : m ≠ n := by rintro rfl; exact h hm
  simp only [size_write, if_neg this]

theorem uncounted_remove {f : Files} {n : Str} {l : List Str} (h : n ∉ l) :
    uncounted (remove f n) l = uncounted f l := by
  unfold uncounted
  congr 1
  refine List.map_congr_left fun m hm => ?_
  have : m ≠ n := by rintro rfl; exact h hm
  simp only [size_remove this]

theorem uncounted_erase {f : Files} {n : Str} {l : List Str} (h : n ∈ l) :
    uncounted f (l.erase n) + size f n = uncounted f l := by
  induction l with
  | nil => simp at h
  | cons m r ih =>
    by_cases hm : m = n
    · subst hm
      simp only [List.erase_cons_head, uncounted, List.map_cons, List.sum_cons]; omega
    · have hr : n ∈ r := by rcases List.mem_cons.1 h with h | h; exact absurd h.symm hm; exact h
      have := ih hr
      have he : (m :: r).erase n = m :: r.erase n := by simp [List.erase_cons, hm]
      rw [he]
      simp only [uncounted, List.map_cons, List.sum_cons] at this ⊢; omega

theorem owed_erase {f : Files} {l : List Todo} {i : Nat} {t : Todo} (h : l[i]? = some t) :
    owed f (l.eraseIdx i) + value f t = owed f l := by
  induction l generalizing i with
  | nil => simp at h
  | cons u r ih =>
    cases i with
    | zero =>
      simp only [List.getElem?_cons_zero, Option.some.injEq] at h
      subst h
      simp only [List.eraseIdx_cons_zero, owed, List.map_cons, List.sum_cons]; omega
    | succ i =>
      simp only [List.getElem?_cons_succ] at h
      have := ih h
      simp only [List.eraseIdx_cons_succ, owed, List.map_cons, List.sum_cons] at this ⊢; omega

/-- Counter, tasks and uncounted files together are the bytes on disk and those of the directories; a file
that is being deleted keeps its size, is deleted once, and nothing else concerns it. -/
structure Inv (s : State) (d : Nat) : Prop where
  sum : s.cap + owed s.files s.todo + uncounted s.files s.received = total s.files + d
  del : ∀ p ∈ s.deleting, size s.files p.1 = p.2 ∧ Todo.stat p.1 ∉ s.todo ∧ p.1 ∉ s.received
  once : (s.deleting.map (·.1)).Nodup

theorem Inv.init : Inv init 0 := ⟨rfl, fun _ h => by simp [Capacity.init] at h, by simp [Capacity.init]⟩

theorem del_write {s : State} {d : Nat} (h : Inv s d) {n : Str} {z : Nat} (hn : n ∉ s.deleting.map (·.1)) :
    ∀ p ∈ s.deleting, size (write s.files n z) p.1 = p.2 ∧ Todo.stat p.1 ∉ s.todo ∧ p.1 ∉ s.received := by
  intro p hp
  have hne : p.1 ≠ n := fun he => hn (List.mem_map.2 ⟨p, hp, he⟩)
  rw [size_write, if_neg hne]
  exact h.del p hp

theorem not_stat_append_add {n : Str} {l : List Todo} {z : Int} (h : Todo.stat n ∉ l) :
    Todo.stat n ∉ l ++ [.add z] := by
  intro hm
  rcases List.mem_append.1 hm with hm | hm
  · exact h hm
  · simp at hm

theorem Inv.put {s : State} {d : Nat} (h : Inv s d) {n : Str} {hit compress : Bool} {raw onDisk : Nat}
    {fails : Bool} (hc : Calm s (.put n hit compress raw onDisk fails)) :
    Inv (put s n hit compress raw onDisk fails) d := by
  cases hit with
  | true => exact h
  | false =>
    rcases hc with hc | ⟨rfl, rfl, hs, hd, hr⟩
    · exact nomatch hc
    · have ht := total_write s.files n (size s.files n + raw)
      have hsum := h.sum
      refine ⟨?_, ?_, h.once⟩
      · show s.cap + owed (write s.files n (size s.files n + raw)) (s.todo ++ [.add raw]) +
          uncounted (write s.files n (size s.files n + raw)) s.received = _
        rw [owed_append, owed_write hs, uncounted_write hr]
        show s.cap + (owed s.files s.todo + ((raw : Int) + 0)) + _ =
          (total (write s.files n (size s.files n + raw)) : Int) + d
        omega
      · intro p hp
        have := del_write h (z := size s.files n + raw) hd p hp
        exact ⟨this.1, not_stat_append_add this.2.1, this.2.2⟩

theorem Inv.commit {s : State} {d : Nat} (h : Inv s d) {n : Str} {compress : Bool} {raw onDisk : Nat}
    (hc : Calm s (.commit n compress raw onDisk)) : Inv (commit s n compress raw onDisk) d := by
  unfold Capacity.commit
  by_cases hn : has s.files n = true
  · rw [if_pos hn]; exact h
  · rw [if_neg hn]
    rcases hc with hc | ⟨rfl, hs, hd, hr⟩
    · exact absurd hc hn
    · have hz := size_none (by simpa using hn : has s.files n = false)
      have ht := total_write s.files n raw
      have hsum := h.sum
      refine ⟨?_, ?_, h.once⟩
      · show s.cap + owed (write s.files n raw) (s.todo ++ [.stat n]) + uncounted (write s.files n raw) s.received = _
        rw [owed_append, owed_write hs, uncounted_write hr]
        have : owed (write s.files n raw) [.stat n] = raw := by
          simp [owed, value, size_write]
        rw [this]
        show _ = (total (write s.files n raw) : Int) + d
        omega
      · intro p hp
        have := del_write h (z := raw) hd p hp
        refine ⟨this.1, ?_, this.2.2⟩
        intro hm
        rcases List.mem_append.1 hm with hm | hm
        · exact this.2.1 hm
        · simp only [List.mem_singleton, Todo.stat.injEq] at hm
          exact hd (List.mem_map.2 ⟨p, hp, hm⟩)

theorem Inv.delStat {s : State} {d : Nat} (h : Inv s d) {n : Str} {hit : Bool} (hc : Calm s (.delStat n hit)) :
    Inv (delStat s n hit) d := by
  unfold Capacity.delStat
  cases hit with
  | false => exact h
  | true =>
    rcases hc with hc | ⟨hs, hd, hr⟩
    · exact nomatch hc
    · by_cases hn : has s.files n = true
      · simp only [Bool.not_true, Bool.false_eq_true, if_false, hn, if_true]
        refine ⟨h.sum, ?_, ?_⟩
        · intro p hp
          rcases List.mem_append.1 hp with hp | hp
          · exact h.del p hp
          · simp only [List.mem_singleton] at hp
            subst hp
            exact ⟨rfl, hs, hr⟩
        · show ((s.deleting ++ [(n, size s.files n)]).map (·.1)).Nodup
          rw [List.map_append, List.nodup_append]
          refine ⟨h.once, by simp, ?_⟩
          intro a ha b hb
          simp only [List.map_cons, List.map_nil, List.mem_singleton] at hb
          subst hb
          rintro rfl
          exact hd ha
      · simp only [Bool.not_true, Bool.false_eq_true, if_false, if_neg hn]
        refine ⟨?_, fun p hp => ⟨(h.del p hp).1, not_stat_append_add (h.del p hp).2.1, (h.del p hp).2.2⟩, h.once⟩
        show s.cap + owed s.files (s.todo ++ [.add 0]) + uncounted s.files s.received = _
        rw [owed_append]
        have : owed s.files [.add 0] = 0 := rfl
        rw [this, Int.add_zero]
        exact h.sum

theorem erase_fst {l : List (Str × Nat)} {i : Nat} {n : Str} {z : Nat} (h : l[i]? = some (n, z))
    (hd : (l.map (·.1)).Nodup) : ∀ p ∈ l.eraseIdx i, p.1 ≠ n := by
  induction l generalizing i with
  | nil => simp at h
  | cons e r ih =>
    simp only [List.map_cons, List.nodup_cons] at hd
    cases i with
    | zero =>
      simp only [List.getElem?_cons_zero, Option.some.injEq] at h
      subst h
      intro p hp he
      exact hd.1 (he ▸ List.mem_map.2 ⟨p, hp, rfl⟩)
    | succ i =>
      simp only [List.getElem?_cons_succ] at h
      intro p hp
      rw [List.eraseIdx_cons_succ] at hp
      rcases List.mem_cons.1 hp with rfl | hp
      · intro he
        exact hd.1 (he ▸ List.mem_map.2 ⟨(n, z), List.mem_of_getElem? h, rfl⟩)
      · exact ih h hd.2 p hp

theorem Inv.delRemove {s : State} {d : Nat} (h : Inv s d) (i : Nat) : Inv (delRemove s i) d := by
  unfold Capacity.delRemove
  cases hi : s.deleting[i]? with
  | none => exact h
  | some p =>
    obtain ⟨n, z⟩ := p
    obtain ⟨hz, hs, hr⟩ := h.del (n, z) (List.mem_of_getElem? hi)
    have hz : size s.files n = z := hz
    have ht := total_remove s.files n
    have hsum := h.sum
    refine ⟨?_, ?_, ?_⟩
    · show s.cap + owed (remove s.files n) (s.todo ++ [.add (-z)]) + uncounted (remove s.files n) s.received = _
      rw [owed_append, owed_remove hs, uncounted_remove hr]
      show s.cap + (owed s.files s.todo + (-(z : Int) + 0)) + _ = (total (remove s.files n) : Int) + d
      omega
    · intro q hq
      have hne := erase_fst hi h.once q hq
      have hd := h.del q (List.mem_of_mem_eraseIdx hq)
      exact ⟨by show size (remove s.files n) q.1 = q.2; rw [size_remove hne]; exact hd.1,
        not_stat_append_add hd.2.1, hd.2.2⟩
    · exact ((List.eraseIdx_sublist _ _).map _).nodup h.once

theorem Inv.receive {s : State} {d : Nat} (h : Inv s d) {n : Str} {z : Nat} (hc : Calm s (.receive n z)) :
    Inv (receive s n z) d := by
  obtain ⟨hn, hs, hd, hr⟩ := hc
  unfold Capacity.receive
  rw [hn]
  simp only [Bool.false_and, Bool.false_eq_true, if_false]
  have hz := size_none hn
  have ht := total_write s.files n z
  have hsum := h.sum
  refine ⟨?_, ?_, h.once⟩
  · show s.cap + owed (write s.files n z) s.todo + uncounted (write s.files n z) (n :: s.received) = _
    have : uncounted (write s.files n z) (n :: s.received) = z + uncounted (write s.files n z) s.received := by
      simp [uncounted, size_write]
    rw [this, owed_write hs, uncounted_write hr]
    show _ = (total (write s.files n z) : Int) + d
    omega
  · intro p hp
    have := del_write h (z := z) hd p hp
    refine ⟨this.1, this.2.1, ?_⟩
    intro hm
    rcases List.mem_cons.1 hm with hm | hm
    · exact hd (List.mem_map.2 ⟨p, hp, hm⟩)
    · exact this.2.2 hm

theorem Inv.finish {s : State} {d : Nat} (h : Inv s d) {n : Str} {z : Nat} (hc : Calm s (.finish n z)) :
    Inv (finish s n z) d := by
  unfold Capacity.finish
  by_cases hn : (has s.files n && size s.files n == z) = true
  · rw [if_pos hn]
    have hz : size s.files n = z := by
      simp only [Bool.and_eq_true, beq_iff_eq] at hn
      exact hn.2
    have he := uncounted_erase (f := s.files) hc
    have hsum := h.sum
    refine ⟨?_, fun p hp => ⟨(h.del p hp).1, (h.del p hp).2.1, fun hm => (h.del p hp).2.2 (List.mem_of_mem_erase hm)⟩, h.once⟩
    show s.cap + z + owed s.files s.todo + uncounted s.files (s.received.erase n) = (total s.files : Int) + d
    omega
  · rw [if_neg hn]; exact h

theorem Inv.run {s : State} {d : Nat} (h : Inv s d) (i : Nat) : Inv (run s i) d := by
  unfold Capacity.run
  cases hi : s.todo[i]? with
  | none => exact h
  | some t =>
    have he := owed_erase (f := s.files) hi
    have hsum := h.sum
    refine ⟨?_, fun p hp => ⟨(h.del p hp).1, fun hm => (h.del p hp).2.1 (List.mem_of_mem_eraseIdx hm), (h.del p hp).2.2⟩, h.once⟩
    show s.cap + value s.files t + owed s.files (s.todo.eraseIdx i) + uncounted s.files s.received = (total s.files : Int) + d
    omega

/-! ## The warm-up -/

theorem sum_split (l : List Entry) :
    (l.map (·.bytes)).sum = (l.filter fun e => !e.isDir).foldr (fun e a => e.bytes + a) 0 +
      (l.filter fun e => e.isDir).foldr (fun e a => e.bytes + a) 0 := by
  induction l with
  | nil => rfl
  | cons e r ih =>
    cases h : e.isDir <;> simp [h, ih] <;> omega

theorem warmUp_flat {ws : List Walk}
    (h : ∀ w ∈ ws, w.broken = false ∧ ∀ e ∈ w.entries, hasPrefix e.name tempPrefix = false) :
    warmUp ws = ((ws.flatMap (·.entries)).map (·.bytes)).sum := by
  induction ws with
  | nil => rfl
  | cons w r ih =>
    have hw := h w List.mem_cons_self
    have hf : w.entries.filter (fun e => !hasPrefix e.name tempPrefix) = w.entries := by
      rw [List.filter_eq_self]
      intro e he
      rw [hw.2 e he]; rfl
    simp only [warmUp, hf, hw.1, Bool.false_eq_true, if_false, List.flatMap_cons, List.map_append, List.sum_append,
      ih fun w hw => h w (List.mem_cons_of_mem _ hw)]

/-- **C89** (start): a warm-up that meets no error counts the files and the directories. -/
theorem C89_warm_up_partial {f : Files} {walks : List Walk} (h : seen f walks) :
    warmUp walks = total f + dirBytes walks := by
  rw [warmUp_flat h.1, sum_split, h.2]
  rfl

/-- Two mount points with a storage directory each and three shards, one of them a larger one. -/
def M1 : Walk := { entries := [⟨"storage".toList, 4096, true⟩, ⟨"h.0".toList, 8192, false⟩], broken := false }
def M2 : Walk := { entries := [⟨"storage".toList, 4096, true⟩, ⟨"h.1".toList, 8192, false⟩, ⟨"g.2".toList, 20480, false⟩], broken := false }

example : seen [("h.0".toList, 8192), ("h.1".toList, 8192), ("g.2".toList, 20480)] [M1, M2] ∧
    warmUp [M1, M2] = 45056 ∧ dirBytes [M1, M2] = 8192 := by
  refine ⟨⟨?_, rfl⟩, by decide, by decide⟩
  intro w hw
  simp only [List.mem_cons, List.not_mem_nil, or_false] at hw
  rcases hw with rfl | rfl <;> decide

/-- **C89** (start, refutation): the directories are counted, and an error in one mount point — here the first
— leaves the files of all that follow uncounted. -/
theorem C89_warm_up_wrong :
    warmUp [M1, M2] ≠ total [("h.0".toList, 8192), ("h.1".toList, 8192), ("g.2".toList, 20480)] ∧
    warmUp [{ M1 with entries := [], broken := true }, M2] = 0 := by decide

theorem Inv.restart {s : State} {d : Nat} {walks : List Walk} (h : Inv s d) (hc : Calm s (.restart walks)) :
    Inv (restart s walks) (dirBytes walks) := by
  have := C89_warm_up_partial hc
  have _ := h.sum
  refine ⟨?_, fun p hp => by simp [Capacity.restart] at hp, by simp [Capacity.restart]⟩
  show ((warmUp walks : Nat) : Int) + 0 + 0 = (total s.files : Int) + (dirBytes walks : Int)
  omega

/-- The directories counted after one more event. -/
def dirsAfter (d : Nat) : Act → Nat
  | .restart w => dirBytes w
  | _ => d

theorem Inv.step {s : State} {d : Nat} {a : Act} (h : Inv s d) (hc : Calm s a) :
    Inv (step s a) (dirsAfter d a) := by
  cases a with
  | put n hit c raw z fails => exact h.put hc
  | commit n c raw z => exact h.commit hc
  | delStat n hit => exact h.delStat hc
  | delRemove i => exact h.delRemove i
  | receive n z => exact h.receive hc
  | finish n z => exact h.finish hc
  | run i => exact h.run i
  | restart w => exact h.restart hc

theorem dirs_cons (d : Nat) (a : Act) (r : List Act) : dirs d (a :: r) = dirs (dirsAfter d a) r := by
  cases a <;> rfl

theorem Inv.exec {s : State} {d : Nat} (h : Inv s d) {acts : List Act} (hc : CalmRun s acts) :
    Inv (exec s acts) (dirs d acts) := by
  induction acts generalizing s d with
  | nil => exact h
  | cons a r ih =>
    rw [dirs_cons]
    exact ih (h.step hc.1) hc.2

/-- **C89** (partial: no compressed object, no failing write, one event at a time on a file, a received file
is new and announced once, no error while starting; and the directories are counted): once nothing is under
way the counter is the size of the files plus the size of the directories of the last start. -/
theorem C89_partial {acts : List Act} (h : CalmRun init acts) (hq : quiet (exec init acts)) :
    (exec init acts).cap = total (exec init acts).files + dirs 0 acts := by
  have hi := (Inv.init.exec h).sum
  rw [hq.1, hq.2.2] at hi
  simpa [owed, uncounted] using hi

def h0 : Str := "h.0".toList
def h1 : Str := "h.1".toList

/-- A shard is uploaded, another committed, a third received; the first is deleted; the goroutines run in
another order; the server is started again, and a shard is deleted afterwards. -/
def calmActs : List Act :=
  [.put h0 false false 8192 0 false, .commit h1 false 4096 0, .receive "g.2".toList 100, .run 1,
   .finish "g.2".toList 100, .delStat h0 true, .delRemove 0, .run 1, .run 0,
   .restart [{ entries := [⟨"storage".toList, 4096, true⟩, ⟨h1, 4096, false⟩, ⟨"g.2".toList, 100, false⟩], broken := false }],
   .delStat h1 true, .delRemove 0, .run 0]

set_option maxRecDepth 4000 in
example : CalmRun init calmActs ∧ quiet (exec init calmActs) ∧ (exec init calmActs).cap = 4196 ∧
    total (exec init calmActs).files = 100 ∧ dirs 0 calmActs = 4096 := by
  refine ⟨?_, ⟨rfl, rfl, rfl⟩, by decide, by decide, by decide⟩
  decide

/-- **C89** (leaving): a server after such an execution, none of whose files is empty, sends every file when it
leaves, whatever the other servers report — if there is anywhere to send. -/
theorem C89_leave_sends_all_partial {acts : List Act} (h : CalmRun init acts) (hq : quiet (exec init acts))
    {files : List Rebalance.File} (hf : Rebalance.sizes files = total (exec init acts).files)
    (hpos : ∀ f ∈ files, 0 < f.size) {peers plan plan' : List (Str × Int)}
    (hd : Rebalance.deviation false (exec init acts).cap peers = some plan) (hp : plan'.Perm plan) :
    (Rebalance.assign plan' files).map (·.1) = files := by
  refine Rebalance.C53_leave_sends_all hd hp hpos ?_
  rw [C89_partial h hq, hf]
  omega

/-- A server with two shards of different sizes leaves two others. -/
def leaveActs : List Act := [.put h0 false false 8192 0 false, .commit h1 false 4096 0, .run 0, .run 0]

example : CalmRun init leaveActs ∧ quiet (exec init leaveActs) ∧
    Rebalance.sizes [⟨h0, 8192⟩, ⟨h1, 4096⟩] = total (exec init leaveActs).files ∧
    Rebalance.deviation false (exec init leaveActs).cap [("b:1".toList, 0), ("c:1".toList, 4096)] =
      some [("b:1".toList, 8192), ("c:1".toList, 4096)] :=
  ⟨by decide, ⟨rfl, rfl, rfl⟩, by decide, by decide⟩

/-! ## Each condition is needed -/

/-- **C89** (refutation): the branch of compressed objects in `CommitFile` never counts. -/
theorem C89_compressed_commit_uncounted :
    let s := exec init [.commit h0 true 8192 3000, .commit h1 true 8192 3000]
    quiet s ∧ s.cap = 0 ∧ total s.files = 6000 := by
  refine ⟨⟨rfl, rfl, rfl⟩, by decide, by decide⟩

/-- Without a counter nothing leaves: such a server computes no plan or one in which most files stay. -/
theorem C89_compressed_leave :
    let s := exec init [.commit h0 true 8192 3000, .commit h1 true 8192 3000]
    Rebalance.deviation false s.cap [("b:1".toList, 0)] = none := by decide

/-- **C89** (refutation): `Put` of a compressed object counts the bytes of the request and `Delete` takes off
those of the file, so every upload and deletion leaves the difference behind. -/
theorem C89_compressed_put_drifts (raw z : Nat) :
    let s := exec init [.put h0 false true raw z false, .run 0, .delStat h0 true, .delRemove 0, .run 0]
    quiet s ∧ s.files = [] ∧ s.cap = raw - z := by
  refine ⟨⟨rfl, rfl, rfl⟩, rfl, ?_⟩
  show (0 : Int) + (raw : Int) + -((0 + z : Nat) : Int) = _
  omega

/-- **C89** (refutation): two deletions of one file which both pass `os.Stat` take it off twice; the counter
becomes negative. -/
theorem C89_double_delete :
    let s := exec init [.put h0 false false 8192 0 false, .run 0, .delStat h0 true, .delStat h0 true,
      .delRemove 0, .delRemove 0, .run 0, .run 0]
    quiet s ∧ s.files = [] ∧ s.cap = -8192 := by
  refine ⟨⟨rfl, rfl, rfl⟩, rfl, by decide⟩

/-- **C89** (refutation): a deletion that comes before the goroutine of the commit takes off what is never
added. -/
theorem C89_commit_delete_race :
    let s := exec init [.commit h0 false 8192 0, .delStat h0 true, .delRemove 0, .run 0, .run 0]
    quiet s ∧ s.files = [] ∧ s.cap = -8192 := by
  refine ⟨⟨rfl, rfl, rfl⟩, rfl, by decide⟩

/-- **C89** (refutation): a sender that tries again — because the receiver had no answer from the metadata
servers — is counted again, for every attempt. -/
theorem C89_finish_again (k z : Nat) :
    let s := exec init (.receive h0 z :: List.replicate (k + 1) (.finish h0 z))
    quiet s ∧ s.files = [(h0, z)] ∧ s.cap = (k + 1) * z := by
  have key : ∀ (k : Nat) (c : Int), exec { files := [(h0, z)], cap := c, todo := [], deleting := [], received := [] }
      (List.replicate k (.finish h0 z)) =
      { files := [(h0, z)], cap := c + k * z, todo := [], deleting := [], received := [] } := by
    intro k
    induction k with
    | zero => intro c; simp [exec]
    | succ k ih =>
      intro c
      have hs : step { files := [(h0, z)], cap := c, todo := [], deleting := [], received := [] } (.finish h0 z) =
          { files := [(h0, z)], cap := c + z, todo := [], deleting := [], received := [] } := by
        simp [step, finish, has, size]
      rw [List.replicate_succ]
      show exec (step _ _) _ = _
      rw [hs, ih]
      have : c + (z : Int) + (k : Int) * z = c + ((k + 1 : Nat) : Int) * z := by
        rw [Int.natCast_add, Int.add_mul]; omega
      rw [this]
  have h1 : exec init (.receive h0 z :: List.replicate (k + 1) (.finish h0 z)) =
      { files := [(h0, z)], cap := z + k * z, todo := [], deleting := [], received := [] } := by
    rw [List.replicate_succ]
    show exec (step (step init _) _) _ = _
    have hs : step (step init (.receive h0 z)) (.finish h0 z) =
        { files := [(h0, z)], cap := z, todo := [], deleting := [], received := [] } := by
      simp [step, receive, finish, init, has, size, write]
    rw [hs, key]
  intro s
  have hs : s = _ := h1
  rw [hs]
  refine ⟨⟨rfl, rfl, rfl⟩, rfl, ?_⟩
  show (z : Int) + k * z = (k + 1) * z
  rw [Int.add_mul]; omega

/-- **C89** (refutation): a file of another size is replaced without taking the old one off. -/
theorem C89_replaced_file (y z : Nat) (h : y ≠ z) :
    let s := exec init [.put h0 false false y 0 false, .run 0, .receive h0 z, .finish h0 z]
    quiet s ∧ s.files = [(h0, z)] ∧ s.cap = y + z := by
  have hs : exec init [.put h0 false false y 0 false, .run 0, .receive h0 z, .finish h0 z] =
      { files := [(h0, z)], cap := y + z, todo := [], deleting := [], received := [] } := by
    simp [exec, step, put, run, receive, finish, init, has, size, write, value, h]
  intro s
  have e : s = _ := hs
  rw [e]
  exact ⟨⟨rfl, rfl, rfl⟩, rfl, rfl⟩

/-- **C89** (refutation): a write that fails half way leaves bytes that are never counted, yet a deletion takes
them off. -/
theorem C89_failed_write :
    let s := exec init [.put h0 false false 4096 0 true, .delStat h0 true, .delRemove 0, .run 0]
    quiet s ∧ s.files = [] ∧ s.cap = -4096 := by
  refine ⟨⟨rfl, rfl, rfl⟩, rfl, by decide⟩

theorem C89_statement_fails : ¬ C89_statement := by
  intro h
  have := h [.commit h0 true 8192 3000] ⟨rfl, rfl, rfl⟩
  exact absurd this (by decide)

end Verif.Object.Capacity
