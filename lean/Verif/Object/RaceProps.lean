import Verif.Object.Race

/-!
# Storing a shard is all or nothing (C113): proofs
-/

namespace Verif.Object.Race

/-! ## One pass of writing -/

/-- Writing goes on. -/
theorem padRead_more {x : Bytes} {k B : Nat} (hp : pageSize ∣ B) (h : k + B ≤ x.length) :
    padRead ⟨x.drop k, false⟩ B = ((x.drop k).take B, none, ⟨x.drop (k + B), false⟩) := by
  have h1 : ((x.drop k).take B).length = B := by rw [List.length_take, List.length_drop]; omega
  simp only [padRead, h1, ↓reduceIte]
  rw [alignedSize_of_dvd hp]
  simp [List.drop_drop]

/-- Writing ends. -/
theorem padRead_last {x : Bytes} {k B : Nat} (hB : 0 < B) (hp : pageSize ∣ B) (h : x.length < k + B) :
    (padRead ⟨x.drop k, false⟩ B).1 = padded (x.drop k) ∧ (padRead ⟨x.drop k, false⟩ B).2.1 = some .eof := by
  have h1 : (x.drop k).take B = x.drop k := List.take_of_length_le (by rw [List.length_drop]; omega)
  have h2 : (x.drop k).length ≠ B := by rw [List.length_drop]; omega
  have h3 := alignedSize_le hp (show (x.drop k).length ≤ B by rw [List.length_drop]; omega)
  simp only [padRead, h1, if_neg h2, Bool.false_eq_true, ↓reduceIte, padded, Nat.min_eq_right h3, and_self]

/-- What comes after a multiple of the page size is padded by itself. -/
theorem take_padded {x : Bytes} {k : Nat} (hk : k ≤ x.length) (hp : pageSize ∣ k) :
    x.take k ++ padded (x.drop k) = padded x := by
  have h : (x.take k).length = k := by rw [List.length_take]; omega
  rw [← padded_append _ _ (by rw [h]; exact hp), List.take_append_drop]

theorem take_of_prefix {x f : Bytes} (h : padded x <+: f) : f.take x.length = x := by
  obtain ⟨t, rfl⟩ := h
  simp [padded, List.append_assoc]

/-- A pass of reading in a file that begins with `x`. -/
theorem read_more {x f got : Bytes} (hf : padded x <+: f) (hg : got = x.take got.length) (R : Nat) :
    got ++ (f.drop got.length).take (min R (x.length - got.length)) =
      x.take (got ++ (f.drop got.length).take (min R (x.length - got.length))).length := by
  have hl : got.length ≤ x.length := by
    have := congrArg List.length hg
    rw [List.length_take] at this; omega
  have hx := take_of_prefix hf
  have h1 : (f.drop got.length).take (min R (x.length - got.length)) =
      (x.drop got.length).take (min R (x.length - got.length)) := by
    have h2 : x.drop got.length = (f.drop got.length).take (x.length - got.length) := by
      rw [← List.drop_take, hx]
    rw [h2, List.take_take]
    congr 1; omega
  rw [h1, List.length_append, List.length_take, List.length_drop, List.take_add]
  rw [← hg]
  congr 2
  omega

theorem read_end {x f got : Bytes} {R : Nat} (hR : 0 < R) (hf : padded x <+: f) (hg : got = x.take got.length)
    (h : (f.drop got.length).take (min R (x.length - got.length)) = []) : got = x := by
  have hfl : x.length ≤ f.length := by
    have := congrArg List.length (take_of_prefix hf)
    rw [List.length_take] at this; omega
  have hl := congrArg List.length h
  rw [List.length_take, List.length_drop, List.length_nil] at hl
  rw [hg, List.take_of_length_le (by omega)]

/-! ## Schedules without two writers at once -/

/-- The file `ino` begins with the shard. -/
def Full (x : Bytes) (s : St) (ino : Nat) : Prop := padded x <+: s.data ino

structure Inv (x : Bytes) (s : St) : Prop where
  dir : ∀ d ino, s.dir d = some ino → ino < s.next
  files : ∀ ino, ino < s.next → Full x s ino ∨ ∃ i b, s.procs i = .putWrite ino b
  one : ∀ i j a b a' b', s.procs i = .putWrite a b → s.procs j = .putWrite a' b' → i = j
  write : ∀ i ino b, s.procs i = .putWrite ino b → ino < s.next ∧
    ∃ k, k ≤ x.length ∧ pageSize ∣ k ∧ b = ⟨x.drop k, false⟩ ∧ (Full x s ino ∨ s.data ino = x.take k)
  body : ∀ i b, s.procs i = .putFirst b ∨ s.procs i = .putSecond b ∨ s.procs i = .putOpen b → b = ⟨x, false⟩
  tmp : ∀ i d b, s.procs i = .commit d b ∨ s.procs i = .commitMove d b → b = padded x
  size : ∀ i n, s.procs i = .get n ∨ s.procs i = .getOpen n → n = x.length
  read : ∀ i ino n got, s.procs i = .getRead ino n got →
    n = x.length ∧ ino < s.next ∧ Full x s ino ∧ got = x.take got.length
  got : ∀ i b, s.procs i = .done (.content b) → b = x

theorem Inv.start {x : Bytes} {reqs : Nat → Proc} (hc : ∀ i, Concerns x (reqs i)) (hw : ∀ i, Whole x (reqs i)) :
    Inv x (start reqs) := by
  have key : ∀ i p, reqs i = p → Concerns x p ∧ Whole x p := fun i p h => h ▸ ⟨hc i, hw i⟩
  refine ⟨by simp [Race.start], by simp [Race.start], ?_, ?_, ?_, ?_, ?_, ?_, ?_⟩
  · intro i j a b a' b' h; exact absurd (key _ _ h).1 (by simp [Concerns])
  · intro i ino b h; exact absurd (key _ _ h).1 (by simp [Concerns])
  · intro i b h
    rcases h with h | h | h
    · exact (key _ _ h).2
    · exact absurd (key _ _ h).1 (by simp [Concerns])
    · exact absurd (key _ _ h).1 (by simp [Concerns])
  · intro i d b h
    rcases h with h | h
    · exact (key _ _ h).1
    · exact absurd (key _ _ h).1 (by simp [Concerns])
  · intro i n h
    rcases h with h | h
    · exact (key _ _ h).1
    · exact absurd (key _ _ h).1 (by simp [Concerns])
  · intro i ino n got h; exact absurd (key _ _ h).1 (by simp [Concerns])
  · intro i b h; exact absurd (key _ _ h).1 (by simp [Concerns])

/-- A request moves on and no file changes. -/
theorem Inv.to {x : Bytes} {s : St} {i : Nat} {p : Proc} (h : Inv x s)
    (hold : ∀ ino b, s.procs i ≠ .putWrite ino b)
    (hwrite : ∀ ino b, p = .putWrite ino b → Quiet s ∧ ino < s.next ∧ b = ⟨x, false⟩ ∧ Full x s ino)
    (hbody : ∀ b, p = .putFirst b ∨ p = .putSecond b ∨ p = .putOpen b → b = ⟨x, false⟩)
    (htmp : ∀ d b, p = .commit d b ∨ p = .commitMove d b → b = padded x)
    (hsize : ∀ n, p = .get n ∨ p = .getOpen n → n = x.length)
    (hread : ∀ ino n got, p = .getRead ino n got →
      n = x.length ∧ ino < s.next ∧ Full x s ino ∧ got = x.take got.length)
    (hgot : ∀ b, p = .done (.content b) → b = x) : Inv x (s.to i p) := by
  obtain ⟨h1, h2, h3, h4, h5, h6, h7, h8, h9⟩ := h
  refine ⟨h1, ?_, ?_, ?_, ?_, ?_, ?_, ?_, ?_⟩
  · intro ino hi
    rcases h2 ino hi with hf | ⟨j, b, hj⟩
    · exact .inl hf
    · refine .inr ⟨j, b, ?_⟩
      have : j ≠ i := fun e => hold _ _ (e ▸ hj)
      rw [St.to]; simp only; rw [upd_other _ _ this]; exact hj
  · intro j k a b a' b' hj hk
    simp only [St.to, upd] at hj hk
    split at hj <;> split at hk
    · omega
    · exact absurd hk ((hwrite _ _ hj).1 _ _ _)
    · exact absurd hj ((hwrite _ _ hk).1 _ _ _)
    · exact h3 _ _ _ _ _ _ hj hk
  · intro j ino b hj
    simp only [St.to, upd] at hj
    split at hj
    · obtain ⟨_, ha, hb, hf⟩ := hwrite _ _ hj
      exact ⟨ha, 0, by omega, by simp, by simpa using hb, .inl hf⟩
    · exact h4 _ _ _ hj
  · intro j b hj
    simp only [St.to, upd] at hj
    split at hj
    · exact hbody _ hj
    · exact h5 _ _ hj
  · intro j d b hj
    simp only [St.to, upd] at hj
    split at hj
    · exact htmp _ _ hj
    · exact h6 _ _ _ hj
  · intro j n hj
    simp only [St.to, upd] at hj
    split at hj
    · exact hsize _ hj
    · exact h7 _ _ hj
  · intro j ino n g hj
    simp only [St.to, upd] at hj
    split at hj
    · exact hread _ _ _ hj
    · exact h8 _ _ _ _ hj
  · intro j b hj
    simp only [St.to, upd] at hj
    split at hj
    · exact hgot _ hj
    · exact h9 _ _ hj

/-- A new file that holds the whole shard (`hd`) is put on drive `e`, or none is there any more. -/
theorem Inv.newFile {x : Bytes} {s : St} {i e : Nat} {f : Bytes} (h : Inv x s) (hf : padded x <+: f)
    (hold : ∀ ino b, s.procs i ≠ .putWrite ino b) :
    Inv x { dir := upd s.dir e (some s.next), data := upd s.data s.next f, next := s.next + 1,
            procs := upd s.procs i (.done .ok) } := by
  obtain ⟨h1, h2, h3, h4, h5, h6, h7, h8, h9⟩ := h
  constructor <;> simp only [Full, upd] at * <;> grind

theorem Inv.emptyFile {x : Bytes} {s : St} {i e : Nat} (h : Inv x s) (hq : Quiet s) :
    Inv x { dir := upd s.dir e (some s.next), data := upd s.data s.next [], next := s.next + 1,
            procs := upd s.procs i (.putWrite s.next ⟨x, false⟩) } := by
  obtain ⟨h1, h2, h3, h4, h5, h6, h7, h8, h9⟩ := h
  have h0 : pageSize ∣ 0 := by simp
  have hx : x.take 0 = [] := by simp
  have hd : x.drop 0 = x := by simp
  constructor <;> simp only [Full, upd, Quiet] at *
  · grind
  · intro ino hn
    by_cases he : ino = s.next
    · exact .inr ⟨i, ⟨x, false⟩, by simp [he]⟩
    · rw [if_neg he]
      exact .inl ((h2 ino (by omega)).resolve_right fun ⟨j, b, hj⟩ => hq _ _ _ hj)
  · grind
  · intro j ino b hj
    split at hj
    · cases hj
      exact ⟨by omega, 0, by omega, h0, by rw [hd], by simp⟩
    · exact absurd hj (hq _ _ _)
  · grind
  · grind
  · grind
  · grind
  · grind

theorem Inv.write_step {x : Bytes} {c : Conf} (hc : c.Good) {s : St} {i ino : Nat} {b : Src} (h : Inv x s)
    (hi : s.procs i = .putWrite ino b) :
    Inv x { s with
      data := upd s.data ino (s.data ino ++ (padRead b c.B).1)
      procs := upd s.procs i
        (match (padRead b c.B).2.1 with
          | none => .putWrite ino (padRead b c.B).2.2
          | some .eof => .done .ok
          | some .fail => .done .fail) } := by
  obtain ⟨hB, hp, _⟩ := hc
  obtain ⟨h1, h2, h3, h4, h5, h6, h7, h8, h9⟩ := h
  obtain ⟨hino, k, hk, hpk, rfl, hdata⟩ := h4 _ _ _ hi
  have hfull : ∀ n t, Full x s n → padded x <+: s.data n ++ t := fun n t ⟨u, hu⟩ =>
    ⟨u ++ t, by rw [← hu, List.append_assoc]⟩
  by_cases hlt : x.length < k + c.B
  · obtain ⟨ha, hb⟩ := padRead_last hB hp hlt
    rw [ha, hb]
    have hnew : padded x <+: s.data ino ++ padded (x.drop k) := by
      rcases hdata with hd | hd
      · exact hfull _ _ hd
      · rw [hd, take_padded hk hpk]; exact List.prefix_refl _
    constructor <;> simp only [Full, upd] at * <;> grind
  · have hm := padRead_more (x := x) (k := k) (B := c.B) hp (by omega)
    rw [hm]
    simp only
    have hnew : Full x s ino ∨ s.data ino ++ (x.drop k).take c.B = x.take (k + c.B) := by
      rcases hdata with hd | hd
      · exact .inl hd
      · right; rw [hd, List.take_add]
    have hpk' : pageSize ∣ k + c.B := Nat.dvd_add hpk hp
    constructor <;> simp only [Full, upd] at *
    · grind
    · grind
    · grind
    · intro j n b hj
      split at hj
      · cases hj
        refine ⟨hino, k + c.B, by omega, hpk', rfl, ?_⟩
        simp only [↓reduceIte]
        rcases hnew with hn | hn
        · exact .inl (hfull _ _ hn)
        · exact .inr hn
      · rename_i hne
        exact absurd (h3 _ _ _ _ _ _ hj hi) hne
    · grind
    · grind
    · grind
    · grind
    · grind

theorem Inv.step {x : Bytes} {c : Conf} (hc : c.Good) {s : St} {i d : Nat} (h : Inv x s)
    (hal : (∃ b, s.procs i = .putOpen b) ∨ (∃ n, s.procs i = .getOpen n) → Quiet s) :
    Inv x (step c s i d) := by
  unfold Race.step
  cases hp : s.procs i with
  | putFirst b =>
    have := h.body i b (.inl hp)
    dsimp only
    apply h.to <;> grind
  | putSecond b =>
    have := h.body i b (.inr (.inl hp))
    dsimp only
    apply h.to <;> grind
  | putOpen b =>
    have hb := h.body i b (.inr (.inr hp))
    have hq := hal (.inl ⟨b, hp⟩)
    subst hb
    dsimp only
    cases hd : s.dir d with
    | none => exact h.emptyFile hq
    | some ino =>
      have hn := h.dir _ _ hd
      have hf : Full x s ino := (h.files ino hn).resolve_right fun ⟨j, b, hj⟩ => hq _ _ _ hj
      dsimp only
      apply h.to <;> grind
  | putWrite ino b => exact h.write_step hc hp
  | commit e tmp =>
    have := h.tmp i e tmp (.inl hp)
    dsimp only
    apply h.to <;> grind
  | commitMove e tmp =>
    have := h.tmp i e tmp (.inr hp)
    subst this
    exact h.newFile (List.prefix_refl _) (by simp [hp])
  | delete => dsimp only; apply h.to <;> grind
  | deleteAt =>
    obtain ⟨h1, h2, h3, h4, h5, h6, h7, h8, h9⟩ := h
    constructor <;> simp only [Full, upd] at * <;> grind
  | get n =>
    have := h.size i n (.inl hp)
    dsimp only; apply h.to <;> grind
  | getOpen n =>
    have hs := h.size i n (.inr hp)
    have hq := hal (.inr ⟨n, hp⟩)
    dsimp only
    cases hd : s.dir d with
    | none => dsimp only; apply h.to <;> grind
    | some ino =>
      have hn := h.dir _ _ hd
      have hf : Full x s ino := (h.files ino hn).resolve_right fun ⟨j, b, hj⟩ => hq _ _ _ hj
      dsimp only
      apply h.to <;> grind
  | getRead ino n got =>
    obtain ⟨rfl, hn, hf, hg⟩ := h.read _ _ _ _ hp
    dsimp only
    split
    · rename_i he
      have := read_end hc.2.2 hf hg he
      apply h.to <;> grind
    · have := read_more hf hg c.R
      apply h.to <;> grind
  | done a => exact h

theorem Inv.run {x : Bytes} {c : Conf} (hc : c.Good) : ∀ {l : List (Nat × Nat)} {s : St}, Inv x s → Alone c s l →
    Inv x (run c s l)
  | [], _, h, _ => h
  | (i, d) :: l, s, h, ha => by
    show Inv x (Race.run c (Race.step c s i d) l)
    exact Inv.run hc (h.step hc ha.1) ha.2

/-! ## The shard is there -/

/-- There is a file on a drive. -/
def Present (c : Conf) (s : St) : Prop := ∃ d ∈ c.drives, ∃ ino, s.dir d = some ino

theorem exist_iff {c : Conf} {s : St} : s.exist c = true ↔ Present c s := by
  simp [St.exist, Present, Option.isSome_iff_exists]

/-- Without deletions: who is writing or was successful has put a file on a drive. -/
structure Kept (c : Conf) (s : St) : Prop where
  clean : ∀ i, s.procs i ≠ .delete ∧ s.procs i ≠ .deleteAt
  drive : ∀ i d b, s.procs i = .commit d b ∨ s.procs i = .commitMove d b → d ∈ c.drives
  write : ∀ i ino b, s.procs i = .putWrite ino b → Present c s
  ok : ∀ i, s.procs i = .done .ok → Present c s

theorem Present.dir {c : Conf} {s s' : St} (h : Present c s) (hd : s'.dir = s.dir) : Present c s' := by
  obtain ⟨d, hm, ino, hi⟩ := h
  exact ⟨d, hm, ino, by rw [hd]; exact hi⟩

theorem Kept.to {c : Conf} {s : St} {i : Nat} {p : Proc} (h : Kept c s) (h1 : p ≠ .delete ∧ p ≠ .deleteAt)
    (h2 : ∀ d b, p = .commit d b ∨ p = .commitMove d b → d ∈ c.drives)
    (h3 : (∃ ino b, p = .putWrite ino b) ∨ p = .done .ok → Present c s) : Kept c (s.to i p) := by
  obtain ⟨a1, a2, a3, a4⟩ := h
  have hpr : Present c s → Present c (s.to i p) := fun h => h.dir rfl
  constructor <;> simp only [St.to, upd] at * <;> grind

theorem Kept.step {c : Conf} {s : St} {i d : Nat} (hd : d ∈ c.drives) (h : Kept c s) : Kept c (step c s i d) := by
  unfold Race.step
  cases hp : s.procs i with
  | putFirst b =>
    dsimp only
    by_cases he : s.exist c
    · rw [if_pos he]; have := exist_iff.1 he; apply h.to <;> grind
    · rw [if_neg he]; apply h.to <;> grind
  | putSecond b =>
    dsimp only
    by_cases he : s.exist c
    · rw [if_pos he]; have := exist_iff.1 he; apply h.to <;> grind
    · rw [if_neg he]; apply h.to <;> grind
  | putOpen b =>
    dsimp only
    cases hd' : s.dir d with
    | none =>
      have hpr : Present c ⟨upd s.dir d (some s.next), upd s.data s.next [], s.next + 1,
        upd s.procs i (.putWrite s.next b)⟩ := ⟨d, hd, s.next, by simp⟩
      obtain ⟨a1, a2, a3, a4⟩ := h
      refine ⟨?_, ?_, fun _ _ _ _ => hpr, fun _ _ => hpr⟩ <;> simp only [upd] <;> grind
    | some ino =>
      have : Present c s := ⟨d, hd, ino, hd'⟩
      dsimp only; apply h.to <;> grind
  | putWrite ino b =>
    dsimp only
    have hpr := h.write _ _ _ hp
    obtain ⟨a1, a2, a3, a4⟩ := h
    refine ⟨?_, ?_, fun _ _ _ _ => hpr.dir rfl, fun _ _ => hpr.dir rfl⟩ <;> simp only [upd] <;> grind
  | commit e tmp =>
    have he := h.drive i e tmp (.inl hp)
    dsimp only
    by_cases hs : (s.dir e).isSome
    · have : Present c s := ⟨e, he, Option.isSome_iff_exists.1 hs⟩
      rw [if_pos hs]; apply h.to <;> grind
    · rw [if_neg hs]; apply h.to <;> grind
  | commitMove e tmp =>
    have he := h.drive i e tmp (.inr hp)
    have hpr : Present c ⟨upd s.dir e (some s.next), upd s.data s.next tmp, s.next + 1,
      upd s.procs i (.done .ok)⟩ := ⟨e, he, s.next, by simp⟩
    obtain ⟨a1, a2, a3, a4⟩ := h
    refine ⟨?_, ?_, fun _ _ _ _ => hpr, fun _ _ => hpr⟩ <;> simp only [upd] <;> grind
  | delete => exact absurd hp (h.clean i).1
  | deleteAt => exact absurd hp (h.clean i).2
  | get n => dsimp only; apply h.to <;> grind
  | getOpen n =>
    dsimp only
    cases s.dir d with
    | none => dsimp only; apply h.to <;> grind
    | some ino => dsimp only; apply h.to <;> grind
  | getRead ino n got => dsimp only; apply h.to <;> grind
  | done a => exact h

theorem Kept.run {c : Conf} : ∀ {l : List (Nat × Nat)} {s : St}, (∀ e ∈ l, e.2 ∈ c.drives) → Kept c s →
    Kept c (run c s l)
  | [], _, _, h => h
  | (i, d) :: l, s, hl, h => by
    show Kept c (Race.run c (Race.step c s i d) l)
    exact Kept.run (fun e he => hl e (by simp [he])) (h.step (hl (i, d) (by simp)))

/-! ## A file that is there was stored -/

/-- Bodies without errors; a file that is there is being written, or somebody was told that it is
stored. -/
structure Owned (s : St) : Prop where
  body : ∀ i b, s.procs i = .putFirst b ∨ s.procs i = .putSecond b ∨ s.procs i = .putOpen b → b.fails = false
  write : ∀ i ino b, s.procs i = .putWrite ino b → b.fails = false
  file : ∀ d ino, s.dir d = some ino → (∃ i n b, s.procs i = .putWrite n b) ∨ ∃ i, s.procs i = .done .ok

theorem padRead_fails {b : Src} {n : Nat} (h : b.fails = false) :
    (padRead b n).2.1 ≠ some .fail ∧ (padRead b n).2.2.fails = false := by
  simp only [padRead, h]
  constructor
  · split <;> simp
  · trivial

theorem Owned.to {s : St} {i : Nat} {p : Proc} (h : Owned s) (ho : ∀ ino b, s.procs i ≠ .putWrite ino b)
    (hn : s.procs i ≠ .done .ok)
    (h1 : ∀ b, p = .putFirst b ∨ p = .putSecond b ∨ p = .putOpen b ∨ (∃ ino, p = .putWrite ino b) → b.fails = false) :
    Owned (s.to i p) := by
  obtain ⟨a1, a2, a3⟩ := h
  refine ⟨?_, ?_, ?_⟩
  · simp only [St.to, upd] at *; grind
  · simp only [St.to, upd] at *; grind
  · intro d ino hd
    rcases a3 d ino hd with ⟨j, n, b, hj⟩ | ⟨j, hj⟩
    · have : j ≠ i := fun e => ho _ _ (e ▸ hj)
      exact .inl ⟨j, n, b, by simp only [St.to, upd, if_neg this, hj]⟩
    · have : j ≠ i := fun e => hn (e ▸ hj)
      exact .inr ⟨j, by simp only [St.to, upd, if_neg this, hj]⟩

theorem Owned.step {c : Conf} {s : St} {i d : Nat} (h : Owned s) : Owned (step c s i d) := by
  unfold Race.step
  cases hp : s.procs i with
  | putFirst b => have := h.body i b (.inl hp); dsimp only; apply h.to <;> grind
  | putSecond b => have := h.body i b (.inr (.inl hp)); dsimp only; apply h.to <;> grind
  | putOpen b =>
    have hb := h.body i b (.inr (.inr hp))
    dsimp only
    cases hd' : s.dir d with
    | none =>
      obtain ⟨a1, a2, a3⟩ := h
      exact ⟨by simp only [upd]; grind, by simp only [upd]; grind, fun _ _ _ => .inl ⟨i, s.next, b, by simp⟩⟩
    | some ino => dsimp only; apply h.to <;> grind
  | putWrite ino b =>
    have hb := padRead_fails (n := c.B) (h.write _ _ _ hp)
    obtain ⟨a1, a2, a3⟩ := h
    dsimp only
    cases he : (padRead b c.B).2.1 with
    | none =>
      exact ⟨by simp only [upd]; grind, by simp only [upd]; grind, fun _ _ _ => .inl ⟨i, ino, (padRead b c.B).2.2, by simp⟩⟩
    | some e =>
      cases e with
      | eof => exact ⟨by simp only [upd]; grind, by simp only [upd]; grind, fun _ _ _ => .inr ⟨i, by simp⟩⟩
      | fail => exact absurd he hb.1
  | commit e tmp => dsimp only; apply h.to <;> grind
  | commitMove e tmp =>
    obtain ⟨a1, a2, a3⟩ := h
    exact ⟨by simp only [upd]; grind, by simp only [upd]; grind, fun _ _ _ => .inr ⟨i, by simp⟩⟩
  | delete => dsimp only; apply h.to <;> grind
  | deleteAt =>
    obtain ⟨a1, a2, a3⟩ := h
    exact ⟨by simp only [upd]; grind, by simp only [upd]; grind, fun _ _ _ => .inr ⟨i, by simp⟩⟩
  | get n => dsimp only; apply h.to <;> grind
  | getOpen n =>
    dsimp only
    cases s.dir d with
    | none => dsimp only; apply h.to <;> grind
    | some ino => dsimp only; apply h.to <;> grind
  | getRead ino n got => dsimp only; apply h.to <;> grind
  | done a => exact h

theorem Owned.run {c : Conf} : ∀ {l : List (Nat × Nat)} {s : St}, Owned s → Owned (run c s l)
  | [], _, h => h
  | (i, d) :: l, s, h => by
    show Owned (Race.run c (Race.step c s i d) l)
    exact Owned.run h.step

/-! ## The property -/

theorem start_kept {c : Conf} {x : Bytes} {reqs : Nat → Proc} (hc : ∀ i, Concerns x (reqs i))
    (hn : ∀ i, NoDelete (reqs i)) (hd : ∀ i e tmp, reqs i = .commit e tmp → e ∈ c.drives) :
    Kept c (start reqs) := by
  have key : ∀ i p, reqs i = p → Concerns x p ∧ NoDelete p := fun i p h => h ▸ ⟨hc i, hn i⟩
  refine ⟨fun i => ⟨fun h => (key _ _ h).2, fun h => (key _ _ h).1⟩, ?_, fun i ino b h => (key _ _ h).1.elim,
    fun i h => (key _ _ h).1.elim⟩
  intro i d b h
  rcases h with h | h
  · exact hd _ _ _ h
  · exact (key _ _ h).1.elim

theorem start_owned {x : Bytes} {reqs : Nat → Proc} (hc : ∀ i, Concerns x (reqs i)) (hw : ∀ i, Whole x (reqs i)) :
    Owned (start reqs) := by
  have key : ∀ i p, reqs i = p → Concerns x p ∧ Whole x p := fun i p h => h ▸ ⟨hc i, hw i⟩
  refine ⟨?_, fun i ino b h => (key _ _ h).1.elim, by simp [Race.start]⟩
  intro i b h
  rcases h with h | h | h
  · have := (key _ _ h).2; simp only [Whole] at this; rw [this]
  · exact (key _ _ h).1.elim
  · exact (key _ _ h).1.elim

/-- **C113** If bodies arrive whole and files are opened only while nobody else is writing, storing is all
or nothing in every interleaving of any number of requests.  Missing: bodies that break off, and requests
that overlap while one of them writes (both refuted below). -/
theorem C113_alone_partial {c : Conf} {x : Bytes} {reqs : Nat → Proc} {l : List (Nat × Nat)} (hc : c.Good)
    (hr : ∀ i, Concerns x (reqs i)) (hw : ∀ i, Whole x (reqs i)) (hd : OnDrives c reqs l)
    (ha : Alone c (start reqs) l) : AllOrNothing c x reqs (run c (start reqs) l) := by
  have hi := (Inv.start hr hw).run hc ha
  refine ⟨fun i b h => hi.got i b h, fun hn hq ⟨i, ho⟩ => ?_, fun hno hq d => ?_⟩
  · obtain ⟨d, hm, ino, hdir⟩ := ((start_kept hr hn hd.2).run hd.1).ok i ho
    exact ⟨d, hm, ino, hdir,
      take_of_prefix ((hi.files ino (hi.dir _ _ hdir)).resolve_right fun ⟨j, b, hj⟩ => hq _ _ _ hj)⟩
  · cases he : (run c (start reqs) l).dir d with
    | none => rfl
    | some ino =>
      rcases ((start_owned hr hw).run (c := c) (l := l)).file d ino he with ⟨i, n, b, h⟩ | ⟨i, h⟩
      · exact absurd h (hq _ _ _)
      · exact absurd rfl (hno i _ h)

/-- Nobody stores the shard in pieces. -/
structure NoWriter (s : St) : Prop where
  clean : ∀ i b, s.procs i ≠ .putFirst b ∧ s.procs i ≠ .putSecond b ∧ s.procs i ≠ .putOpen b ∧
    ∀ ino, s.procs i ≠ .putWrite ino b

theorem NoWriter.step {c : Conf} {s : St} {i d : Nat} (h : NoWriter s) : NoWriter (step c s i d) := by
  obtain ⟨h⟩ := h
  refine ⟨?_⟩
  unfold Race.step
  cases hp : s.procs i with
  | putFirst b => exact absurd hp (h i b).1
  | putSecond b => exact absurd hp (h i b).2.1
  | putOpen b => exact absurd hp (h i b).2.2.1
  | putWrite ino b => exact absurd hp ((h i b).2.2.2 ino)
  | getOpen n => dsimp only; split <;> simp only [St.to, upd] <;> grind
  | _ => simp only [St.to, upd] <;> grind

theorem NoWriter.alone {c : Conf} : ∀ {l : List (Nat × Nat)} {s : St}, NoWriter s → Alone c s l
  | [], _, _ => trivial
  | _ :: _, _, h => ⟨fun _ i ino b => (h.clean i b).2.2.2 ino, NoWriter.alone h.step⟩

/-- **C113** With temporary objects only (every upload), storing is all or nothing in every interleaving of
any number of commits, deletions and reads. -/
theorem C113_commits_partial {c : Conf} {x : Bytes} {reqs : Nat → Proc} {l : List (Nat × Nat)} (hc : c.Good)
    (hr : ∀ i, Concerns x (reqs i)) (hp : ∀ i, NoPut (reqs i)) (hd : OnDrives c reqs l) :
    AllOrNothing c x reqs (run c (start reqs) l) := by
  have key : ∀ i p, reqs i = p → Concerns x p ∧ NoPut p := fun i p h => h ▸ ⟨hr i, hp i⟩
  refine C113_alone_partial hc hr ?_ hd (NoWriter.alone ⟨fun i b => ⟨fun h => (key _ _ h).2, fun h => (key _ _ h).1,
    fun h => (key _ _ h).1, fun _ h => (key _ _ h).1⟩⟩)
  intro i
  cases hq : reqs i <;> simp only [Whole]
  exact (key _ _ hq).2.elim

/-! ## Shards that fit into one buffer -/

structure Small (x : Bytes) (s : St) : Prop where
  dir : ∀ d ino, s.dir d = some ino → ino < s.next
  files : ∀ ino, ino < s.next → Full x s ino ∨ (s.data ino = [] ∧ ∃ i, s.procs i = .putWrite ino ⟨x, false⟩)
  write : ∀ i ino b, s.procs i = .putWrite ino b → ino < s.next ∧
    (b = ⟨x, false⟩ ∨ (b = ⟨[], false⟩ ∧ Full x s ino))
  body : ∀ i b, s.procs i = .putFirst b ∨ s.procs i = .putSecond b ∨ s.procs i = .putOpen b → b = ⟨x, false⟩
  tmp : ∀ i d b, s.procs i = .commit d b ∨ s.procs i = .commitMove d b → b = padded x
  size : ∀ i n, s.procs i = .get n ∨ s.procs i = .getOpen n → n = x.length
  read : ∀ i ino n got, s.procs i = .getRead ino n got →
    n = x.length ∧ ino < s.next ∧ got = x.take got.length ∧ (Full x s ino ∨ (s.data ino = [] ∧ got = []))
  got : ∀ i b, s.procs i = .done (.content b) → b = x ∨ b = []

theorem Small.start {x : Bytes} {reqs : Nat → Proc} (hc : ∀ i, Concerns x (reqs i)) (hw : ∀ i, Whole x (reqs i)) :
    Small x (start reqs) := by
  obtain ⟨h1, _, _, h4, h5, h6, h7, h8, h9⟩ := Inv.start hc hw
  have key : ∀ i p, reqs i = p → Concerns x p := fun i p h => h ▸ hc i
  exact ⟨h1, by simp [Race.start], fun _ _ _ h => (key _ _ h).elim, h5, h6, h7, fun _ _ _ _ h => (key _ _ h).elim,
    fun _ _ h => (key _ _ h).elim⟩

theorem Small.to {x : Bytes} {s : St} {i : Nat} {p : Proc} (h : Small x s)
    (hold : ∀ ino b, s.procs i ≠ .putWrite ino b)
    (hwrite : ∀ ino b, p = .putWrite ino b → ino < s.next ∧ b = ⟨x, false⟩)
    (hbody : ∀ b, p = .putFirst b ∨ p = .putSecond b ∨ p = .putOpen b → b = ⟨x, false⟩)
    (htmp : ∀ d b, p = .commit d b ∨ p = .commitMove d b → b = padded x)
    (hsize : ∀ n, p = .get n ∨ p = .getOpen n → n = x.length)
    (hread : ∀ ino n got, p = .getRead ino n got →
      n = x.length ∧ ino < s.next ∧ got = x.take got.length ∧ (Full x s ino ∨ (s.data ino = [] ∧ got = [])))
    (hgot : ∀ b, p = .done (.content b) → b = x ∨ b = []) : Small x (s.to i p) := by
  obtain ⟨h1, h2, h4, h5, h6, h7, h8, h9⟩ := h
  refine ⟨h1, ?_, ?_, ?_, ?_, ?_, ?_, ?_⟩
  · intro ino hi
    rcases h2 ino hi with hf | ⟨he, j, hj⟩
    · exact .inl hf
    · refine .inr ⟨he, j, ?_⟩
      have : j ≠ i := fun e => hold _ _ (e ▸ hj)
      rw [St.to]; simp only; rw [upd_other _ _ this]; exact hj
  all_goals simp only [Full, St.to, upd] at * <;> grind

theorem Small.write_step {x : Bytes} {c : Conf} (hc : c.Good) (hx : x.length ≤ c.B) {s : St} {i ino : Nat} {b : Src}
    (h : Small x s) (hi : s.procs i = .putWrite ino b) :
    Small x { s with
      data := upd s.data ino (s.data ino ++ (padRead b c.B).1)
      procs := upd s.procs i
        (match (padRead b c.B).2.1 with
          | none => .putWrite ino (padRead b c.B).2.2
          | some .eof => .done .ok
          | some .fail => .done .fail) } := by
  obtain ⟨hB, hp, _⟩ := hc
  obtain ⟨h1, h2, h4, h5, h6, h7, h8, h9⟩ := h
  obtain ⟨hino, hb⟩ := h4 _ _ _ hi
  have hfull : ∀ n t, Full x s n → padded x <+: s.data n ++ t := fun n t ⟨u, hu⟩ =>
    ⟨u ++ t, by rw [← hu, List.append_assoc]⟩
  have hread : ∀ i ino' n got, s.procs i = .getRead ino' n got → ino' = ino → (s.data ino' = [] ∧ got = []) →
      got = x.take got.length := fun _ _ _ _ _ _ h => by simp [h.2]
  rcases hb with rfl | ⟨rfl, hf⟩
  · have hnew : padded x <+: s.data ino ++ padded x := by
      rcases h2 ino hino with hd | ⟨hd, _⟩
      · exact hfull _ _ hd
      · rw [hd, List.nil_append]; exact List.prefix_refl _
    by_cases hlt : x.length < c.B
    · have hl := padRead_last (x := x) (k := 0) hB hp (by omega)
      rw [List.drop_zero] at hl
      rw [hl.1, hl.2]
      constructor <;> simp only [Full, upd] at * <;> grind
    · have hm := padRead_more (x := x) (k := 0) (B := c.B) hp (by omega)
      have hxB : x.length = c.B := by omega
      rw [List.drop_zero, Nat.zero_add, List.drop_of_length_le (by omega), List.take_of_length_le (by omega)] at hm
      have hpx : padded x = x := by
        simp only [padded]; rw [alignedSize_of_dvd (by rw [hxB]; exact hp)]; simp
      have hm' : padRead ⟨x, false⟩ c.B = (padded x, none, ⟨[], false⟩) := by rw [hm, hpx]
      clear hm hpx
      rw [hm']
      constructor <;> simp only [Full, upd] at * <;> grind
  · have hl := padRead_last (x := []) (k := 0) hB hp (by simpa using hB)
    rw [List.drop_zero] at hl
    rw [hl.1, hl.2]
    have he : padded [] = [] := by decide
    rw [he, List.append_nil]
    constructor <;> simp only [Full, upd] at * <;> grind

theorem Small.step {x : Bytes} {c : Conf} (hc : c.Good) (hx : x.length ≤ c.B) {s : St} {i d : Nat} (h : Small x s) :
    Small x (step c s i d) := by
  unfold Race.step
  cases hp : s.procs i with
  | putFirst b =>
    have := h.body i b (.inl hp)
    dsimp only
    apply h.to <;> grind
  | putSecond b =>
    have := h.body i b (.inr (.inl hp))
    dsimp only
    apply h.to <;> grind
  | putOpen b =>
    have hb := h.body i b (.inr (.inr hp))
    subst hb
    dsimp only
    cases hd : s.dir d with
    | none =>
      obtain ⟨h1, h2, h4, h5, h6, h7, h8, h9⟩ := h
      constructor <;> simp only [Full, upd] at *
      · grind
      · intro ino hn
        by_cases he : ino = s.next
        · exact .inr ⟨by simp [he], i, by simp [he]⟩
        · rw [if_neg he]
          rcases h2 ino (by omega) with hf | ⟨hf, j, hj⟩
          · exact .inl hf
          · refine .inr ⟨hf, j, ?_⟩
            rw [if_neg (fun e => by rw [e, hp] at hj; cases hj), hj]
      all_goals grind
    | some ino =>
      have hn := h.dir _ _ hd
      dsimp only
      apply h.to <;> grind
  | putWrite ino b => exact h.write_step hc hx hp
  | commit e tmp =>
    have := h.tmp i e tmp (.inl hp)
    dsimp only
    apply h.to <;> grind
  | commitMove e tmp =>
    have := h.tmp i e tmp (.inr hp)
    have hpr : padded x <+: padded x := List.prefix_refl _
    obtain ⟨h1, h2, h4, h5, h6, h7, h8, h9⟩ := h
    constructor <;> simp only [Full, upd] at * <;> grind
  | delete => dsimp only; apply h.to <;> grind
  | deleteAt =>
    obtain ⟨h1, h2, h4, h5, h6, h7, h8, h9⟩ := h
    constructor <;> simp only [Full, upd] at * <;> grind
  | get n =>
    have := h.size i n (.inl hp)
    dsimp only; apply h.to <;> grind
  | getOpen n =>
    have hs := h.size i n (.inr hp)
    dsimp only
    cases hd : s.dir d with
    | none => dsimp only; apply h.to <;> grind
    | some ino =>
      have hn := h.dir _ _ hd
      have hf := h.files ino hn
      dsimp only
      apply h.to <;> grind
  | getRead ino n got =>
    obtain ⟨rfl, hn, hg, hf⟩ := h.read _ _ _ _ hp
    dsimp only
    split
    · rename_i he
      have : got = x ∨ got = [] := by
        rcases hf with hf | hf
        · exact .inl (read_end hc.2.2 hf hg he)
        · exact .inr hf.2
      apply h.to <;> grind
    · rename_i he
      have hf' : Full x s ino := by
        rcases hf with hf | hf
        · exact hf
        · rw [hf.1] at he; simp at he
      have := read_more hf' hg c.R
      apply h.to <;> grind
  | done a => exact h

theorem Small.run {x : Bytes} {c : Conf} (hc : c.Good) (hx : x.length ≤ c.B) :
    ∀ {l : List (Nat × Nat)} {s : St}, Small x s → Small x (run c s l)
  | [], _, h => h
  | (i, d) :: l, s, h => by
    show Small x (Race.run c (Race.step c s i d) l)
    exact Small.run hc hx (h.step hc hx)

/-- **C113** A shard that fits into the buffer is stored whole in every interleaving of any number of
requests whose bodies arrive whole, also if they write at once; a reader may get nothing instead of the
shard (`C113_read_early`), but no part of it. -/
theorem C113_small_partial {c : Conf} {x : Bytes} {reqs : Nat → Proc} {l : List (Nat × Nat)} (hc : c.Good)
    (hx : x.length ≤ c.B) (hr : ∀ i, Concerns x (reqs i)) (hw : ∀ i, Whole x (reqs i)) (hd : OnDrives c reqs l) :
    (∀ i b, (run c (start reqs) l).procs i = .done (.content b) → b = x ∨ b = []) ∧
    ((∀ i, NoDelete (reqs i)) → Quiet (run c (start reqs) l) → (∃ i, (run c (start reqs) l).procs i = .done .ok) →
      Stored c x (run c (start reqs) l)) := by
  have hi := (Small.start hr hw).run hc hx (l := l)
  refine ⟨fun i b h => hi.got i b h, fun hn hq ⟨i, ho⟩ => ?_⟩
  obtain ⟨d, hm, ino, hdir⟩ := ((start_kept hr hn hd.2).run hd.1).ok i ho
  exact ⟨d, hm, ino, hdir,
    take_of_prefix ((hi.files ino (hi.dir _ _ hdir)).resolve_right fun ⟨_, j, hj⟩ => hq _ _ _ hj)⟩

/-- **C113** A request to delete the shard that is not interrupted, with one file stored, removes the file: a request to read
that begins afterwards is answered with "not found". -/
theorem C113_deleted (c : Conf) (s : St) (i j d e n : Nat) (hij : i ≠ j) (hd : d ∈ c.drives) (hs : (s.dir d).isSome = true)
    (honly : ∀ d' ∈ c.drives, d' ≠ d → s.dir d' = none) (hi : s.procs i = .delete) (hj : s.procs j = .get n) :
    (run c s [(i, d), (i, d), (j, e)]).procs i = .done .ok ∧ (run c s [(i, d), (i, d), (j, e)]).procs j = .done .notFound := by
  have hex : s.exist c = true := List.any_eq_true.2 ⟨d, hd, hs⟩
  have h1 : step c s i d = s.to i .deleteAt := by unfold step; rw [hi]; dsimp only; rw [if_pos hex]
  have h2 : step c (s.to i .deleteAt) i d = { s with dir := upd s.dir d none, procs := upd (upd s.procs i .deleteAt) i (.done .ok) } := by
    unfold step
    have : (s.to i .deleteAt).procs i = .deleteAt := by simp [St.to, upd]
    rw [this]
    rfl
  have hno : St.exist c { s with dir := upd s.dir d none, procs := upd (upd s.procs i .deleteAt) i (.done .ok) } = false := by
    unfold St.exist
    rw [List.any_eq_false]
    intro d' hd'
    by_cases he : d' = d
    · simp [upd, he]
    · simp [upd, he, honly d' hd' he]
  have hji : j ≠ i := fun h => hij h.symm
  have h3 : run c s [(i, d), (i, d), (j, e)] =
      St.to { s with dir := upd s.dir d none, procs := upd (upd s.procs i .deleteAt) i (.done .ok) } j (.done .notFound) := by
    show step c (step c (step c s i d) i d) j e = _
    rw [h1, h2]
    generalize hS : ({ s with dir := upd s.dir d none, procs := upd (upd s.procs i .deleteAt) i (.done .ok) } : St) = S at hno
    have hpj : S.procs j = .get n := by subst hS; simp [upd, hji, hj]
    unfold step
    rw [hpj]
    dsimp only
    rw [hno]
    rfl
  rw [h3]
  simp [St.to, upd, hij]

/-- **C113** Whatever overlaps, if the bodies arrive whole and nobody was told that the shard is stored, there
is no file once nobody is writing any more. -/
theorem C113_nothing_partial {c : Conf} {x : Bytes} {reqs : Nat → Proc} {l : List (Nat × Nat)}
    (hr : ∀ i, Concerns x (reqs i)) (hw : ∀ i, Whole x (reqs i))
    (hno : ∀ i a, (run c (start reqs) l).procs i = .done a → a ≠ .ok) (hq : Quiet (run c (start reqs) l)) (d : Nat) :
    (run c (start reqs) l).dir d = none := by
  cases he : (run c (start reqs) l).dir d with
  | none => rfl
  | some ino =>
    rcases ((start_owned hr hw).run (c := c) (l := l)).file d ino he with ⟨i, n, b, h⟩ | ⟨i, h⟩
    · exact absurd h (hq _ _ _)
    · exact absurd rfl (hno i _ h)

/-! ## What goes wrong -/

def exConf : Conf := ⟨[0, 1], 4096, 32768⟩

theorem exConf_good : exConf.Good := ⟨by decide, by decide, by decide⟩

/-- Not vacuous: the file is on the first of two drives. -/
example : ∃ s : St, (s.dir 0).isSome = true ∧ (∀ d' ∈ exConf.drives, d' ≠ 0 → s.dir d' = none) ∧ s.procs 0 = .delete ∧ s.procs 1 = .get 2 :=
  ⟨⟨fun d => if d = 0 then some 0 else none, fun _ => padded [1, 2], 1, fun i => if i = 0 then .delete else .get 2⟩, rfl,
    fun d' _ h => if_neg h, rfl, rfl⟩

/-- Requests 0, 1, … of a list; all others are answered already. -/
def reqsOf (l : List Proc) : Nat → Proc := fun i => (l[i]?).getD (.done .notFound)

theorem reqsOf_all {P : Proc → Prop} {l : List Proc} (h : ∀ p ∈ l, P p) (hn : P (.done .notFound)) (i : Nat) :
    P (reqsOf l i) := by
  unfold reqsOf
  cases he : l[i]? with
  | none => exact hn
  | some p => exact h p (List.mem_of_getElem? he)

/-- A `PUT` whose body is cut off, and a `GET` after it. -/
def exCut : Nat → Proc := reqsOf [.putFirst ⟨[1], false⟩, .get 2]

def exCutRun : St := run exConf (start exCut) [(0, 0), (0, 0), (0, 0), (0, 0), (1, 0), (1, 0), (1, 0), (1, 0)]

/-- **C113** A body that is cut off is stored as if it were whole, answered with success, and delivered. -/
theorem C113_cut : exCutRun.procs 0 = .done .ok ∧ exCutRun.procs 1 = .done (.content [1, 0]) := ⟨rfl, rfl⟩

/-- A `PUT` that fails, then another one and a commit of the whole shard, and a `GET`. -/
def exFail : Nat → Proc := reqsOf [.putFirst ⟨[1], true⟩, .putFirst ⟨[1, 2], false⟩, .commit 0 (padded [1, 2]), .get 2]

def exFailRun : St := run exConf (start exFail)
  [(0, 0), (0, 0), (0, 0), (0, 0), (1, 0), (2, 0), (3, 0), (3, 0), (3, 0), (3, 0)]

/-- **C113** A `PUT` that failed leaves a file under the name of the shard; those who store the shard after it
are told that they succeeded, and the shard is not there. -/
theorem C113_failed_stays : exFailRun.procs 0 = .done .fail ∧ exFailRun.procs 1 = .done .ok ∧
    exFailRun.procs 2 = .done .ok ∧ exFailRun.procs 3 = .done (.content [1, 0]) := ⟨rfl, rfl, rfl, rfl⟩

/-- A `GET` while a `PUT` has opened the file. -/
def exEarly : Nat → Proc := reqsOf [.putFirst ⟨[1, 2], false⟩, .get 2]

def exEarlyRun : St := run exConf (start exEarly) [(0, 0), (0, 0), (0, 0), (1, 0), (1, 0), (1, 0), (0, 0)]

/-- **C113** Who reads while the shard is being stored is answered with success and gets nothing. -/
theorem C113_read_early : exEarlyRun.procs 0 = .done .ok ∧ exEarlyRun.procs 1 = .done (.content []) := ⟨rfl, rfl⟩

/-- Two `PUT`s of a shard at once, and a `GET` after both. -/
def exTwo (x : Bytes) : Nat → Proc := reqsOf [.putFirst ⟨x, false⟩, .putFirst ⟨x, false⟩, .get x.length]

def exTwoRun (c : Conf) (x : Bytes) : St := run c (start (exTwo x))
  [(0, 0), (1, 0), (0, 0), (1, 0), (0, 0), (1, 0), (0, 0), (1, 0), (0, 0), (1, 0), (2, 0), (2, 0), (2, 0), (2, 0)]

/-- **C113** Of every shard of more than one buffer and less than two, two `PUT`s at once make a file that
begins with the first buffer twice; both are answered with success, and a `GET` after both delivers it. -/
theorem C113_mixed {c : Conf} (hc : c.Good) (hd : 0 ∈ c.drives) {x : Bytes} (h1 : c.B < x.length)
    (h2 : x.length < 2 * c.B) (h3 : x.length ≤ c.R) :
    (exTwoRun c x).procs 0 = .done .ok ∧ (exTwoRun c x).procs 1 = .done .ok ∧
    (exTwoRun c x).procs 2 = .done (.content (x.take c.B ++ x.take (x.length - c.B))) := by
  obtain ⟨hB, hp, hR⟩ := hc
  have ha := padRead_more (x := x) (k := 0) (B := c.B) hp (by omega)
  rw [List.drop_zero, Nat.zero_add] at ha
  obtain ⟨hb, hb'⟩ := padRead_last (x := x) (k := c.B) hB hp (by omega)
  have hlen : (x.take c.B).length = c.B := by rw [List.length_take]; omega
  have hr : ∀ t, (x.take c.B ++ (x.take c.B ++ t)).take (min c.R x.length) =
      x.take c.B ++ x.take (x.length - c.B) := fun t => by
    rw [Nat.min_eq_right h3, List.take_append, hlen, List.take_of_length_le (by omega), List.take_append,
      List.take_take, Nat.min_eq_left (by omega), hlen, show x.length - c.B - c.B = 0 by omega]
    simp
  have hl : x.length - (x.take c.B ++ x.take (x.length - c.B)).length = 0 := by
    rw [List.length_append, hlen, List.length_take]; omega
  have hne : x.take c.B ++ x.take (x.length - c.B) ≠ [] := fun h => by
    have := congrArg List.length h
    rw [List.length_append, hlen] at this
    simp at this; omega
  have hS : ∃ s t, run c (start (exTwo x)) [(0, 0), (1, 0), (0, 0), (1, 0), (0, 0), (1, 0), (0, 0), (1, 0), (0, 0), (1, 0)] = s ∧
      s.dir 0 = some 0 ∧ s.data 0 = x.take c.B ++ (x.take c.B ++ t) ∧ s.procs 0 = .done .ok ∧ s.procs 1 = .done .ok ∧
      s.procs 2 = .get x.length := by
    refine ⟨_, padded (x.drop c.B) ++ padded (x.drop c.B), rfl, ?_⟩
    simp [run, step, start, exTwo, reqsOf, upd, St.to, St.exist, ha, hb, hb']
  obtain ⟨s, t, hs, h0, hdat, hp0, hp1, hp2⟩ := hS
  have hex : s.exist c = true := exist_iff.2 ⟨0, hd, 0, h0⟩
  have hrun : exTwoRun c x = run c s [(2, 0), (2, 0), (2, 0), (2, 0)] := by rw [← hs]; rfl
  rw [hrun]
  simp only [run, step, hp2, hex, St.to, upd, h0, hdat, List.length_nil, List.drop_zero, Nat.sub_zero, hr, hne, hl,
    List.nil_append, if_true, if_false, Nat.min_zero, List.take_zero, hp0, hp1]
  simp

theorem reqsOf_noCommit (l : List Proc) (h : ∀ p ∈ l, ∀ e tmp, p ≠ .commit e tmp) (i e : Nat) (tmp : Bytes) :
    reqsOf l i ≠ .commit e tmp :=
  reqsOf_all (P := fun p => p ≠ .commit e tmp) (fun p hp => h p hp e tmp) (by simp) i

/-- **C113** Bodies that arrive whole are not enough: after two `PUT`s at once, both successful, the shard is
neither there nor delivered. -/
theorem C113_whole_fails : ¬ ∀ (c : Conf) (x : Bytes) (reqs : Nat → Proc) (l : List (Nat × Nat)), c.Good →
    (∀ i, Concerns x (reqs i)) → (∀ i, Whole x (reqs i)) → OnDrives c reqs l →
    AllOrNothing c x reqs (run c (start reqs) l) := by
  intro h
  have hlen : (List.replicate 4096 (1 : UInt8) ++ [2]).length = 4097 := by
    rw [List.length_append, List.length_replicate]; rfl
  generalize hx : List.replicate 4096 (1 : UInt8) ++ [2] = x at hlen
  have hm := (C113_mixed exConf_good (by decide) (x := x) (by rw [hlen]; decide) (by rw [hlen]; decide)
    (by rw [hlen]; decide)).2.2
  have hr := (h exConf x (exTwo x) _ exConf_good
    (reqsOf_all (by simp only [List.mem_cons, List.not_mem_nil, or_false, forall_eq_or_imp, forall_eq, Concerns]
                    exact ⟨⟨x.length, by simp⟩, ⟨x.length, by simp⟩, trivial⟩) trivial)
    (reqsOf_all (by simp [Whole]) trivial)
    ⟨by decide, fun i e tmp he => absurd he (reqsOf_noCommit
      [.putFirst ⟨x, false⟩, .putFirst ⟨x, false⟩, .get x.length] (by simp) i e tmp)⟩).reads 2 _ hm
  rw [hlen] at hr
  have hg : ∀ y : Bytes, y = x → y[4096]? = some 2 := fun y hy => by
    rw [hy, ← hx, List.getElem?_append_right (by rw [List.length_replicate]; exact Nat.le_refl _), List.length_replicate]
    rfl
  have ht : x.take 4096 = List.replicate 4096 1 := by
    rw [← hx, List.take_append, List.length_replicate, Nat.sub_self, List.take_zero, List.append_nil,
      List.take_of_length_le (by rw [List.length_replicate]; exact Nat.le_refl _)]
  have h1 := hg _ hr
  have hB : exConf.B = 4096 := rfl
  rw [hB, ht, List.getElem?_append_right (by rw [List.length_replicate]; exact Nat.le_refl _), List.length_replicate,
    Nat.sub_self, List.getElem?_take_of_lt (by decide)] at h1
  have h0 : x[0]? = some 1 := by rw [← hx]; rfl
  rw [h0] at h1
  exact absurd h1 (by decide)

/-- **C113** The whole property does not hold. -/
theorem C113_statement_fails : ¬ C113_statement := by
  intro h
  have := (h exConf [1, 2] exCut [(0, 0), (0, 0), (0, 0), (0, 0), (1, 0), (1, 0), (1, 0), (1, 0)] exConf_good
    (reqsOf_all (by simp [Concerns]; exact ⟨1, rfl⟩) trivial)
    ⟨by decide, fun i e tmp he => absurd he (reqsOf_noCommit
      [.putFirst ⟨[1], false⟩, .get 2] (by simp) i e tmp)⟩).reads 1 [1, 0] C113_cut.2
  exact absurd this (by decide)

/-! ## The theorems are not empty -/

/-- A `PUT`, two commits on different drives and two reads: the commits overlap with the `PUT`. -/
def exMany : Nat → Proc := reqsOf [.putFirst ⟨[1, 2], false⟩, .commit 0 (padded [1, 2]), .commit 1 (padded [1, 2]),
  .get 2, .get 2]

def exManyRun : List (Nat × Nat) :=
  [(0, 0), (1, 0), (0, 0), (1, 0), (3, 0), (3, 0), (0, 0), (2, 0), (3, 0), (0, 0), (2, 0), (3, 0), (4, 0), (4, 1), (4, 0), (4, 0)]

theorem exMany_alone : Alone exConf (start exMany) exManyRun := by
  unfold exManyRun
  simp only [Alone]
  refine ⟨?_, ?_, ?_, ?_, ?_, ?_, ?_, ?_, ?_, ?_, ?_, ?_, ?_, ?_, ?_, ?_, trivial⟩
  all_goals first
    | (rintro (⟨b, h⟩ | ⟨n, h⟩) <;> cases h; done)
    | (intro _ i ino b h
       match i with
       | 0 => cases h
       | 1 => cases h
       | 2 => cases h
       | 3 => cases h
       | 4 => cases h
       | _ + 5 => cases h)

/-- `C113_alone_partial`: the hypotheses hold, and both reads got the shard, from different drives. -/
example : (∀ i, Concerns [1, 2] (exMany i)) ∧ (∀ i, Whole [1, 2] (exMany i)) ∧
    Alone exConf (start exMany) exManyRun ∧
    (run exConf (start exMany) exManyRun).procs 3 = .done (.content [1, 2]) ∧
    (run exConf (start exMany) exManyRun).procs 4 = .done (.content [1, 2]) ∧
    (run exConf (start exMany) exManyRun).procs 0 = .done .ok ∧
    (run exConf (start exMany) exManyRun).procs 2 = .done .ok :=
  ⟨reqsOf_all (by simp [Concerns]; exact ⟨2, rfl⟩) trivial, reqsOf_all (by simp [Whole]) trivial, exMany_alone, rfl, rfl, rfl, rfl⟩

/-- `C113_small_partial`: two `PUT`s at once, the file holds the shard twice, and it is read once. -/
example : (∀ i, Concerns [1, 2] (exTwo [1, 2] i)) ∧ (∀ i, Whole [1, 2] (exTwo [1, 2] i)) ∧
    ((exTwoRun exConf [1, 2]).data 0).length = 8192 ∧
    (exTwoRun exConf [1, 2]).procs 2 = .done (.content [1, 2]) :=
  ⟨reqsOf_all (by simp [Concerns]; exact ⟨2, rfl⟩) trivial, reqsOf_all (by simp [Whole]) trivial, by
    show (([] ++ (padRead ⟨[1, 2], false⟩ 4096).1) ++ (padRead ⟨[1, 2], false⟩ 4096).1).length = 8192
    simp only [List.length_append, List.length_nil, padRead, List.length_replicate]
    decide, rfl⟩

/-- Two commits on one drive, a deletion between them and a read that goes on in the deleted file. -/
def exCommits : Nat → Proc := reqsOf [.commit 0 (padded [1, 2]), .commit 0 (padded [1, 2]), .delete, .get 2]

/-- `C113_commits_partial`. -/
example : (∀ i, Concerns [1, 2] (exCommits i)) ∧ (∀ i, NoPut (exCommits i)) ∧
    (run exConf (start exCommits)
      [(0, 0), (1, 0), (0, 0), (3, 0), (3, 0), (2, 0), (2, 0), (3, 0), (1, 0), (3, 0)]).procs 3 = .done (.content [1, 2]) ∧
    (run exConf (start exCommits)
      [(0, 0), (1, 0), (0, 0), (3, 0), (3, 0), (2, 0), (2, 0), (3, 0), (1, 0), (3, 0)]).dir 0 = some 1 :=
  ⟨reqsOf_all (by simp [Concerns]) trivial, reqsOf_all (by simp [NoPut]) trivial, rfl, rfl⟩

/-- `C113_nothing_partial`: requests that did not get far. -/
example : (∀ i a, (run exConf (start exMany) [(0, 0), (1, 0), (0, 0)]).procs i = .done a → a ≠ .ok) ∧
    Quiet (run exConf (start exMany) [(0, 0), (1, 0), (0, 0)]) := by
  constructor
  · intro i a h
    match i with
    | 0 | 1 | 2 | 3 | 4 => cases h
    | _ + 5 => cases h; decide
  · intro i ino b h
    match i with
    | 0 | 1 | 2 | 3 | 4 => cases h
    | _ + 5 => cases h

end Verif.Object.Race
