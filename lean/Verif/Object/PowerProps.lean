import Verif.Object.Power

/-!
# What is left of acknowledged shards after a loss of power (C132)
-/

namespace Verif.Object.Power

open Verif

/-- The full statement: what clients were told is stored is read, whatever the kernel does and however often the power is lost. -/
def Statement : Prop := ∀ (content : Str → List Nat) (es : List (Ev Nat)), Honest false content {} es → Kept (run false {} es)

/-- A shard "h" with the content 1, 2, uploaded and acknowledged. -/
def upload : List (Ev Nat) := [.post "h".toList, .patch 0 [1], .patch 0 [2], .commit 0]

theorem honest_of {α : Type} {sync : Bool} {content : Str → List α} {s : St α} {es : List (Ev α)}
    (h : ∀ k ≤ es.length, ∀ x ∈ (run sync s (es.take k)).acked, x.2 = content x.1) : Honest sync content s es := by
  intro es' hp n c hc
  obtain ⟨t, rfl⟩ := hp
  have := h es'.length (by simp) (n, c)
  rw [List.take_left] at this
  exact this hc

/-- **C132** The power is lost soon after an upload was acknowledged: the shard is gone. -/
theorem C132_gone : (run false {} upload).acked = [("h".toList, [1, 2])] ∧ read (run false {} upload) "h".toList = some [1, 2] ∧
    read (run false {} (upload ++ [.power])) "h".toList = none := by decide

/-- **C132** The name was written back and not the content: the shard is there and empty, or short. -/
theorem C132_short : read (run false {} (upload ++ [.kdir, .power])) "h".toList = some [] ∧
    read (run false {} (upload ++ [.kdata 0 1, .kdir, .power])) "h".toList = some [1] := by decide

/-- **C132** A `PUT /objects/:name`, or a compressed commit, leaves a part even if the kernel writes back everything in order. -/
theorem C132_direct_part : read (run false {} ([.putStart "h".toList [1, 2], .putWrite 0 1, .kall, .power] : List (Ev Nat))) "h".toList = some [1] := by
  decide

theorem C132_statement_fails : ¬ Statement := by
  intro h
  have := h (fun _ => [1, 2]) (upload ++ [.power]) (honest_of (by decide)) "h".toList [1, 2] (by decide)
  revert this
  decide

/-- **C132** What is on the drive stays: a shard whose file and name were written back survives everything but its deletion, and nothing
changes its content any more. -/
theorem C132_written_back {α : Type} (pre es : List (Ev α)) (n : Str) (i : Nat) (c : List α) (h : Settled (run false {} pre) n i c)
    (he : ∀ e ∈ es, e ≠ .del n) : read (run false {} (pre ++ es)) n = some c := by
  have := settled_run false es (wf_run false pre wf_init) h he
  unfold read run
  rw [List.foldl_append]
  have h1 := this.live
  have h2 := this.data
  unfold run at h1 h2
  rw [h1]
  simp only [Option.map_some, h2]

/-- **C132** So a short shard stays short: every later upload of the content is acknowledged, by the question whether it is stored, by a
commit and by a `PUT`, and changes nothing. -/
theorem C132_never_heals (es : List (Ev Nat)) (he : ∀ e ∈ es, e ≠ .del "h".toList) :
    let pre := upload ++ [.kdir, .power]
    read (run false {} (pre ++ es)) "h".toList = some [] ∧
    ("h".toList, [1, 2]) ∈ (run false {} (pre ++ es ++ [.offer "h".toList [1, 2]])).acked ∧
    read (run false {} (pre ++ es ++ [.offer "h".toList [1, 2]])) "h".toList = some [] := by
  intro pre
  have hs : Settled (run false {} pre) "h".toList 0 [] := by
    constructor
    · decide
    · decide
    · decide
    · decide
    · decide
    · intro w hw
      have : (run false {} pre).writers = [] := rfl
      rw [this] at hw
      cases hw
  have h1 := C132_written_back pre es _ _ _ hs he
  refine ⟨h1, ?_, ?_⟩
  · have hl : ∃ i, (run false {} (pre ++ es)).live (.obj "h".toList) = some i := by
      unfold read at h1
      obtain ⟨i, hi, _⟩ := Option.map_eq_some_iff.1 h1
      exact ⟨i, hi⟩
    obtain ⟨i, hi⟩ := hl
    have : run false {} (pre ++ es ++ [.offer "h".toList [1, 2]]) = step false (run false {} (pre ++ es)) (.offer "h".toList [1, 2]) := by
      unfold run
      rw [List.foldl_append]
      rfl
    rw [this]
    unfold step
    dsimp only
    rw [hi]
    simp
  · rw [List.append_assoc]
    exact C132_written_back pre (es ++ [.offer "h".toList [1, 2]]) _ _ _ hs (by
      intro e hm
      rcases List.mem_append.1 hm with hm | hm
      · exact he e hm
      · cases List.mem_singleton.1 hm; intro hc; cases hc)

/-- What holds while there is power. -/
theorem kept_run {α : Type} (sync : Bool) {content : Str → List α} (es : List (Ev α)) : ∀ {s : St α}, Wf s → LiveOk content s →
    (∀ n c, (n, c) ∈ s.acked → s.live (.obj n) ≠ none) → (∀ n c, (n, c) ∈ s.acked → c = content n) →
    (∀ e ∈ es, ViaTemp e ∧ e ≠ .power) → Honest sync content s es → Kept (run sync s es) := by
  induction es with
  | nil =>
    intro s _ hl ha hh _ _ n c hc
    unfold read
    change (s.live (.obj n)).map _ = _
    cases hx : s.live (.obj n) with
    | none => exact absurd hx (ha n c hc)
    | some i => change some (s.ino i).data = _; rw [hl.data n i hx, hh n c hc]
  | cons e es ih =>
    intro s hw hl ha hh he ho
    obtain ⟨hv, hp⟩ := he e (by simp)
    exact ih (wf_step sync hw e) (live_step sync hw hl e hv hp ho.head) (acked_step sync hl.ws ha e hv hp) ho.head
      (fun x hx => he x (by simp [hx])) ho.tail

theorem liveOk_init {α : Type} (content : Str → List α) : LiveOk content {} := by
  constructor <;> intros <;> simp_all

theorem diskOk_init {α : Type} (content : Str → List α) : DiskOk content {} := by
  constructor <;> intros <;> simp_all

/-- **C132, partial** Everything acknowledged is read while the power is not lost, however often the process ends: what a process has
written belongs to the kernel.  Missing: losses of power (`C132_gone`, `C132_short`); uploads that write under the final name (C113). -/
theorem C132_process_partial {α : Type} (content : Str → List α) (es : List (Ev α)) (he : ∀ e ∈ es, ViaTemp e ∧ e ≠ .power)
    (ho : Honest false content {} es) : Kept (run false {} es) :=
  kept_run false es wf_init (liveOk_init content) (by intro n c h; cases h) (by intro n c h; cases h) he ho

theorem order_run {α : Type} {content : Str → List α} (es : List (Ev α)) : ∀ {s : St α}, Wf s → LiveOk content s → DiskOk content s →
    (∀ e ∈ es, ViaTemp e ∧ InOrder e) → Honest false content s es → LiveOk content (run false s es) := by
  induction es with
  | nil => intro s _ hl _ _ _; exact hl
  | cons e es ih =>
    intro s hw hl hd he ho
    obtain ⟨hv, hi⟩ := he e (by simp)
    refine ih (wf_step false hw e) ?_ (disk_step false hw hl hd e rfl hv hi) (fun x hx => he x (by simp [hx])) ho.tail
    by_cases hp : e = .power
    · subst hp
      exact ⟨hd.inj, hd.data, rfl⟩
    · exact live_step false hw hl e hv hp ho.head

/-- **C132, partial** If the kernel writes back everything in the order in which it was written, a loss of power may take shards away and
never leaves a part of one: what is read is right, and what is gone can be uploaded again. -/
theorem C132_in_order_partial {α : Type} (content : Str → List α) (es : List (Ev α)) (he : ∀ e ∈ es, ViaTemp e ∧ InOrder e)
    (ho : Honest false content {} es) (n : Str) (c : List α) (hr : read (run false {} es) n = some c) : c = content n := by
  obtain ⟨i, hi, hc⟩ := Option.map_eq_some_iff.1 hr
  rw [← hc]
  exact (order_run es wf_init (liveOk_init content) (diskOk_init content) he ho).data n i hi

theorem synced_acked {α : Type} {content : Str → List α} {s : St α} (h : Synced content s)
    (ha : ∀ n c, (n, c) ∈ s.acked → s.live (.obj n) ≠ none) (e : Ev α) (hv : ViaTemp e) :
    ∀ n c, (n, c) ∈ (step true s e).acked → (step true s e).live (.obj n) ≠ none := by
  by_cases hp : e = .power
  · subst hp
    intro n c hc
    have := ha n c hc
    cases hx : s.live (.obj n) with
    | none => exact absurd hx this
    | some i =>
      have := h.live n i hx
      change s.disk (.obj n) ≠ none
      rw [this]
      exact Option.some_ne_none i
  · exact acked_step true h.ws ha e hv hp

theorem synced_run {α : Type} {content : Str → List α} (es : List (Ev α)) : ∀ {s : St α}, Wf s → Synced content s →
    (∀ n c, (n, c) ∈ s.acked → s.live (.obj n) ≠ none) → (∀ n c, (n, c) ∈ s.acked → c = content n) →
    (∀ e ∈ es, ViaTemp e) → Honest true content s es → Kept (run true s es) := by
  induction es with
  | nil =>
    intro s _ h ha hh _ _ n c hc
    change (s.live (.obj n)).map _ = _
    cases hx : s.live (.obj n) with
    | none => exact absurd hx (ha n c hc)
    | some i => change some (s.ino i).data = _; rw [(h.disk n i (h.live n i hx)).1, hh n c hc]
  | cons e es ih =>
    intro s hw h ha hh he ho
    have hv := he e (by simp)
    exact ih (wf_step true hw e) (synced_step hw h e hv ho.head) (synced_acked h ha e hv) ho.head (fun x hx => he x (by simp [hx])) ho.tail

/-- **C132** With a commit that writes the file and its name back before it answers, everything acknowledged survives every loss of power,
whatever the kernel writes back when. -/
theorem C132_repair {α : Type} (content : Str → List α) (es : List (Ev α)) (he : ∀ e ∈ es, ViaTemp e) (ho : Honest true content {} es) :
    Kept (run true {} es) :=
  synced_run es wf_init ⟨rfl, by intro n i h; simp at h, by intro n i h; simp at h, by simp, by simp⟩ (by intro n c h; cases h)
    (by intro n c h; cases h) he ho

/-! ## Non-vacuity -/

/-- The hypotheses of `C132_written_back` hold after the kernel wrote the file and the directory. -/
example : read (run false {} ((upload ++ [.kdata 0 9, .kdir]) ++ [.power, .post "h".toList, .patch 1 [7], .commit 1, .power])) "h".toList =
    some [1, 2] := by
  refine C132_written_back _ _ _ 0 _ ⟨by decide, by decide, by decide, by decide, by decide, ?_⟩ ?_
  · intro w hw
    have : (run false {} (upload ++ [.kdata 0 9, .kdir])).writers = [] := rfl
    rw [this] at hw
    cases hw
  · intro e he
    simp at he
    rcases he with rfl | rfl | rfl | rfl | rfl <;> exact fun h => by cases h

example : Kept (run false {} (upload ++ [.kill, .offer "h".toList [1, 2]])) :=
  C132_process_partial (fun _ => [1, 2]) _ (by
    intro e he
    simp [upload] at he
    rcases he with rfl | rfl | rfl | rfl | rfl | rfl <;> exact ⟨trivial, fun h => by cases h⟩) (honest_of (by decide))

example : ∀ c, read (run false {} (upload ++ [.kall, .power, .post "g".toList, .patch 1 [1, 2], .commit 1])) "h".toList = some c → c = [1, 2] :=
  fun c hc => C132_in_order_partial (fun _ => [1, 2]) _ (by
    intro e he
    simp [upload] at he
    rcases he with rfl | rfl | rfl | rfl | rfl | rfl | rfl | rfl | rfl <;> exact ⟨trivial, trivial⟩) (honest_of (by decide)) _ _ hc

example : read (run true {} (upload ++ [.power])) "h".toList = some [1, 2] :=
  C132_repair (fun _ => [1, 2]) _ (by
    intro e he
    simp [upload] at he
    rcases he with rfl | rfl | rfl | rfl | rfl <;> trivial) (honest_of (by decide)) _ _ (by decide)

end Verif.Object.Power
