import Verif.Api.Remains

/-!
# What a failed upload or download leaves behind: theorems of C111
-/

namespace Verif.Remains

/-! ## Uploads -/

/-- An upload that fails leaves nothing on the data servers. -/
def C111_statement : Prop := ∀ u : Upload, (store u).1 = false → ∀ f ∈ (store u).2, f = .nothing

/-- **C111 (partial).**  An upload whose content is not what its digest says, or cannot be read, leaves nothing, if every server made its temporary
file, the rest of the content could be written, and every server answers the rollback.  Missing: the other failures; see below. -/
theorem C111_rollback_partial (u : Upload) (hp : ∀ s ∈ u.srvs, s.post = true) (hg : u.good = false)
    (hf : u.cached = false ∨ u.flushed = true) (hd : ∀ s ∈ u.srvs, s.del = true) :
    (store u).1 = false ∧ ∀ f ∈ (store u).2, f = .nothing := by
  have h1 : (u.srvs.any fun s => !s.post) = false := by
    rw [List.any_eq_false]; intro s hs; simp [hp s hs]
  have h2 : flush u = true := by unfold flush; rcases hf with h | h <;> simp [h]
  have h3 : store u = (false, u.srvs.map rollback) := by simp [store, openStream, h1, hg, h2]
  rw [h3]
  refine ⟨rfl, ?_⟩
  intro f hf
  obtain ⟨s, hs, rfl⟩ := List.mem_map.1 hf
  simp [rollback, hp s hs, hd s hs]

example : store ⟨[⟨true, false, true, true⟩, ⟨true, true, true, true⟩], false, false, true, true, false, true⟩ =
    (false, [.nothing, .nothing]) := rfl

/-- **C111 (safety).**  A file is stored only if the content was good, all of it was written, and its server agreed; and only through `commit`
of a temporary file that the server made. -/
theorem C111_stored (u : Upload) (i : Nat) (h : (store u).2[i]? = some .stored) :
    u.good = true ∧ (u.cached = true → u.flushed = true) ∧ ∃ s, u.srvs[i]? = some s ∧ s.post = true ∧ s.put = true := by
  have hpost : ∀ s, afterPost s ≠ .stored := by intro s; unfold afterPost; split <;> simp
  have hfs : ∀ g : Srv → Fate, (∀ s, g s ≠ .stored) → (u.srvs.map g)[i]? ≠ some .stored := by
    intro g hg e
    rw [List.getElem?_map] at e
    cases hs : u.srvs[i]? with
    | none => rw [hs] at e; cases e
    | some s => rw [hs] at e; simp at e; exact hg s e
  have hroll : ∀ s, rollback s ≠ .stored := by
    intro s; unfold rollback; split
    · split <;> simp
    · exact hpost s
  have hcommit : (u.srvs.map commit)[i]? = some .stored → ∃ s, u.srvs[i]? = some s ∧ s.post = true ∧ s.put = true := by
    intro e
    rw [List.getElem?_map] at e
    cases hs : u.srvs[i]? with
    | none => rw [hs] at e; cases e
    | some s =>
      rw [hs] at e
      have e : commit s = .stored := by simpa using e
      refine ⟨s, rfl, ?_⟩
      unfold commit at e
      cases hp : s.post with
      | false => rw [hp] at e; exact absurd e (by simpa using hpost s)
      | true =>
        rw [hp] at e
        cases hq : s.put with
        | false => rw [hq] at e; simp at e
        | true => exact ⟨rfl, rfl⟩
  unfold store openStream at h
  dsimp only at h
  split at h
  · exact absurd h (hfs _ hpost)
  · split at h
    · split at h
      · exact absurd h (hfs _ hroll)
      · exact absurd h (hfs _ hpost)
    · next hg =>
      split at h
      · next hf =>
        have hg' : u.good = true := by simpa using hg
        refine ⟨hg', ?_, ?_⟩
        · intro hc; unfold flush at hf; rw [hc] at hf; simpa using hf
        · split at h <;> exact hcommit h
      · exact absurd h (hfs _ hpost)

/-- **C111 (success).**  If `StoreObject` succeeds and no error of a wait was lost, every server has stored its shard. -/
theorem C111_success (u : Upload) (h : (store u).1 = true) (hc : u.commitLost = false) : ∀ f ∈ (store u).2, f = .stored := by
  unfold store openStream at h ⊢
  dsimp only at h ⊢
  split at h
  · cases h
  · next ho =>
    rw [if_neg ho]
    split at h
    · split at h <;> cases h
    · next hg =>
      rw [if_neg hg]
      split at h
      · next hf =>
        rw [if_pos hf]
        split at h
        · cases h
        · next ha =>
          rw [if_neg ha]
          intro f hf'
          obtain ⟨s, hs, rfl⟩ := List.mem_map.1 hf'
          rw [hc] at ha
          have ha : (u.srvs.any fun s => !(s.post && s.put)) = false := by simpa using ha
          have := (List.any_eq_false.1 ha) s hs
          have h2 : s.post = true ∧ s.put = true := by simpa using this
          simp [commit, h2.1, h2.2]
      · cases h

example : store ⟨[⟨true, false, true, true⟩, ⟨true, true, true, true⟩], false, true, true, true, false, true⟩ =
    (true, [.stored, .stored]) := rfl

/-- **C111 (a server refuses).**  If one server refuses the temporary file and the error is seen, `StoreObject` fails, and the temporary files
of all the others stay: nobody takes them back. -/
theorem C111_refused (u : Upload) (s : Srv) (hs : s ∈ u.srvs) (hp : s.post = false) (ho : u.openLost = false) :
    (store u).1 = false ∧ ∀ (i : Nat) (t : Srv), u.srvs[i]? = some t → t.post = true → (store u).2[i]? = some Fate.temp := by
  have h1 : (u.srvs.any fun s => !s.post) = true := by
    rw [List.any_eq_true]; exact ⟨s, hs, by simp [hp]⟩
  have h3 : store u = (false, u.srvs.map afterPost) := by simp [store, openStream, h1, ho]
  rw [h3]
  refine ⟨rfl, ?_⟩
  intro i t ht hpt
  show (u.srvs.map afterPost)[i]? = _
  rw [List.getElem?_map, ht]
  simp [afterPost, hpt]

example : store ⟨[⟨true, false, true, true⟩, ⟨false, false, true, true⟩], false, true, true, true, false, true⟩ =
    (false, [.temp, .nothing]) := rfl

/-- **C111 (the rest cannot be written).**  If the cached rest cannot be written, neither a commit nor a rollback is sent: every temporary file
stays. -/
theorem C111_unflushed (u : Upload) (hp : ∀ s ∈ u.srvs, s.post = true) (hc : u.cached = true) (hf : u.flushed = false) :
    (store u).1 = false ∧ (store u).2 = List.replicate u.srvs.length .temp := by
  have h1 : (u.srvs.any fun s => !s.post) = false := by
    rw [List.any_eq_false]; intro s hs; simp [hp s hs]
  have h2 : flush u = false := by simp [flush, hc, hf]
  have h3 : store u = (false, u.srvs.map afterPost) := by
    cases hg : u.good <;> simp [store, openStream, h1, hg, h2]
  rw [h3]
  refine ⟨rfl, ?_⟩
  rw [List.eq_replicate_iff]
  refine ⟨by simp, ?_⟩
  intro f hf
  obtain ⟨s, hs, rfl⟩ := List.mem_map.1 hf
  simp [afterPost, hp s hs]

example : store ⟨[⟨true, false, true, true⟩, ⟨true, false, true, true⟩], false, false, true, false, false, true⟩ =
    (false, [.temp, .temp]) := rfl

/-- **C111 (the metadata cannot be saved, or one commit fails).**  What has been stored stays stored for ever although `StoreObject` fails:
every server that agreed keeps its file. -/
theorem C111_orphans (u : Upload) (hp : ∀ s ∈ u.srvs, s.post = true) (hg : u.good = true) (hf : u.cached = false ∨ u.flushed = true)
    (hfail : u.meta_ = false ∨ (u.commitLost = false ∧ ∃ s ∈ u.srvs, s.put = false)) :
    (store u).1 = false ∧ ∀ (i : Nat) (t : Srv), u.srvs[i]? = some t → (store u).2[i]? = some (if t.put then Fate.stored else Fate.temp) := by
  have h1 : (u.srvs.any fun s => !s.post) = false := by
    rw [List.any_eq_false]; intro s hs; simp [hp s hs]
  have h2 : flush u = true := by unfold flush; rcases hf with h | h <;> simp [h]
  have h3 : store u = (false, u.srvs.map commit) := by
    simp only [store, openStream, h1, hg, h2, Bool.not_false, Bool.true_or, Bool.not_true, if_true, Bool.false_eq_true, if_false]
    rcases hfail with hm | ⟨hl, s, hs, hq⟩
    · rw [hm]; split <;> rfl
    · have : (u.srvs.any fun s => !(s.post && s.put)) = true := by
        rw [List.any_eq_true]; exact ⟨s, hs, by simp [hq]⟩
      rw [this, hl]; rfl
  rw [h3]
  refine ⟨rfl, ?_⟩
  intro i t ht
  have hmem : t ∈ u.srvs := List.mem_of_getElem? ht
  show (u.srvs.map commit)[i]? = _
  rw [List.getElem?_map, ht]
  simp [commit, hp t hmem]

example : store ⟨[⟨true, false, true, true⟩, ⟨true, false, false, true⟩], false, true, false, false, false, true⟩ =
    (false, [.stored, .temp]) := rfl

/-- **C111 (refuted).** -/
theorem C111_statement_fails : ¬ C111_statement := by
  intro h
  have := h ⟨[⟨true, false, true, true⟩], false, true, false, false, false, false⟩ rfl .stored (by simp [store, openStream, flush, commit])
  cases this

/-- **C111 (a lost error).**  With the lost error of C54 an upload succeeds although a server has no shard. -/
theorem C111_lost_error : ∃ u : Upload, (store u).1 = true ∧ .temp ∈ (store u).2 :=
  ⟨⟨[⟨true, false, true, true⟩, ⟨true, false, false, true⟩], false, true, false, false, true, true⟩, rfl, by decide⟩

/-- **C111 (a lost refusal).**  With the lost error of C54 an upload goes on although a server has refused it: the content is still verified
and the others commit; the upload fails unless that error is lost as well. -/
theorem C111_lost_refusal (u : Upload) (s : Srv) (hs : s ∈ u.srvs) (hp : s.post = false) (ho : u.openLost = true) (hg : u.good = true)
    (hf : u.cached = false ∨ u.flushed = true) :
    (store u).1 = (u.commitLost && u.meta_) ∧
      ∀ (i : Nat) (t : Srv), u.srvs[i]? = some t → t.post = true → t.put = true → (store u).2[i]? = some Fate.stored := by
  have h2 : flush u = true := by unfold flush; rcases hf with h | h <;> simp [h]
  have h4 : (u.srvs.any fun s => !(s.post && s.put)) = true := by
    rw [List.any_eq_true]; exact ⟨s, hs, by simp [hp]⟩
  have h3 : store u = (u.commitLost && u.meta_, u.srvs.map commit) := by
    simp only [store, openStream, ho, hg, h2, h4]
    cases u.commitLost <;> cases (!(u.srvs.any fun s => !s.post)) <;> rfl
  rw [h3]
  refine ⟨rfl, ?_⟩
  intro i t ht hpt hqt
  show (u.srvs.map commit)[i]? = _
  rw [List.getElem?_map, ht]
  simp [commit, hpt, hqt]

example : store ⟨[⟨true, false, true, true⟩, ⟨false, false, true, true⟩], true, true, false, false, true, true⟩ =
    (true, [.stored, .nothing]) := rfl

/-! ## Waiting -/

theorem wait_inv {n : Nat} {w : Wait} (h : WReach n w) :
    (w.main = .gotNil ↔ w.helper = .ended) ∧ (w.helper ≠ .inWait → w.tasks = 0) ∧ (w.main = .gotErr → w.err = true) := by
  induction h with
  | start => simp
  | step _ hs ih => cases hs <;> grind

/-- **C111 (waiting).**  When nothing more happens, all tasks have ended and `WaitUntilError` has returned; its helper has ended if nil was
returned, and hangs for ever at its message if an error was. -/
theorem C111_wait {n : Nat} {w : Wait} (h : WReach n w) (hs : Stuck WStep w) :
    w.tasks = 0 ∧ ((w.main = .gotNil ∧ w.helper = .ended) ∨ (w.main = .gotErr ∧ w.helper = .atSend)) := by
  have hi := wait_inv h
  have ht : w.tasks = 0 := by
    cases ht : w.tasks with
    | zero => rfl
    | succ k => exact absurd (WStep.fine w k ht) (hs _)
  have hh : w.helper ≠ .inWait := fun e => hs _ (WStep.waited w ht e)
  refine ⟨ht, ?_⟩
  cases hm : w.main with
  | selecting =>
    cases hp : w.helper with
    | inWait => exact absurd hp hh
    | atSend => exact absurd (WStep.nil w hm hp) (hs _)
    | ended => have := hi.1.2 hp; rw [this] at hm; cases hm
  | gotNil => exact Or.inl ⟨rfl, hi.1.1 hm⟩
  | gotErr =>
    refine Or.inr ⟨rfl, ?_⟩
    cases hp : w.helper with
    | inWait => exact absurd hp hh
    | atSend => rfl
    | ended => have := hi.1.2 hp; rw [this] at hm; cases hm

/-- Waiting always comes to an end: every step brings it nearer. -/
def Wait.left (w : Wait) : Nat :=
  3 * w.tasks + (if w.err then 0 else 1) + (match w.helper with | .inWait => 2 | .atSend => 1 | .ended => 0) +
    (match w.main with | .selecting => 1 | _ => 0)

/-- **C111 (waiting ends).** -/
theorem C111_wait_ends {w w' : Wait} (hs : WStep w w') : w'.left < w.left := by
  cases hs <;> simp [Wait.left, *] <;> grind

/-- Both outcomes occur. -/
theorem C111_wait_leaks : ∃ w, WReach 1 w ∧ Stuck WStep w ∧ w.main = .gotErr ∧ w.helper = .atSend := by
  have h0 : WReach 1 ⟨1, false, .inWait, .selecting⟩ := .start
  have h1 : WReach 1 ⟨0, true, .inWait, .selecting⟩ := .step h0 (WStep.fails _ 0 rfl)
  have h2 : WReach 1 ⟨0, true, .inWait, .gotErr⟩ := .step h1 (WStep.err _ rfl rfl)
  have h3 : WReach 1 ⟨0, true, .atSend, .gotErr⟩ := .step h2 (WStep.waited _ rfl rfl)
  refine ⟨_, h3, ?_, rfl, rfl⟩
  intro w' hs
  cases hs <;> simp_all

/-! ## Opening a download -/

/-- A lost shard for which no replacement can begin. -/
def fatal (x : Shard) : Bool := x.lost && !x.post

theorem open_inv {all : List Shard} {s : Open} (h : OReach all s) :
    (s.senders ++ s.buf.toList ++ s.taken).Perm all ∧
    (s.looping = true → ∀ x ∈ s.taken, fatal x = false) ∧
    (s.looping = false → ∃ xs x, s.taken = xs ++ [x] ∧ fatal x = true ∧ ∀ y ∈ xs, fatal y = false) ∧
    s.uploads = s.taken.countP (fun x => x.lost && x.post) := by
  induction h with
  | start => exact ⟨by simp, by intro _ x hx; simp at hx, by intro h; simp at h, rfl⟩
  | @step s s' _ hs ih =>
    obtain ⟨h1, h2, h3, h4⟩ := ih
    have hmove : ∀ x, s.buf = some x → (s.senders ++ (none : Option Shard).toList ++ (s.taken ++ [x])).Perm all := by
      intro x hx
      refine List.Perm.trans ?_ h1
      rw [hx]
      simp only [Option.toList_none, Option.toList_some, List.append_nil, List.append_assoc]
      exact List.Perm.append_left _ List.perm_append_comm
    cases hs with
    | send xs ys x h hb =>
      refine ⟨?_, h2, h3, h4⟩
      refine List.Perm.trans ?_ h1
      rw [h, hb]
      simp only [Option.toList_none, Option.toList_some, List.append_nil]
      refine List.Perm.append_right _ ?_
      rw [List.append_assoc]
      exact List.Perm.append_left _ List.perm_append_comm
    | found x hl hb hx =>
      refine ⟨hmove x hb, ?_, ?_, ?_⟩
      · intro _ y hy
        rcases List.mem_append.1 hy with h | h
        · exact h2 hl y h
        · simp at h; subst h; simp [fatal, hx]
      · intro h; exact absurd hl (by have h' : s.looping = false := h; rw [h']; simp)
      · show s.uploads = _
        rw [List.countP_append, h4]; simp [hx]
    | replaced x hl hb hx hp =>
      refine ⟨hmove x hb, ?_, ?_, ?_⟩
      · intro _ y hy
        rcases List.mem_append.1 hy with h | h
        · exact h2 hl y h
        · simp at h; subst h; simp [fatal, hp]
      · intro h; exact absurd hl (by have h' : s.looping = false := h; rw [h']; simp)
      · show s.uploads + 1 = _
        rw [List.countP_append, h4]; simp [hx, hp]
    | failed x hl hb hx hp =>
      refine ⟨hmove x hb, ?_, ?_, ?_⟩
      · intro h; cases h
      · intro _; exact ⟨s.taken, x, rfl, by simp [fatal, hx, hp], h2 hl⟩
      · show s.uploads = _
        rw [List.countP_append, h4]; simp [hx, hp]

/-- A download that cannot be opened leaves no goroutine and no upload. -/
def C111_open_statement : Prop :=
  ∀ (all : List Shard) (s : Open), OReach all s → Stuck OStep s → s.looping = false → s.senders = [] ∧ s.uploads = 0

/-- **C111 (opening, partial).**  If a replacement can begin for every lost shard, every goroutine ends and every shard is taken: it is read
or replaced.  Missing: the case that fails; see `C111_open_stuck`. -/
theorem C111_open_partial {all : List Shard} {s : Open} (h : OReach all s) (hs : Stuck OStep s) (hn : ∀ x ∈ all, fatal x = false) :
    s.looping = true ∧ s.senders = [] ∧ s.buf = none ∧ s.taken.Perm all ∧
      s.uploads = all.countP (fun x => x.lost && x.post) := by
  obtain ⟨h1, h2, h3, h4⟩ := open_inv h
  have hl : s.looping = true := by
    cases hl : s.looping with
    | true => rfl
    | false =>
      obtain ⟨xs, x, e, hx, _⟩ := h3 hl
      have : x ∈ all := h1.subset (by rw [e]; simp)
      rw [hn x this] at hx; cases hx
  have hb : s.buf = none := by
    cases hb : s.buf with
    | none => rfl
    | some x =>
      exfalso
      cases hx : x.lost with
      | false => exact hs _ (OStep.found s x hl hb hx)
      | true =>
        cases hp : x.post with
        | true => exact hs _ (OStep.replaced s x hl hb hx hp)
        | false => exact hs _ (OStep.failed s x hl hb hx hp)
  have hse : s.senders = [] := by
    cases hse : s.senders with
    | nil => rfl
    | cons x xs => exact absurd (OStep.send s [] xs x hse hb) (hs _)
  have hperm : s.taken.Perm all := by rw [hse, hb] at h1; simpa using h1
  refine ⟨hl, hse, hb, hperm, ?_⟩
  rw [h4]; exact hperm.countP_eq _

example : ∃ s, OReach [⟨true, true⟩] s ∧ Stuck OStep s ∧ s.uploads = 1 := by
  have r0 : OReach [⟨true, true⟩] ⟨[⟨true, true⟩], none, [], true, 0⟩ := .start
  have r1 : OReach [⟨true, true⟩] ⟨[], some ⟨true, true⟩, [], true, 0⟩ := .step r0 (OStep.send _ [] [] ⟨true, true⟩ rfl rfl)
  have r2 : OReach [⟨true, true⟩] ⟨[], none, [⟨true, true⟩], true, 1⟩ := .step r1 (OStep.replaced _ ⟨true, true⟩ rfl rfl rfl rfl)
  exact ⟨_, r2, (by intro s' hs; cases hs <;> simp_all), rfl⟩

/-- **C111 (opening, exactly).**  If `NewRSGetStream` returns an error after it has taken some shards, one more result stays in the channel and
every other goroutine hangs for ever at its message; and no upload that was begun is committed or taken back. -/
theorem C111_open_stuck {all : List Shard} {s : Open} (h : OReach all s) (hs : Stuck OStep s) (hl : s.looping = false) :
    s.senders.length = all.length - s.taken.length - 1 ∧ s.taken.length ≤ all.length ∧
      s.uploads = s.taken.countP (fun x => x.lost && x.post) ∧ ∃ x ∈ s.taken, fatal x = true := by
  obtain ⟨h1, h2, h3, h4⟩ := open_inv h
  have hlen := h1.length_eq
  simp only [List.length_append] at hlen
  obtain ⟨xs, x, e, hx, _⟩ := h3 hl
  refine ⟨?_, by omega, h4, x, by rw [e]; simp, hx⟩
  cases hb : s.buf with
  | some y => rw [hb] at hlen; simp at hlen; omega
  | none =>
    cases hse : s.senders with
    | nil => rw [hb, hse] at hlen; simp at hlen; simp; omega
    | cons y ys => exact absurd (OStep.send s [] ys y hse hb) (hs _)

/-- Opening always comes to an end. -/
def Open.left (s : Open) : Nat := 2 * s.senders.length + s.buf.toList.length

/-- **C111 (opening ends).** -/
theorem C111_open_ends {s s' : Open} (hs : OStep s s') : s'.left < s.left := by
  cases hs <;> simp [Open.left, *] <;> omega

/-- **C111 (opening, refuted).**  Four shards, of which the first two are lost; for the first a replacement begins, for the second none can:
an upload stays, and a goroutine. -/
theorem C111_open_fails : ¬ C111_open_statement := by
  intro h
  let a : Shard := ⟨true, true⟩
  let b : Shard := ⟨true, false⟩
  let c : Shard := ⟨false, true⟩
  have r0 : OReach [a, b, c, c] ⟨[a, b, c, c], none, [], true, 0⟩ := .start
  have r1 : OReach [a, b, c, c] ⟨[b, c, c], some a, [], true, 0⟩ := .step r0 (OStep.send _ [] [b, c, c] a rfl rfl)
  have r2 : OReach [a, b, c, c] ⟨[b, c, c], none, [a], true, 1⟩ := .step r1 (OStep.replaced _ a rfl rfl rfl rfl)
  have r3 : OReach [a, b, c, c] ⟨[c, c], some b, [a], true, 1⟩ := .step r2 (OStep.send _ [] [c, c] b rfl rfl)
  have r4 : OReach [a, b, c, c] ⟨[c, c], none, [a, b], false, 1⟩ := .step r3 (OStep.failed _ b rfl rfl rfl rfl)
  have r5 : OReach [a, b, c, c] ⟨[c], some c, [a, b], false, 1⟩ := .step r4 (OStep.send _ [] [c] c rfl rfl)
  have := h _ _ r5 (by intro s' hs; cases hs <;> simp_all) rfl
  exact absurd this.2 (by decide)

/-- **C111 (goroutines without bound).**  With `n + 2` shards, all there but one that cannot be replaced and is taken first, `n` goroutines
hang. -/
theorem C111_open_hang (n : Nat) : ∃ all s, all.length = n + 2 ∧ OReach all s ∧ Stuck OStep s ∧ s.senders.length = n := by
  let b : Shard := ⟨true, false⟩
  let c : Shard := ⟨false, true⟩
  let cs := List.replicate n c
  have r0 : OReach (b :: c :: cs) ⟨b :: c :: cs, none, [], true, 0⟩ := .start
  have r1 : OReach (b :: c :: cs) ⟨c :: cs, some b, [], true, 0⟩ := .step r0 (OStep.send _ [] (c :: cs) b rfl rfl)
  have r2 : OReach (b :: c :: cs) ⟨c :: cs, none, [b], false, 0⟩ := .step r1 (OStep.failed _ b rfl rfl rfl rfl)
  have r3 : OReach (b :: c :: cs) ⟨cs, some c, [b], false, 0⟩ := .step r2 (OStep.send _ [] cs c rfl rfl)
  refine ⟨_, _, by simp [cs], r3, ?_, by simp [cs]⟩
  intro s' hs
  cases hs <;> simp_all

end Verif.Remains
