import Verif.Meta.MovingWrites

/-!
# Reads while slots move to another metadata server (C143)

Continues `Meta/MovingWrites`: `GetMetadata` and `GetVersion` (src/metaserver/internal/controller/grpc/metadata_server.go:72-98) behind `CheckKeySlot`
(controller/grpc/middleware.go:101-118).  A read is refused, with the address of the other server, if the table of slots that the server has names another
one or none; the status is not looked at.  Simplified: check and read are one step.
-/

namespace Verif.MovingWrites

/-! ## Model -/

/-- `CheckKeySlot` and the handler, middleware.go:112-117, metadata_server.go:72-98, hashslot_logic.go:14-21.  What a server answers: `none` is a refusal that names another server, `some none` is "not found". -/
def read (s : St) : Side → Option Obj
  | .src => if s.srcView = some .src then some s.src else none
  | .dst => if s.dstView = some .dst then some s.dst else none

/-! ## Specification -/

/-- Whatever is answered has every write that was acknowledged. -/
def Current (s : St) : Prop := ∀ i x, read s i = some x → ∀ o ∈ s.acked, Has x o

/-- **C143** -/
def ReadStatement : Prop := ∀ es, Current (run false {} es)

/-! ## Theorems -/

/-- The target is named only after it has recorded its slots. -/
structure Named (s : St) : Prop where
  owner : s.owner = some .dst → s.phase = .done
  dst : s.dstView = some .dst → s.phase = .done
  src : s.srcView = some .dst → s.phase = .done

theorem named_step (fixed : Bool) {s : St} (h : Named s) (e : Ev) : Named (step fixed s e) := by
  have h0 := h
  obtain ⟨h1, h2, h3⟩ := h
  cases e <;> unfold step <;> dsimp only <;> (repeat' split) <;> first | exact h0 | (constructor <;> grind)

theorem named_run (fixed : Bool) (es : List Ev) : ∀ s, Named s → Named (run fixed s es) := by
  induction es with
  | nil => intro s h; exact h
  | cons e es ih => intro s h; exact ih _ (named_step fixed h e)

theorem named_init : Named {} := ⟨nofun, nofun, nofun⟩

/-- **C143, partial** The target answers only once the migration is done, and then with every write that was acknowledged, if those that C142 is about are
left out. -/
theorem C143_target_partial (es : List Ev) (hc : AllCareful {} es) (x : Obj) (h : read (run false {} es) .dst = some x) :
    (run false {} es).phase = .done ∧ ∀ o ∈ (run false {} es).acked, Has x o := by
  unfold read at h
  dsimp only at h
  split at h
  · rename_i hv
    have hd := (named_run false es _ named_init).dst hv
    cases h
    exact ⟨hd, C142_careful_partial es hc hd⟩
  · cases h

/-- **C143, partial** Until the versions have been sent the source answers with every write that was acknowledged, whatever else happens. -/
theorem C143_source_partial (es : List Ev) (hc : AllCareful {} es) (hp : (run false {} es).phase.over = false) (x : Obj)
    (h : read (run false {} es) .src = some x) : ∀ o ∈ (run false {} es).acked, Has x o := by
  unfold read at h
  dsimp only at h
  split at h
  · cases h
    exact (inv_run es _ inv_init hc).before hp
  · cases h

/-- An object with one version moves; nothing else happens. -/
def stored : List Ev := [.checkS .make, .applyS 0, .checkS (.ver 1), .applyS 0]

/-- **C143** From the removal on the source answers "not found", although the table names it, no other server answers, and the object is there: during the
rest of the transfer, and after the end until it has read the table again. -/
theorem C143_not_found : ∀ k ∈ [5, 6, 7, 8, 9], let s := run false {} (stored ++ move.take k)
    read s .src = some none ∧ read s .dst = none ∧ s.dst = some [1] ∧ s.acked = [.make, .ver 1] := by decide

theorem C143_table : let s := run false {} (stored ++ move.take 5)
    s.owner = some .src ∧ read s .src = some none := by decide

/-- **C143** A target that has not yet read the table refuses, and so does a source that has: each names the other, or nobody. -/
theorem C143_nobody : let s := run false {} (stored ++ move ++ [.refreshS])
    read s .src = none ∧ read s .dst = none ∧ s.owner = some .dst := by decide

theorem C143_statement_fails : ¬ ReadStatement := by
  intro h
  have := h (stored ++ move.take 5) .src none C143_table.2 .make (by decide)
  cases this

/-- Careful executions do not help: the one above is careful. -/
theorem C143_careful_fails : AllCareful {} (stored ++ move.take 5) ∧ ¬ Current (run false {} (stored ++ move.take 5)) := by
  constructor
  · simp [AllCareful, stored, move, Careful, step, Op.apply]
  · intro h
    have := h .src none C143_table.2 .make (by decide)
    cases this

/-- **C143** After both have read the table the new owner, and nobody else, answers. -/
theorem C143_after (es : List Ev) (h : (run false {} es).owner = some .dst) :
    read (run false {} (es ++ [.refreshS, .refreshD])) .src = none ∧
      read (run false {} (es ++ [.refreshS, .refreshD])) .dst = some (run false {} es).dst := by
  unfold run at *
  rw [List.foldl_append]
  simp [step, read, h]

/-- The source has everything until it has given its slot away. -/
structure Holds (s : St) : Prop where
  src : s.phase = .sent → ∀ o ∈ s.acked, Has s.src o
  named : s.phase.over = true → s.phase ≠ .sent → s.srcView ≠ some .src
  pend : s.phase ≠ .done → s.pendD = []

theorem holds_step {s : St} (hi : Inv s) (hs : Safe s) (hn : Named s) (h : Holds s) (e : Ev) : Holds (step true s e) := by
  have h0 := h
  obtain ⟨h1, h2, h3⟩ := h
  obtain ⟨s1, s2, s3⟩ := hs
  obtain ⟨n1, n2, n3⟩ := hn
  have hq := hi.quiet
  have hd := hi.before
  cases e with
  | refreshS =>
    unfold step
    refine ⟨h1, ?_, h3⟩
    intro ho hh
    dsimp only at ho hh ⊢
    have : s.phase = .saved ∨ s.phase = .closed ∨ s.phase = .done := by
      cases hp : s.phase <;> simp_all [Phase.over]
    exact (s2 this).1
  | applyS k =>
    unfold step
    dsimp only
    split
    · exact h0
    · rename_i o ho
      have hm := List.mem_of_getElem? ho
      have hp : s.phase = .idle := by
        by_cases hp : s.phase = .idle
        · exact hp
        · rw [hq hp] at hm; cases hm
      split <;> constructor <;> grind [Phase.over]
  | applyD k =>
    unfold step
    dsimp only
    split
    · exact h0
    · rename_i o ho
      have hm := List.mem_of_getElem? ho
      have hp : s.phase = .done := by
        by_cases hp : s.phase = .done
        · exact hp
        · rw [h3 hp] at hm; cases hm
      split <;> constructor <;> grind [Phase.over]
  | _ =>
    unfold step
    dsimp only
    (repeat' split) <;> first | exact h0 | (constructor <;> grind [Phase.over])

/-- **C143, repaired** The source that C142 asks for, which removes objects after it has recorded its slots and taken over the new table: whatever any of the
two servers answers has every write that was acknowledged, for any order of the steps. -/
theorem C143_repair (es : List Ev) : Current (run true {} es) := by
  have key : ∀ (es : List Ev) (s : St), Inv s → Safe s → Named s → Holds s →
      Inv (run true s es) ∧ Named (run true s es) ∧ Holds (run true s es) := by
    intro es
    induction es with
    | nil => intro s h _ hn hh; exact ⟨h, hn, hh⟩
    | cons e es ih =>
      intro s h hs hn hh
      refine ih (step true s e) ?_ (safe_step hs e) (named_step true hn e) (holds_step h hs hn hh e)
      rcases fixed_careful hs e with h' | h'
      · rw [h']; exact h
      · exact inv_step true h e h'
  obtain ⟨hi, hn, hh⟩ := key es {} inv_init ⟨by simp, by simp, by simp⟩ named_init ⟨by simp, by simp [Phase.over], by simp⟩
  intro i x hx
  cases i with
  | src =>
    unfold read at hx
    dsimp only at hx
    split at hx
    · rename_i hv
      cases hx
      cases hp : (run true {} es).phase.over
      · exact hi.before hp
      · by_cases hs : (run true {} es).phase = .sent
        · exact hh.src hs
        · exact absurd hv (hh.named hp hs)
    · cases hx
  | dst =>
    unfold read at hx
    dsimp only at hx
    split at hx
    · rename_i hv
      cases hx
      exact hi.after (by rw [hn.dst hv]; rfl)
    · cases hx

/-! ## Non-vacuity -/

/-- Before the removal, and after it with a table that is new. -/
example : AllCareful {} (stored ++ move.take 3) ∧ read (run false {} (stored ++ move.take 3)) .src = some (some [1]) := by
  constructor
  · simp [AllCareful, stored, move, Careful, step, Op.apply]
  · decide

example : read (run false {} carefulRun) .dst = some (some [1, 4]) ∧ (run false {} carefulRun).acked = [.make, .ver 1, .ver 4] := by decide

example : (run false {} (stored ++ move)).owner = some .dst := by decide

/-- The repaired source answers until it gives its slot away, then the target. -/
example : read (run true {} (stored ++ [.ready, .list, .sendMeta, .sendVers, .remove])) .src = some (some [1]) ∧
    read (run true {} (stored ++ [.ready, .list, .sendMeta, .sendVers, .save, .remove, .close, .saveDst, .refreshD])) .src = none ∧
    read (run true {} (stored ++ [.ready, .list, .sendMeta, .sendVers, .save, .remove, .close, .saveDst, .refreshD])) .dst = some (some [1]) := by
  decide

end Verif.MovingWrites
