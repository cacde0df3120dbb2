import Verif.System.Props

/-!
# C134: the space of contents that no version refers to

The API servers register no route that deletes an object (apiserver/internal/controller/http/objects_api.go:24-25,
big_api.go, bucket_api.go:19-22).  Removing versions - one of them (`RemoveVersion`, metadata_service.go:120), those
that a bucket does not keep (`AddVersion`), or all with their object (`RemoveMetadata`, line 108) - is done by the
metadata servers alone, which call no data server.  A data server deletes a shard on `DELETE /objects/:name`
(objectserver/internal/controller/http/router.go:27), a request that no server of the system sends (the only DELETE
requests of apiserver/internal/usecase/webapi are for buckets, bucket_api.go:65, and temp files,
object_server.go:16), and after handing it to another server (migration_service.go:223, C79).  The steps of
`Verif.System.Model` are therefore all there is without migration, and the claims below are about its executions.
-/

namespace Verif.System

/-! ## Specification -/

/-- A version says that a server holds a file. -/
def Referenced (s : Sys) (a f : Str) : Prop :=
  ∃ k n mv i, Meta.getVer s.store k n = .ok mv ∧ serverOf mv i = a ∧ f = fname mv.hash i

/-- No upload is under way. -/
def Quiet (s : Sys) : Prop := ∀ p, s.phase p = .idle ∨ (∃ n, s.phase p = .ok n) ∨ s.phase p = .failed

/-- No version exists. -/
def NoVersions (s : Sys) : Prop := ∀ k n mv, Meta.getVer s.store k n ≠ .ok mv

/-- The full claim: when no upload is under way, data servers hold only files that versions refer to. -/
def SpaceStatement : Prop :=
  ∀ (P : Params) (reqs : Nat → Req) (es : List Ev) (s : Sys) (sp : Spec), Run P reqs es s sp → Quiet s →
    ∀ a f, (s.files a f).isSome = true → Referenced s a f

/-! ## Model of a collector, for the claims about a repair -/

/-- A collector that deletes the files of `gone`.  The code has none. -/
def collect (s : Sys) (gone : Str → Str → Bool) : Sys :=
  { s with files := fun a f => if gone a f then none else s.files a f }

/-! ## Lemmas -/

theorem step_files {P : Params} {reqs : Nat → Req} {s s' : Sys} {e : Ev} (h : Step P reqs s e s')
    {a f : Str} {ps : List Bytes} (hf : s.files a f = some ps) : s'.files a f = some ps := by
  cases e with
  | prepare p => obtain ⟨_, _, _, _, _, _, rfl⟩ := h; exact hf
  | locate p evs => obtain ⟨_, _, _, _, _, _, _, rfl⟩ := h; exact hf
  | send p ds env => obtain ⟨_, _, _, _, _, _, _, _, _, _, rfl⟩ := h; exact hf
  | commit p i r =>
    obtain ⟨v, ds, temps, srv, t, _, _, _, _, _, rfl⟩ := h
    dsimp only
    split
    · by_cases ha : a = srv
      · subst ha
        rw [upd_same]
        by_cases hn : f = fname v.hash i
        · subst hn; rw [upd_same, hf]; rfl
        · rw [upd_ne _ _ hn]; exact hf
      · rw [upd_ne _ _ ha]; exact hf
    · exact hf
  | finish p sees => obtain ⟨_, _, _, _, _, _, _, rfl⟩ := h; exact hf
  | fail p => cases h; exact hf
  | add p uid ts answered => obtain ⟨_, _, _, _, _, rfl⟩ := h; exact hf
  | other op => obtain ⟨_, rfl⟩ := h; exact hf

theorem step_inv {P : Params} {reqs : Nat → Req} {s s' : Sys} {e : Ev} (h : Step P reqs s e s')
    (hi : Meta.Inv s.store) : Meta.Inv s'.store := by
  cases e with
  | prepare p => obtain ⟨_, _, _, _, _, _, rfl⟩ := h; exact hi
  | locate p evs => obtain ⟨_, _, _, _, _, _, _, rfl⟩ := h; exact hi
  | send p ds env => obtain ⟨_, _, _, _, _, _, _, _, _, _, rfl⟩ := h; exact hi
  | commit p i r => obtain ⟨_, _, _, _, _, _, _, _, _, _, rfl⟩ := h; exact hi
  | finish p sees => obtain ⟨_, _, _, _, _, _, _, rfl⟩ := h; exact hi
  | fail p => cases h; exact hi
  | add p uid ts answered =>
    obtain ⟨op, q, st, _, h2, rfl⟩ := h
    have := Meta.inv_step hi op
    rw [h2] at this
    exact this
  | other op => obtain ⟨_, rfl⟩ := h; exact Meta.inv_step hi op

theorem run_inv {P : Params} {reqs : Nat → Req} {es : List Ev} {s : Sys} {sp : Spec} (h : Run P reqs es s sp) :
    Meta.Inv s.store := by
  induction h with
  | nil => exact Meta.inv_empty
  | snoc _ hst ih => exact step_inv hst ih

theorem noVersions_of {s : Sys} (h : ∀ k, s.store.vers.get k = none) : NoVersions s := by
  intro k n mv hv
  unfold Meta.getVer at hv
  rw [h k] at hv
  cases hv

/-- Removing objects one after the other. -/
theorem remove_all {P : Params} {reqs : Nat → Req} (ks : List Str) (s : Sys) (sp : Spec)
    (hi : Meta.Inv s.store) (hk : ∀ k, s.store.vers.get k ≠ none → k ∈ ks) :
    ∃ s' sp', Steps P reqs s sp (ks.map fun k => .other (.removeMeta k)) s' sp' ∧ s'.files = s.files ∧
      s'.phase = s.phase ∧ ∀ k, s'.store.vers.get k = none := by
  induction ks generalizing s sp with
  | nil =>
    refine ⟨s, sp, .nil, rfl, rfl, fun k => ?_⟩
    cases h : s.store.vers.get k with
    | none => rfl
    | some b => exact absurd (hk k (by rw [h]; simp)) (by simp)
  | cons k ks ih =>
    obtain ⟨st, hst⟩ := Meta.removeMeta_never_fails k s.store
    have hstep : (Meta.step s.store (.removeMeta k)).2 = st := by simp [Meta.step, Meta.update, hst]
    have hgone : ∀ k', st.vers.get k' = if k' = k then none else s.store.vers.get k' := by
      intro k'
      rcases Meta.removeMeta_ok hst with ⟨h1, rfl⟩ | ⟨_, rfl⟩
      · have := hi.dom k
        rw [h1] at this
        by_cases he : k' = k
        · subst he
          cases hv : s.store.vers.get k' with
          | none => simp
          | some b => rw [hv] at this; simp at this
        · simp [he]
      · simp [KMap.get_del]
    obtain ⟨s', sp', h1, h2, h3, h4⟩ := ih { s with store := (Meta.step s.store (.removeMeta k)).2 }
      (specNext reqs s (.other (.removeMeta k)) { s with store := (Meta.step s.store (.removeMeta k)).2 } sp)
      (Meta.inv_step hi _) (by
        intro k' hk'
        dsimp only at hk'
        rw [hstep, hgone] at hk'
        split at hk'
        · exact absurd rfl hk'
        · have := hk k' hk'
          simp only [List.mem_cons] at this
          grind)
    exact ⟨s', sp', .cons ⟨rfl, rfl⟩ h1, h2, h3, h4⟩

/-! ## C134 -/

/-- **C134** (what holds, and why space is not given back) Once a data server has a file, it has it with the same
bytes after every further step: later uploads, commits, removals of versions and objects, and the retention of
buckets. -/
theorem C134_never_freed_partial {P : Params} {reqs : Nat → Req} {s s' : Sys} {sp sp' : Spec} {es : List Ev}
    (h : Steps P reqs s sp es s' sp') {a f : Str} {ps : List Bytes} (hf : s.files a f = some ps) :
    s'.files a f = some ps := by
  induction h with
  | nil => exact hf
  | cons hst _ ih => exact ih (step_files hst hf)

/-- **C134** From every state the removal of all objects leads to a state in which no version exists, while the
data servers hold exactly the files that they held before. -/
theorem C134_all_removed {P : Params} {reqs : Nat → Req} {es : List Ev} {s : Sys} {sp : Spec}
    (h : Run P reqs es s sp) :
    ∃ (ks : List Str) (s' : Sys) (sp' : Spec), Run P reqs (es ++ ks.map fun k => .other (.removeMeta k)) s' sp' ∧ NoVersions s' ∧
      s'.files = s.files ∧ s'.phase = s.phase := by
  have hi := run_inv h
  obtain ⟨s', sp', h1, h2, h3, h4⟩ := remove_all (P := P) (reqs := reqs) s.store.vers.keys s sp hi
    (fun k hk => by
      cases hv : s.store.vers.get k with
      | none => exact absurd hv hk
      | some b => exact (KMap.mem_keys_iff _ _).2 (by rw [hv]; rfl))
  exact ⟨_, s', sp', run_steps h h1, noVersions_of h4, h2, h3⟩

/-- The files that a version of the sample run refers to are there before the removal: `C134_all_removed` is about
files that exist. -/
example : ((exEnd.1.files ['s'] ['h', '.', '0']).isSome && (exEnd.1.files ['t'] ['g', '.', '1']).isSome) = true := by
  rfl

theorem ex_quiet : Quiet exEnd.1 := by
  intro p
  rcases p with _ | _ | _ | _ | p
  · exact .inr (.inl ⟨_, rfl⟩)
  · exact .inr (.inl ⟨_, rfl⟩)
  · exact .inr (.inl ⟨_, rfl⟩)
  · exact .inr (.inr rfl)
  · exact .inl rfl

/-- **C134** The full claim fails. -/
theorem C134_statement_fails : ¬ SpaceStatement := by
  intro h
  obtain ⟨ks, s', sp', h1, h2, h3, h4⟩ := C134_all_removed ex_run
  have hq : Quiet s' := by
    intro p
    rw [h4]
    exact ex_quiet p
  obtain ⟨k, n, mv, i, hv, _⟩ := h _ _ _ s' sp' h1 hq ['s'] ['h', '.', '0'] (by rw [h3]; rfl)
  exact h2 k n mv hv

/-- **C134** (repair) A collector that deletes every file that no version refers to leaves only files that versions refer to, and all of
those, as they were. -/
theorem C134_collected {s : Sys} {gone : Str → Str → Bool} (hg : ∀ a f, gone a f = true ↔ ¬ Referenced s a f) (a f : Str) :
    (((collect s gone).files a f).isSome = true → Referenced (collect s gone) a f) ∧
    (Referenced s a f → (collect s gone).files a f = s.files a f) := by
  have hr : Referenced (collect s gone) a f ↔ Referenced s a f := Iff.rfl
  rw [hr]
  unfold collect
  dsimp only
  constructor
  · intro h
    by_cases hn : Referenced s a f
    · exact hn
    · rw [if_pos ((hg a f).2 hn)] at h
      cases h
  · intro h
    rw [if_neg]
    intro h'
    exact (hg a f).1 h' h

/-- **C134** (repair) Deleting files that no version refers to changes the answer of no GET, whatever servers
answer, whatever the client reads, and whichever version it asks for. -/
theorem C134_repair {P : Params} {s : Sys} {gone : Str → Str → Bool}
    (hg : ∀ a f, gone a f = true → ¬ Referenced s a f) (up : Str → Bool) (lost pick : Nat → Nat)
    (reads : List (Nat × (Nat → Bool))) (key : Str) (n : Nat) :
    getObject P (collect s gone) up lost pick reads key n = getObject P s up lost pick reads key n := by
  have hfiles : ∀ mv i, Meta.getVer s.store key n = .ok mv →
      (collect s gone).files (serverOf mv i) (fname mv.hash i) = s.files (serverOf mv i) (fname mv.hash i) := by
    intro mv i hmv
    unfold collect
    dsimp only
    rw [if_neg]
    intro h
    exact hg _ _ h ⟨key, n, mv, i, hmv, rfl, rfl⟩
  unfold getObject
  change (match Meta.getVer s.store key n with | .error _ => _ | .ok mv => _) = _
  cases hv : Meta.getVer s.store key n with
  | error e => rfl
  | ok mv =>
    have hs : ∀ size i, shardAt P (collect s gone) up lost mv size i = shardAt P s up lost mv size i := by
      intro size i
      unfold shardAt
      rw [hfiles mv i hv]
    have hs' : ∀ size, shardAt P (collect s gone) up lost mv size = shardAt P s up lost mv size :=
      fun size => funext (hs size)
    simp only [hfiles mv _ hv, hs']

/-- The sample run up to the moment at which upload 1 has found the content that upload 0 committed. -/
def exMid : List Ev := exEvs.take 14

theorem exMid_some : (runOf exP exReqs exMid .init (fun _ _ => none)).isSome = true := by rfl

def exMidEnd : Sys × Spec := (runOf exP exReqs exMid .init (fun _ _ => none)).get exMid_some

theorem exAdd_some :
    (stepOf exP exReqs (collect exMidEnd.1 fun _ _ => true) (.add 1 ['1'] 10 true)).isSome = true := by rfl

def exAdd : Sys := (stepOf exP exReqs (collect exMidEnd.1 fun _ _ => true) (.add 1 ['1'] 10 true)).get exAdd_some

theorem exMid_noVersions : NoVersions exMidEnd.1 := by
  intro k n mv h
  have hall : (exMidEnd.1.store.vers.entries.all fun e => e.2.items.entries.isEmpty) = true := by rfl
  unfold Meta.getVer at h
  cases hv : exMidEnd.1.store.vers.get k with
  | none => rw [hv] at h; cases h
  | some b =>
    rw [hv] at h
    dsimp only at h
    have hb := List.all_eq_true.1 hall _ ((KMap.mem_iff_get _ _ _).2 hv)
    cases hi : b.items.get (Meta.verKey k n) with
    | none => rw [hi] at h; cases h
    | some v =>
      have := (KMap.mem_iff_get _ _ _).2 hi
      rw [List.isEmpty_iff.1 hb] at this
      cases this

/-- **C134** (what a repair has to respect) An upload that found its content records a version without sending
anything.  If a collector runs in between, it may delete the files - no version refers to them - and the version
recorded then has lost its content from the start: the upload is answered with its number, and all a client gets
is an empty body. -/
theorem C134_repair_race : ∃ s sp s',
    Run exP exReqs exMid s sp ∧ (∀ a f, ¬ Referenced s a f) ∧
    Step exP exReqs (collect s fun _ _ => true) (.add 1 ['1'] 10 true) s' ∧
    s'.phase 1 = .ok 1 ∧
    getObject exP s' (fun _ => true) (fun _ => 0) (fun _ => 0) [(100, fun _ => false)] ['b', '/', 'y'] 1 =
      some [] :=
  ⟨exMidEnd.1, exMidEnd.2, exAdd, runOf_sound (Option.some_get exMid_some).symm,
    fun _ _ ⟨k, n, mv, _, h, _⟩ => exMid_noVersions k n mv h,
    stepOf_sound (Option.some_get exAdd_some).symm, rfl, rfl⟩

set_option maxRecDepth 100000 in
/-- Without the collector the same GET returns the content. -/
example : ((stepOf exP exReqs exMidEnd.1 (.add 1 ['1'] 10 true)).map fun s' =>
    getObject exP s' (fun _ => true) (fun _ => 0) (fun _ => 0) [(100, fun _ => false)] ['b', '/', 'y'] 1) =
    some (some [1, 2, 3]) := by rfl

/-- The hypothesis of `C134_repair` is met by collecting everything when no version exists, and by collecting the
files of names that no version has. -/
example : ∀ a f, (fun _ _ : Str => true) a f = true → ¬ Referenced exMidEnd.1 a f :=
  fun _ _ _ ⟨k, n, mv, _, h, _⟩ => exMid_noVersions k n mv h

/-- The hypothesis of `C134_collected` is met there, and the files that nobody refers to are gone. -/
example (a f : Str) : (collect exMidEnd.1 fun _ _ => true).files a f = none := by
  have := (C134_collected (s := exMidEnd.1) (gone := fun _ _ => true)
    (fun _ _ => ⟨fun _ ⟨k, n, mv, _, h, _⟩ => exMid_noVersions k n mv h, fun _ => rfl⟩) a f).1
  cases h : (collect exMidEnd.1 fun _ _ => true).files a f with
  | none => rfl
  | some x =>
    obtain ⟨k, n, mv, _, h', _⟩ := this (by rw [h]; rfl)
    exact absurd h' (exMid_noVersions k n mv)

end Verif.System
