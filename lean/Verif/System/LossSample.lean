import Verif.System.LossProps

/-!
# C105: sample executions and what fails
-/

namespace Verif.System

open Verif

set_option maxRecDepth 100000

/-- A step as a function; `none`: not possible. -/
def step2Of (P : Params) (reqs : Nat → Req) (s : Sys2) : Ev2 → Option Sys2
  | .base e => (stepOf P reqs s.sys e).map fun t => { s with sys := t }
  | .lose srv f => some { s with sys := { s.sys with files := drop1 s.sys.files srv f } }
  | .move src dst f =>
    match s.sys.files src f with
    | none => none
    | some ps => some { s with sys := { s.sys with files := store1 s.sys.files dst f ps } }
  | .record now h i srv =>
    some { s with sys := { s.sys with store := (Meta.step s.sys.store (.updateLocate now h i srv)).2 } }
  | .read g k n r =>
    match s.fix g, Meta.getVer s.sys.store k n with
    | none, .ok mv =>
      match mv.compress with
      | true => none
      | false => some { s with fix := upd s.fix g (some (mv, repairs P s.sys r mv)) }
    | _, _ => none
  | .mend g i srv =>
    match s.fix g with
    | none => none
    | some (mv, reps) =>
      match reps[i]? with
      | some (some b) => some { s with sys := { s.sys with files := store1 s.sys.files srv (fname mv.hash i) [b] } }
      | _ => none
  | .update now id body =>
    some { s with sys := { s.sys with store := (Api.MetaRpc.updateVersion now s.sys.store id body).2 } }

theorem step2Of_sound {P : Params} {reqs : Nat → Req} {s s' : Sys2} {e : Ev2} (h : step2Of P reqs s e = some s') :
    Step2 P reqs s e s' := by
  cases e with
  | base e =>
    simp only [step2Of, Option.map_eq_some_iff] at h
    obtain ⟨t, h1, rfl⟩ := h
    exact ⟨t, stepOf_sound h1, rfl⟩
  | lose srv f => simp only [step2Of, Option.some.injEq] at h; exact h.symm
  | move src dst f =>
    simp only [step2Of] at h
    split at h
    · cases h
    · rename_i ps h1
      cases h
      exact ⟨ps, h1, rfl⟩
  | record now hash i srv => simp only [step2Of, Option.some.injEq] at h; exact h.symm
  | read g k n r =>
    simp only [step2Of] at h
    split at h
    · rename_i mv h1 h2
      split at h
      · cases h
      · rename_i h3
        cases h
        exact ⟨h1, mv, h2, h3, rfl⟩
    · cases h
  | mend g i srv =>
    simp only [step2Of] at h
    split at h
    · cases h
    · rename_i mv reps h1
      split at h
      · rename_i b h2
        cases h
        exact ⟨mv, reps, b, h1, h2, rfl⟩
      · cases h
  | update now id body => simp only [step2Of, Option.some.injEq] at h; exact h.symm

/-- The run of a list of steps. -/
def run2Of (P : Params) (reqs : Nat → Req) : List Ev2 → Sys2 × Spec → Option (Sys2 × Spec)
  | [], x => some x
  | e :: es, x =>
    match step2Of P reqs x.1 e with
    | none => none
    | some s' => run2Of P reqs es (s', specNext2 reqs x.1 e s' x.2)

theorem run2Of_sound {P : Params} {reqs : Nat → Req} {ok : Sys2 → Spec → Ev2 → Prop} (es : List Ev2) (pre : List Ev2)
    (x : Sys2 × Spec) (hr : Run2 P reqs ok pre x.1 x.2) (hok : ∀ e ∈ es, ∀ s sp, ok s sp e)
    {y : Sys2 × Spec} (h : run2Of P reqs es x = some y) : Run2 P reqs ok (pre ++ es) y.1 y.2 := by
  induction es generalizing pre x with
  | nil =>
    simp only [run2Of, Option.some.injEq] at h
    subst h
    simpa using hr
  | cons e es ih =>
    simp only [run2Of] at h
    split at h
    · cases h
    · rename_i s1 h1
      have := ih (pre ++ [e]) _ (.snoc hr (hok e (List.mem_cons_self ..) _ _) (step2Of_sound h1))
        (fun e he => hok e (List.mem_cons_of_mem _ he)) h
      simpa using this

theorem Run2.weaken {P : Params} {reqs : Nat → Req} {ok ok' : Sys2 → Spec → Ev2 → Prop} (h : ∀ s sp e, ok s sp e → ok' s sp e)
    {es : List Ev2} {s : Sys2} {sp : Spec} (hr : Run2 P reqs ok es s sp) : Run2 P reqs ok' es s sp := by
  induction hr with
  | nil => exact .nil
  | snoc _ ho hs ih => exact .snoc ih (h _ _ _ ho) hs

/-! ## The sample -/

/-- Upload 0 is stored at s, t, u. -/
def up0Base : List Ev := exSetup ++ [.prepare 0, .send 0 [['s'], ['t'], ['u']] Object.okEnv,
  .commit 0 1 .ok, .commit 0 0 .ok, .commit 0 2 .ok, .finish 0 true, .add 0 ['2'] 11 true]

def up0 : List Ev2 := up0Base.map .base

def start2 : Sys2 × Spec := (.init, fun _ _ => none)

theorem up0_some : (run2Of exP exReqs up0 start2).isSome = true := by rfl

def up0End : Sys2 × Spec := (run2Of exP exReqs up0 start2).get up0_some

theorem up0_eq : run2Of exP exReqs up0 start2 = some up0End := (Option.some_get up0_some).symm

/-- The steps of `up0` meet a condition that holds for steps that are no reads. -/
theorem up0_ok {ok : Sys2 → Spec → Ev2 → Prop}
    (h : ∀ e : Ev, (∀ p ds env, e = .send p ds env → ∀ k, env.sees k = true) → (∀ p sees, e = .finish p sees → sees = true) →
      ∀ s sp, ok s sp (.base e)) : ∀ e ∈ up0, ∀ s sp, ok s sp e := by
  intro e he
  simp only [up0, up0Base, exSetup, List.cons_append, List.nil_append, List.map_cons, List.map_nil, List.mem_cons, List.not_mem_nil,
    or_false] at he
  rcases he with h' | h' | h' | h' | h' | h' | h' | h' | h' | h' | h' | h' <;> subst h' <;>
    refine h _ (fun p ds env he => ?_) (fun p sees he => ?_) <;> cases he <;> first | rfl | (intro k; rfl)

/-- All servers answer, except one. -/
def without (a : Str) : Rd :=
  ⟨fun b => b ≠ [] && b ≠ a, fun _ => 0, fun _ => 0, List.replicate 4 (2, fun _ => false), 3, 0⟩

theorem ex_aligned {mv : Meta.Version} (h1 : mv.storeStrategy = 1) (h2 : mv.dataShards = 2) (h3 : mv.parityShards = 1)
    (h4 : mv.size = 3) : Aligned exP mv := by
  unfold Aligned
  rw [h1, h2, h3, h4]
  exact ⟨fun h => absurd h (by decide), fun _ => ⟨by decide, by decide, by decide, by decide⟩⟩

theorem hashes_sub {s : Sys} (h : ∀ p v, s.ver p = some v → p ≤ 1 ∧ v = exVer 'h' 1 2 1 3 2) : HashesOk exP exReqs s :=
  hashes_mono (s' := exEnd.1) (fun p v hv => by
    obtain ⟨h1, rfl⟩ := h p v hv
    rw [ex_vers]
    rcases p with _ | _ | p
    · rfl
    · rfl
    · omega) ex_hashes

/-- The version recorded for an upload with erasure coding. -/
def exMv (l : List Str) (uid : Str) (ts : Int) (n : Nat) : Meta.Version :=
  { toVersion (exVer 'h' 1 2 1 3 2) l uid ts with sequence := n }

theorem exMv_aligned (l : List Str) (uid : Str) (ts : Int) (n : Nat) : Aligned exP (exMv l uid ts n) :=
  ex_aligned rfl rfl rfl rfl

/-! ## A repair is not recorded -/

/-- Shard 1 is lost. -/
def lost1 : List Ev2 := [.lose ['t'] (fname ['h'] 1)]

/-- A GET to the end. -/
def rd0 : Ev2 := .read 0 ['b', '/', 'x'] 1 (without [])

/-- It repairs the shard at v and asks to record that. -/
def mended : List Ev2 := [.mend 0 1 ['v'], .update 20 ['b', '/', 'x']
  ⟨false, ['h'], 1, 1, 3, 20, 2, 1, 2, [['s'], ['v'], ['u']]⟩]

/-- Shard 0 is lost. -/
def lost0 : List Ev2 := [.lose ['s'] (fname ['h'] 0)]

theorem lost1_some : (run2Of exP exReqs lost1 up0End).isSome = true := by rfl

def lost1End : Sys2 × Spec := (run2Of exP exReqs lost1 up0End).get lost1_some

theorem rd0_some : (run2Of exP exReqs [rd0] lost1End).isSome = true := by rfl

def rd0End : Sys2 × Spec := (run2Of exP exReqs [rd0] lost1End).get rd0_some

theorem mended_some : (run2Of exP exReqs mended rd0End).isSome = true := by rfl

def mendedEnd : Sys2 × Spec := (run2Of exP exReqs mended rd0End).get mended_some

theorem lost0_some : (run2Of exP exReqs lost0 mendedEnd).isSome = true := by rfl

def lost0End : Sys2 × Spec := (run2Of exP exReqs lost0 mendedEnd).get lost0_some

/-- The read is one to the end. -/
theorem rd0_sound : Sound exP exReqs lost1End.1 lost1End.2 rd0 := by
  intro mv p h1 h2
  have hm : Meta.getVer lost1End.1.sys.store ['b', '/', 'x'] 1 = .ok (exMv [['s'], ['t'], ['u']] ['2'] 11 1) := by rfl
  have hp : lost1End.2 ['b', '/', 'x'] 1 = some 0 := by rfl
  rw [hm] at h1
  rw [hp] at h2
  cases h1
  cases h2
  refine ⟨ex_honest 0, exMv_aligned _ _ _ _, ⟨fun h => absurd h (by decide), fun _ cod hc => ?_⟩, fun _ => Nat.zero_lt_succ _⟩
  cases hc
  have : (Object.Dec.reads (rsConf exP 2 1 3) Object.xorCode 3 (without []).reads
    (.init (readersAt exP lost1End.1.sys (without []) (exMv [['s'], ['t'], ['u']] ['2'] 11 1)))).1 =
      [.ok [1, 2], .ok [3], .error .eof, .error .eof] := by rfl
  exact this ▸ (by simp)

theorem mended_run2 : Run2 exP exReqs (Sound2 exP exReqs) (up0 ++ lost1 ++ [rd0] ++ mended) mendedEnd.1 mendedEnd.2 := by
  have h1 : Run2 exP exReqs (Sound2 exP exReqs) up0 up0End.1 up0End.2 :=
    run2Of_sound up0 [] start2 .nil (up0_ok fun e he hf s sp => by
      cases e <;> first | exact ⟨trivial, trivial⟩ | exact ⟨he _ _ _ rfl, trivial⟩ | exact ⟨trivial, hf _ _ rfl⟩) up0_eq
  have h2 := run2Of_sound lost1 up0 up0End h1 (by
    intro e he
    simp only [lost1, List.mem_cons, List.not_mem_nil, or_false] at he
    subst he
    exact fun _ _ => ⟨trivial, trivial⟩) (Option.some_get lost1_some).symm
  have h3 : Run2 exP exReqs (Sound2 exP exReqs) (up0 ++ lost1 ++ [rd0]) rd0End.1 rd0End.2 :=
    Run2.snoc h2 ⟨rd0_sound, trivial⟩ (step2Of_sound rfl)
  exact run2Of_sound mended _ rd0End h3 (by
    intro e he
    simp only [mended, List.mem_cons, List.not_mem_nil, or_false] at he
    rcases he with rfl | rfl <;> exact fun _ _ => ⟨trivial, trivial⟩) (Option.some_get mended_some).symm

theorem lost0_run2 : Run2 exP exReqs (Sound exP exReqs) (up0 ++ lost1 ++ [rd0] ++ mended ++ lost0) lost0End.1 lost0End.2 := by
  exact run2Of_sound lost0 _ mendedEnd (mended_run2.weaken fun _ _ _ h => h.1) (by
    intro e he
    simp only [lost0, List.mem_cons, List.not_mem_nil, or_false] at he
    subst he
    exact fun _ _ => trivial) (Option.some_get lost0_some).symm

theorem lost0_vers (p : Nat) : lost0End.1.sys.ver p = if p = 0 then some (exVer 'h' 1 2 1 3 2) else none := by
  rcases p with _ | p <;> rfl

theorem lost0_hashes : HashesOk exP exReqs lost0End.1.sys := by
  refine hashes_sub fun p v h => ?_
  rw [lost0_vers] at h
  split at h
  · cases h; exact ⟨by omega, rfl⟩
  · cases h

theorem mended_vers (p : Nat) : mendedEnd.1.sys.ver p = if p = 0 then some (exVer 'h' 1 2 1 3 2) else none := by
  rcases p with _ | p <;> rfl

theorem mended_hashes : HashesOk exP exReqs mendedEnd.1.sys := by
  refine hashes_sub fun p v h => ?_
  rw [mended_vers] at h
  split at h
  · cases h; exact ⟨by omega, rfl⟩
  · cases h

theorem mended_get : Meta.getVer mendedEnd.1.sys.store ['b', '/', 'x'] 1 = .ok (exMv [['s'], ['t'], ['u']] ['2'] 11 1) := by rfl

theorem mended_spec : mendedEnd.2 ['b', '/', 'x'] 1 = some 0 := by rfl

/-- After the loss of shard 1 the version is read from s and u. -/
example : getObject exP mendedEnd.1.sys (fun a => a = ['s'] || a = ['t'] || a = ['u']) (fun _ => 1) (fun _ => 0)
    (List.replicate 4 (2, fun _ => false)) ['b', '/', 'x'] 1 = some [1, 2, 3] :=
  C105_get_partial exP exReqs (by decide) (by decide) ex_reqs _ _ _ (mended_run2.weaken fun _ _ _ h => h.1) mended_hashes _ _ 0
    mended_spec (ex_honest 0) _ mended_get rfl (exMv_aligned _ _ _ _) _ (fun _ => false)
    ⟨fun h => absurd h (by decide), fun _ => by decide⟩ _ (fun _ => by decide) _ _ (by simp)
    (by decide) (by simp)

/-- The same from the list of what was lost. -/
example : getObject exP mendedEnd.1.sys (fun a => a = ['s'] || a = ['t'] || a = ['u']) (fun _ => 1) (fun _ => 0)
    (List.replicate 4 (2, fun _ => false)) ['b', '/', 'x'] 1 = some [1, 2, 3] :=
  C105_losses_partial (by decide) (by decide) ex_reqs mended_run2 mended_hashes mended_spec (ex_honest 0) mended_get rfl
    (exMv_aligned _ _ _ _) _ (fun _ => false)
    ⟨by decide, fun h => absurd h (by decide), fun _ => by decide⟩ _ (fun _ => by decide) _ _ (by simp)
    (by decide) (by simp)

/-- One shard was lost; the version is listed; the repaired shard is at v and not recorded. -/
example : lossesOf (up0 ++ lost1 ++ [rd0] ++ mended) = [(['t'], fname ['h'] 1)] ∧
    (mendedEnd.1.sys.files ['v'] (fname ['h'] 1)) = some [[3, 0]] := ⟨by rfl, by rfl⟩

example : ∃ mv, Meta.getVer mendedEnd.1.sys.store ['b', '/', 'x'] 1 = .ok mv :=
  (C105_recorded (by decide) (by decide) ex_reqs (mended_run2.weaken fun _ _ _ h => h.1) mended_hashes _ _).2 ⟨0, mended_spec, rfl⟩

/-- The commit of the repaired shard and the request to record it change no version. -/
example (s' : Sys2) (k : Str) (n : Nat) (h : Step2 exP exReqs rd0End.1 (.mend 0 1 ['v']) s') :
    Meta.getVer s'.sys.store k n = Meta.getVer rd0End.1.sys.store k n :=
  C105_repair_not_recorded h (fun _ _ _ _ h => by cases h) (fun _ h => by cases h) k n

example : ∃ s', Step2 exP exReqs rd0End.1 (.mend 0 1 ['v']) s' := ⟨_, step2Of_sound rfl⟩

/-- A read that gets fewer than two shards delivers nothing wrong. -/
example (b : Bytes) (h : getObject exP mendedEnd.1.sys (fun a => a = ['s']) (fun _ => 1) (fun _ => 0)
    (List.replicate 4 (2, fun _ => false)) ['b', '/', 'x'] 1 = some b) : b <+: [1, 2, 3] :=
  C105_never_wrong_partial (by decide) (by decide) ex_reqs (mended_run2.weaken fun _ _ _ h => h.1) mended_hashes mended_spec
    (ex_honest 0) mended_get rfl (exMv_aligned _ _ _ _) _ _ (fun _ => by decide) _ _ h

/-- As many shards of a version exist as it has data shards, somewhere. -/
def ShardsExist (s : Sys) (mv : Meta.Version) : Prop :=
  ∃ idx : List Nat, idx.Nodup ∧ mv.dataShards.toNat ≤ idx.length ∧
    ∀ i ∈ idx, i < mv.dataShards.toNat + mv.parityShards.toNat ∧ ∃ srv, (s.files srv (fname mv.hash i)).isSome = true

/-- An erasure coded version is readable while all servers answer and enough shards of it exist. -/
def ShardsSuffice (ok : Params → (Nat → Req) → Sys2 → Spec → Ev2 → Prop) : Prop :=
  ∀ (P : Params) (reqs : Nat → Req), 0 < P.ioB → Object.pageSize ∣ P.ioB → ReqsOk reqs →
    ∀ (es : List Ev2) (s : Sys2) (sp : Spec), Run2 P reqs (ok P reqs) es s sp → HashesOk P reqs s.sys →
    ∀ (k : Str) (n p : Nat), sp k n = some p → Honest P reqs p →
    ∀ mv : Meta.Version, Meta.getVer s.sys.store k n = .ok mv → mv.compress = false → Aligned P mv →
      mv.storeStrategy ≠ Api.multiReplication → ShardsExist s.sys mv →
      getObject P s.sys (fun a => decide (a ≠ [])) (fun _ => 0) (fun _ => 0)
        (List.replicate ((reqs p).content.length + 1) (1, fun _ => false)) k n = some (reqs p).content

/-- **C105 fails** when two shards are lost one after the other, although the first one was repaired in between: the place of the
repaired shard is not recorded. -/
theorem C105_repair_does_not_count : ¬ ShardsSuffice Sound := by
  intro h
  have := h exP exReqs (by decide) (by decide) ex_reqs _ _ _ lost0_run2 lost0_hashes ['b', '/', 'x'] 1 0 (by rfl) (ex_honest 0)
    (exMv [['s'], ['t'], ['u']] ['2'] 11 1) (by rfl) rfl (exMv_aligned _ _ _ _) (by decide)
    ⟨[1, 2], by decide, by decide, by
      intro i hi
      simp only [List.mem_cons, List.not_mem_nil, or_false] at hi
      rcases hi with rfl | rfl
      · exact ⟨by decide, ['v'], by rfl⟩
      · exact ⟨by decide, ['u'], by rfl⟩⟩
  have he : getObject exP lost0End.1.sys (fun a => decide (a ≠ [])) (fun _ => 0) (fun _ => 0)
        (List.replicate ((exReqs 0).content.length + 1) (1, fun _ => false)) ['b', '/', 'x'] 1 = some [] := by rfl
  rw [he] at this
  cases this

/-! ## Recorded locations become stale -/

/-- `Sound`, a file is deleted only when another server has it, and locations are only changed to servers that have the file. -/
def Migrating (P : Params) (reqs : Nat → Req) (s : Sys2) (sp : Spec) (e : Ev2) : Prop :=
  Sound P reqs s sp e ∧
  match e with
  | .lose srv f => ∃ srv', srv' ≠ srv ∧ (s.sys.files srv' f).isSome = true
  | .record _ h i srv => (s.sys.files srv (fname h i)).isSome = true
  | _ => True

/-- Upload 1 finds the shards of upload 0. -/
def find1 : List Ev2 := [.base (.prepare 1),
  .base (.locate 1 [.answers [['t', '#', '1']], .answers [['u', '#', '2'], ['s', '#', '0']]]),
  .move ['s'] ['v'] (fname ['h'] 0), .move ['t'] ['v'] (fname ['h'] 1)]

/-- Shards 0 and 1 were moved to v. -/
def rec0 : Ev2 := .record 30 ['h'] 0 ['v']
def rec1 : Ev2 := .record 31 ['h'] 1 ['v']
def del0 : Ev2 := .lose ['s'] (fname ['h'] 0)
def del1 : Ev2 := .lose ['t'] (fname ['h'] 1)

/-- Upload 1 is recorded. -/
def add1 : List Ev2 := [.base (.add 1 ['1'] 40 true)]

theorem find1_some : (run2Of exP exReqs find1 up0End).isSome = true := by rfl

def find1End : Sys2 × Spec := (run2Of exP exReqs find1 up0End).get find1_some

theorem moved_some : (run2Of exP exReqs ([rec0, rec1, del0, del1] ++ add1) find1End).isSome = true := by rfl

def movedEnd : Sys2 × Spec := (run2Of exP exReqs ([rec0, rec1, del0, del1] ++ add1) find1End).get moved_some

def after (es : List Ev2) (x : Sys2 × Spec) : Sys2 × Spec := (run2Of exP exReqs es x).getD x

theorem moved_run2 : ∃ es, Run2 exP exReqs (Migrating exP exReqs) es movedEnd.1 movedEnd.2 := by
  have h1 : Run2 exP exReqs (Migrating exP exReqs) up0 up0End.1 up0End.2 :=
    run2Of_sound up0 [] start2 .nil (up0_ok fun e he hf s sp => by
      cases e <;> first | exact ⟨trivial, trivial⟩ | exact ⟨he _ _ _ rfl, trivial⟩) up0_eq
  have h2 := run2Of_sound find1 up0 up0End h1 (by
    intro e he
    simp only [find1, List.mem_cons, List.not_mem_nil, or_false] at he
    rcases he with rfl | rfl | rfl | rfl <;> exact fun _ _ => ⟨trivial, trivial⟩) (Option.some_get find1_some).symm
  have h3 : Run2 exP exReqs (Migrating exP exReqs) _ (after [rec0] find1End).1 (after [rec0] find1End).2 :=
    Run2.snoc h2 (e := rec0) ⟨trivial, by rfl⟩ (step2Of_sound rfl)
  have h4 : Run2 exP exReqs (Migrating exP exReqs) _ (after [rec0, rec1] find1End).1 (after [rec0, rec1] find1End).2 :=
    Run2.snoc h3 (e := rec1) ⟨trivial, by rfl⟩ (step2Of_sound rfl)
  have h5 : Run2 exP exReqs (Migrating exP exReqs) _ (after [rec0, rec1, del0] find1End).1
      (after [rec0, rec1, del0] find1End).2 :=
    Run2.snoc h4 (e := del0) ⟨trivial, ['v'], by decide, by rfl⟩ (step2Of_sound rfl)
  have h6 : Run2 exP exReqs (Migrating exP exReqs) _ (after [rec0, rec1, del0, del1] find1End).1
      (after [rec0, rec1, del0, del1] find1End).2 :=
    Run2.snoc h5 (e := del1) ⟨trivial, ['v'], by decide, by rfl⟩ (step2Of_sound rfl)
  exact ⟨_, run2Of_sound add1 _ _ h6 (by
    intro e he
    simp only [add1, List.mem_cons, List.not_mem_nil, or_false] at he
    subst he
    exact fun _ _ => ⟨trivial, trivial⟩) (by rfl)⟩

theorem moved_vers (p : Nat) : movedEnd.1.sys.ver p = if p ≤ 1 then some (exVer 'h' 1 2 1 3 2) else none := by
  rcases p with _ | _ | p
  · rfl
  · rfl
  · rw [if_neg (by omega)]; rfl

theorem moved_hashes : HashesOk exP exReqs movedEnd.1.sys := by
  refine hashes_sub fun p v h => ?_
  rw [moved_vers] at h
  split at h
  · cases h; exact ⟨by assumption, rfl⟩
  · cases h

/-- **C105 fails** although no shard was ever lost: an upload found the shards of another one, which were then moved to other servers and
recorded for the versions stored so far; the upload then records the old places. -/
theorem C105_stale_location : ¬ ShardsSuffice Migrating := by
  intro h
  obtain ⟨es, hr⟩ := moved_run2
  have := h exP exReqs (by decide) (by decide) ex_reqs es _ _ hr moved_hashes ['b', '/', 'y'] 1 1 (by rfl) (ex_honest 1)
    (exMv [['s'], ['t'], ['u']] ['1'] 40 1) (by rfl) rfl (exMv_aligned _ _ _ _) (by decide)
    ⟨[0, 1], by decide, by decide, by
      intro i hi
      simp only [List.mem_cons, List.not_mem_nil, or_false] at hi
      rcases hi with rfl | rfl
      · exact ⟨by decide, ['v'], by rfl⟩
      · exact ⟨by decide, ['v'], by rfl⟩⟩
  have he : getObject exP movedEnd.1.sys (fun a => decide (a ≠ [])) (fun _ => 0) (fun _ => 0)
        (List.replicate ((exReqs 1).content.length + 1) (1, fun _ => false)) ['b', '/', 'y'] 1 = some [] := by rfl
  rw [he] at this
  cases this

/-- The version of upload 0 was recorded at its new places and is read from there. -/
example : getObject exP movedEnd.1.sys (fun a => decide (a ≠ [])) (fun _ => 0) (fun _ => 0)
    (List.replicate 4 (1, fun _ => false)) ['b', '/', 'x'] 1 = some [1, 2, 3] := by rfl

/-! ## A read that ends early -/

/-- `Sound` without the condition that reads go to the end. -/
def AnyEnd (P : Params) (reqs : Nat → Req) (s : Sys2) (sp : Spec) : Ev2 → Prop
  | .base (.send _ _ env) => ∀ k, env.sees k = true
  | .read _ k n r => ∀ mv p, Meta.getVer s.sys.store k n = .ok mv → sp k n = some p →
      Honest P reqs p ∧ Aligned P mv ∧ ∀ i, r.lost i < Object.pageSize
  | _ => True

/-- A GET while t does not answer, whose client goes away. -/
def rdNone : Ev2 := .read 0 ['b', '/', 'x'] 1 { without ['t'] with reads := [], took := 0 }

/-- It commits nothing as shard 1 at v, where upload 1 finds it. -/
def poison : List Ev2 := [.mend 0 1 ['v'], .base (.prepare 1),
  .base (.locate 1 [.answers [['v', '#', '1']], .answers [['u', '#', '2'], ['s', '#', '0']]]),
  .base (.add 1 ['1'] 40 true)]

theorem rdNone_some : (run2Of exP exReqs [rdNone] up0End).isSome = true := by rfl

def rdNoneEnd : Sys2 × Spec := (run2Of exP exReqs [rdNone] up0End).get rdNone_some

theorem poison_some : (run2Of exP exReqs poison rdNoneEnd).isSome = true := by rfl

def poisonEnd : Sys2 × Spec := (run2Of exP exReqs poison rdNoneEnd).get poison_some

theorem poison_run2 : ∃ es, Run2 exP exReqs (AnyEnd exP exReqs) es poisonEnd.1 poisonEnd.2 := by
  have h1 : Run2 exP exReqs (AnyEnd exP exReqs) up0 up0End.1 up0End.2 :=
    run2Of_sound up0 [] start2 .nil (up0_ok fun e he hf s sp => by
      cases e <;> first | trivial | exact he _ _ _ rfl) up0_eq
  have h2 : Run2 exP exReqs (AnyEnd exP exReqs) _ rdNoneEnd.1 rdNoneEnd.2 :=
    Run2.snoc h1 (e := rdNone) (by
      intro mv p h1 h2
      have hm : Meta.getVer up0End.1.sys.store ['b', '/', 'x'] 1 = .ok (exMv [['s'], ['t'], ['u']] ['2'] 11 1) := by rfl
      have hp : rdNoneEnd.2 ['b', '/', 'x'] 1 = some 0 := by rfl
      rw [hm] at h1
      rw [hp] at h2
      cases h1
      cases h2
      exact ⟨ex_honest 0, exMv_aligned _ _ _ _, fun _ => Nat.zero_lt_succ _⟩) (step2Of_sound rfl)
  exact ⟨_, run2Of_sound poison _ rdNoneEnd h2 (by
    intro e he
    simp only [poison, List.mem_cons, List.not_mem_nil, or_false] at he
    rcases he with rfl | rfl | rfl | rfl <;> exact fun _ _ => trivial) (Option.some_get poison_some).symm⟩

theorem poison_vers (p : Nat) : poisonEnd.1.sys.ver p = if p ≤ 1 then some (exVer 'h' 1 2 1 3 2) else none := by
  rcases p with _ | _ | p
  · rfl
  · rfl
  · rw [if_neg (by omega)]; rfl

theorem poison_hashes : HashesOk exP exReqs poisonEnd.1.sys := by
  refine hashes_sub fun p v h => ?_
  rw [poison_vers] at h
  split at h
  · cases h; exact ⟨by assumption, rfl⟩
  · cases h

/-- **C105 fails** when a client goes away before it has read an object while one server does not answer: an empty file is
committed as the shard of that server, the next upload of the content takes it for the shard, and then the failure of one
server is too much. -/
theorem C105_partial_read_poisons : ¬ ReadsBack2 AnyEnd := by
  intro h
  obtain ⟨es, hr⟩ := poison_run2
  have := h exP exReqs (by decide) (by decide) ex_reqs es _ _ hr poison_hashes ['b', '/', 'y'] 1 1 (by rfl) (ex_honest 1)
    (exMv [['s'], ['v'], ['u']] ['1'] 40 1) (by rfl) rfl (exMv_aligned _ _ _ _) (fun a => a = ['v'] || a = ['u'])
    (fun _ => false) ⟨fun h => absurd h (by decide), fun _ => by decide⟩ (fun _ => 0) (fun _ => Nat.zero_lt_succ _) (fun _ => 0)
    (List.replicate 4 (1, fun _ => false)) (by simp) (by decide) (by simp)
  have he : getObject exP poisonEnd.1.sys (fun a => a = ['v'] || a = ['u']) (fun _ => 0) (fun _ => 0)
        (List.replicate 4 (1, fun _ => false)) ['b', '/', 'y'] 1 = some [] := by rfl
  rw [he] at this
  cases this

/-! ## A version that announced a wrong length -/

/-- `Sound` without the condition that reads are of honest uploads. -/
def AnyUpload (P : Params) (_reqs : Nat → Req) (s : Sys2) (sp : Spec) : Ev2 → Prop
  | .base (.send _ _ env) => ∀ k, env.sees k = true
  | .read _ k n r => ∀ mv p, Meta.getVer s.sys.store k n = .ok mv → sp k n = some p →
      Aligned P mv ∧ Complete P s.sys r mv ∧ ∀ i, r.lost i < Object.pageSize
  | _ => True

/-- Upload 3 announces the digest of upload 0 and sends one byte. -/
def shReqs (p : Nat) : Req :=
  if p = 3 then ⟨['b'], ['x'], ⟨false, ['a'], 1, 1, 0, 0, 0, []⟩, [[7]], true⟩ else exReqs p

/-- It finds the shards of upload 0 and is recorded without sending anything. -/
def short : List Ev2 := up0 ++ [.base (.prepare 3),
  .base (.locate 3 [.answers [['t', '#', '1']], .answers [['u', '#', '2'], ['s', '#', '0']]]),
  .base (.add 3 ['4'] 30 true)]

/-- A GET of that version to the end, while s does not answer. -/
def rdShort : Ev2 := .read 0 ['b', '/', 'x'] 2 (without ['s'])

/-- It repairs shard 0 at v, where upload 1 finds it. -/
def poison2 : List Ev2 := [.mend 0 0 ['v'], .base (.prepare 1),
  .base (.locate 1 [.answers [['v', '#', '0']], .answers [['u', '#', '2'], ['t', '#', '1']]]),
  .base (.add 1 ['1'] 40 true)]

theorem short_some : (run2Of exP shReqs short start2).isSome = true := by rfl

def shortEnd : Sys2 × Spec := (run2Of exP shReqs short start2).get short_some

theorem rdShort_some : (run2Of exP shReqs [rdShort] shortEnd).isSome = true := by rfl

def rdShortEnd : Sys2 × Spec := (run2Of exP shReqs [rdShort] shortEnd).get rdShort_some

theorem poison2_some : (run2Of exP shReqs poison2 rdShortEnd).isSome = true := by rfl

def poison2End : Sys2 × Spec := (run2Of exP shReqs poison2 rdShortEnd).get poison2_some

def shMv : Meta.Version := { toVersion (exVer 'h' 1 2 1 1 1) [['s'], ['t'], ['u']] ['4'] 30 with sequence := 2 }

theorem sh_reqs : ReqsOk shReqs :=
  ⟨fun p _ => by rcases p with _ | _ | _ | _ | p <;> rfl, fun p => by
    rcases p with _ | _ | _ | _ | p <;> simp [shReqs, exReqs]⟩

theorem sh_aligned : Aligned exP shMv :=
  ⟨fun h => absurd h (by decide), fun _ => ⟨by decide, by decide, by decide, by decide⟩⟩

theorem poison2_vers (p : Nat) : poison2End.1.sys.ver p = match p with
    | 0 => some (exVer 'h' 1 2 1 3 2)
    | 1 => some (exVer 'h' 1 2 1 3 2)
    | 3 => some (exVer 'h' 1 2 1 1 1)
    | _ => none := by
  rcases p with _ | _ | _ | _ | p <;> rfl

theorem poison2_hashes : HashesOk exP shReqs poison2End.1.sys := by
  refine ⟨ex_hashes.len, fun p q v w hp hq => ?_, fun p q v w hp hq => ?_, ex_chars⟩
  · rw [poison2_vers] at hp hq
    rcases p with _ | _ | _ | _ | p <;> rcases q with _ | _ | _ | _ | q <;> first | cases hp; done | cases hq; done | decide
  · rw [poison2_vers] at hp hq
    rcases p with _ | _ | _ | _ | p <;> rcases q with _ | _ | _ | _ | q <;>
      first | cases hp; done | cases hq; done | (cases hp; cases hq; decide)

theorem poison2_run2 : ∃ es, Run2 exP shReqs (AnyUpload exP shReqs) es poison2End.1 poison2End.2 := by
  have h1 : Run2 exP shReqs (AnyUpload exP shReqs) short shortEnd.1 shortEnd.2 :=
    run2Of_sound short [] start2 .nil (by
      intro e he
      rcases List.mem_append.1 he with he | he
      · exact up0_ok (fun e he hf s sp => by cases e <;> first | trivial | exact he _ _ _ rfl) e he
      · simp only [List.mem_cons, List.not_mem_nil, or_false] at he
        rcases he with rfl | rfl | rfl <;> exact fun _ _ => trivial) (Option.some_get short_some).symm
  have h2 : Run2 exP shReqs (AnyUpload exP shReqs) _ rdShortEnd.1 rdShortEnd.2 :=
    Run2.snoc h1 (e := rdShort) (by
      intro mv p h1 h2
      have hm : Meta.getVer shortEnd.1.sys.store ['b', '/', 'x'] 2 = .ok shMv := by rfl
      rw [hm] at h1
      cases h1
      refine ⟨sh_aligned, ⟨fun h => absurd h (by decide), fun _ cod hc => ?_⟩, fun _ => Nat.zero_lt_succ _⟩
      cases hc
      have : (Object.Dec.reads (rsConf exP 2 1 1) Object.xorCode 1 (without ['s']).reads
        (.init (readersAt exP shortEnd.1.sys (without ['s']) shMv))).1 =
          [.ok [1], .error .eof, .error .eof, .error .eof] := by rfl
      exact this ▸ (by simp)) (step2Of_sound rfl)
  exact ⟨_, run2Of_sound poison2 _ rdShortEnd h2 (by
    intro e he
    simp only [poison2, List.mem_cons, List.not_mem_nil, or_false] at he
    rcases he with rfl | rfl | rfl | rfl <;> exact fun _ _ => trivial) (Option.some_get poison2_some).symm⟩

/-- **C105 fails** when a client announces the digest of a stored content with a smaller length: reading that version while a
server does not answer commits a truncated shard under the name of the right one, the next upload of the content takes it,
and reading that one delivers wrong bytes with all servers up. -/
theorem C105_short_announcement_poisons : ¬ ReadsBack2 AnyUpload := by
  intro h
  obtain ⟨es, hr⟩ := poison2_run2
  have := h exP shReqs (by decide) (by decide) sh_reqs es _ _ hr poison2_hashes ['b', '/', 'y'] 1 1 (by rfl)
    ⟨rfl, rfl, by decide⟩
    (exMv [['v'], ['t'], ['u']] ['1'] 40 1) (by rfl) rfl (exMv_aligned _ _ _ _) (fun a => decide (a ≠ []))
    (fun _ => false) ⟨fun h => absurd h (by decide), fun _ => by decide⟩ (fun _ => 0) (fun _ => Nat.zero_lt_succ _) (fun _ => 0)
    (List.replicate 4 (2, fun _ => false)) (by simp) (by decide) (by simp)
  have he : getObject exP poison2End.1.sys (fun a => decide (a ≠ [])) (fun _ => 0) (fun _ => 0)
        (List.replicate 4 (2, fun _ => false)) ['b', '/', 'y'] 1 = some [1, 0, 3] := by rfl
  rw [he] at this
  cases this

end Verif.System
