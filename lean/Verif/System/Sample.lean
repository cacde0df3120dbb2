import Verif.System.Lemmas
import Verif.Object.RSFindings

/-!
# Executable steps and a sample run (for the examples of C72)
-/

namespace Verif.System

open Verif

/-- The server and shard number of an answer, when the server has the shard. -/
def truthfulRaw (files : Str → Str → Option (List Bytes)) (hash raw : Str) : Bool :=
  match Api.parseResp raw with
  | some (ip, .ofNat i) => decide ('#' ∉ ip) && decide (i < 2 ^ 63) &&
      decide (Api.handlerLocate (fun f => (files ip f).isSome) ip (Api.locateMsg hash i []) = some raw)
  | _ => false

/-- A step as a function; `none`: not possible. -/
def stepOf (P : Params) (reqs : Nat → Req) (s : Sys) : Ev → Option Sys
  | .prepare p =>
    if s.phase p = .idle then
      match s.store.buckets.get (reqs p).bucket with
      | none => none
      | some mb =>
        if (toBucket mb).readonly then none
        else
          match (toBucket mb).makeVersion P.cfg (reqs p).ver with
          | none => none
          | some v => some { s with
              phase := upd s.phase p .prepared
              ver := upd s.ver p (some { v with
                hash := Api.uniqueHash P.shaS v.hash v.strategy v.ds v.ps v.compress }) }
    else none
  | .locate p evs =>
    if s.phase p = .prepared then
      match s.ver p with
      | none => none
      | some v =>
        if (Api.received evs).all (truthfulRaw s.files v.hash) && decide (0 ≤ v.ds + v.ps) then
          match Api.locateObject (v.ds + v.ps).toNat evs with
          | .found l => some { s with phase := upd s.phase p (.ready l) }
          | _ => none
        else none
    else none
  | .send p ds env =>
    if s.phase p = .prepared ∧ s.sent p = none then
      match s.ver p with
      | none => none
      | some v =>
        if 0 ≤ v.ds ∧ 0 ≤ v.ps ∧
            (v.strategy = Api.multiReplication ∨ (P.code v.ds.toNat v.ps.toNat).isSome) ∧
            nShards v.strategy v.ds v.ps ≤ ds.length then
          match sendAll P.sha (reqs p).ver.hash (blockSize P v.strategy v.ds v.ps v.size)
            (encode P v.strategy v.ds v.ps) env (reqs p).body (reqs p).bodyOk
            (nShards v.strategy v.ds v.ps) with
          | none => none
          | some temps => some { s with sent := upd s.sent p (some (ds, temps)) }
        else none
    else none
  | .commit p i r =>
    match s.ver p, s.sent p with
    | some v, some (ds, temps) =>
      match ds[i]?, temps[i]? with
      | some srv, some t =>
        if i < nShards v.strategy v.ds v.ps then
          some { s with
            files := if r.performed then
                upd s.files srv (upd (s.files srv) (fname v.hash i)
                  (some ((s.files srv (fname v.hash i)).getD (if v.compress then P.gz t else t))))
              else s.files
            acks := if r = .ok then upd s.acks p (i :: s.acks p) else s.acks }
        else none
      | _, _ => none
    | _, _ => none
  | .finish p sees =>
    if s.phase p = .prepared then
      match s.ver p, s.sent p with
      | some v, some (ds, _) =>
        if (∀ i ∈ List.range (nShards v.strategy v.ds v.ps), i ∈ s.acks p) ∨ sees = false then
          some { s with phase := upd s.phase p (.ready ds) }
        else none
      | _, _ => none
    else none
  | .fail p => some { s with phase := upd s.phase p .failed }
  | .add p uid ts answered =>
    match addOp reqs s p uid ts with
    | none => none
    | some op =>
      match Meta.step s.store op with
      | (.seq q, st) => some { s with
          store := st
          phase := if answered then upd s.phase p (.ok q) else s.phase }
      | _ => none
  | .other op => if plainOp op then some { s with store := (Meta.step s.store op).2 } else none

theorem truthful_of {files : Str → Str → Option (List Bytes)} {hash : Str} {raws : List Str}
    (h : raws.all (truthfulRaw files hash) = true) : Truthful files hash raws := by
  intro raw hr
  have := List.all_eq_true.1 h raw hr
  unfold truthfulRaw at this
  split at this
  · rename_i ip i _
    simp only [Bool.and_eq_true, decide_eq_true_eq] at this
    exact ⟨ip, [], i, this.1.1, by simp, this.1.2, this.2⟩
  · cases this

theorem stepOf_sound {P : Params} {reqs : Nat → Req} {s s' : Sys} {e : Ev} (h : stepOf P reqs s e = some s') :
    Step P reqs s e s' := by
  cases e with
  | prepare p =>
    simp only [stepOf] at h
    split at h
    · rename_i h1
      split at h
      · cases h
      · rename_i mb h2
        cases hro : (toBucket mb).readonly with
        | true => rw [hro] at h; cases h
        | false =>
          rw [hro] at h
          simp only [Bool.false_eq_true, if_false] at h
          split at h
          · cases h
          · rename_i v h4
            cases h
            exact ⟨h1, mb, v, h2, hro, h4, rfl⟩
    · cases h
  | locate p evs =>
    simp only [stepOf] at h
    split at h
    · rename_i h1
      split at h
      · cases h
      · rename_i v h2
        split at h
        · rename_i h3
          simp only [Bool.and_eq_true, decide_eq_true_eq] at h3
          split at h
          · rename_i l h4
            cases h
            exact ⟨h1, v, l, h2, truthful_of h3.1, h3.2, h4, rfl⟩
          · cases h
        · cases h
    · cases h
  | send p ds env =>
    simp only [stepOf] at h
    split at h
    · rename_i h1
      split at h
      · cases h
      · rename_i v h2
        split at h
        · rename_i h3
          split at h
          · cases h
          · rename_i temps h4
            cases h
            exact ⟨h1.1, h1.2, v, temps, h2, h3.1, h3.2.1, h3.2.2.1, h3.2.2.2, h4, rfl⟩
        · cases h
    · cases h
  | commit p i r =>
    simp only [stepOf] at h
    split at h
    · rename_i v ds temps h1 h2
      split at h
      · rename_i srv t h3 h4
        split at h
        · rename_i h5
          cases h
          exact ⟨v, ds, temps, srv, t, h1, h2, h5, h3, h4, rfl⟩
        · cases h
      · cases h
    · cases h
  | finish p sees =>
    simp only [stepOf] at h
    split at h
    · rename_i h1
      split at h
      · rename_i v ds temps h2 h3
        split at h
        · rename_i h4
          cases h
          refine ⟨h1, v, ds, temps, h2, h3, ?_, rfl⟩
          rcases h4 with h4 | h4
          · exact Or.inl fun i hi => h4 i (List.mem_range.2 hi)
          · exact Or.inr h4
        · cases h
      · cases h
    · cases h
  | fail p => simp only [stepOf, Option.some.injEq] at h; exact h.symm
  | add p uid ts answered =>
    simp only [stepOf] at h
    split at h
    · cases h
    · rename_i op h1
      split at h
      · rename_i q st h2
        cases h
        exact ⟨op, q, st, h1, h2, rfl⟩
      · cases h
  | other op =>
    simp only [stepOf] at h
    split at h
    · rename_i h1
      cases h
      exact ⟨h1, rfl⟩
    · cases h

/-- The run of a list of steps. -/
def runOf (P : Params) (reqs : Nat → Req) : List Ev → Sys → Spec → Option (Sys × Spec)
  | [], s, sp => some (s, sp)
  | e :: es, s, sp =>
    match stepOf P reqs s e with
    | none => none
    | some s' => runOf P reqs es s' (specNext reqs s e s' sp)

theorem runOf_sound' {P : Params} {reqs : Nat → Req} (es : List Ev) (pre : List Ev) (s : Sys) (sp : Spec)
    (hr : Run P reqs pre s sp) {s' : Sys} {sp' : Spec} (h : runOf P reqs es s sp = some (s', sp')) :
    Run P reqs (pre ++ es) s' sp' := by
  induction es generalizing pre s sp with
  | nil => simp only [runOf, Option.some.injEq, Prod.mk.injEq] at h
           obtain ⟨rfl, rfl⟩ := h
           simpa using hr
  | cons e es ih =>
    simp only [runOf] at h
    split at h
    · cases h
    · rename_i s1 h1
      have := ih (pre ++ [e]) s1 _ (.snoc hr (stepOf_sound h1)) h
      simpa using this

theorem runOf_sound {P : Params} {reqs : Nat → Req} {es : List Ev} {s : Sys} {sp : Spec}
    (h : runOf P reqs es .init (fun _ _ => none) = some (s, sp)) : Run P reqs es s sp := by
  simpa using runOf_sound' es [] _ _ .nil h

/-! ## The sample -/

/-- Two data shards and one parity shard in blocks of 32 KB; digests of one letter. -/
def exP : Params where
  cfg := ⟨4, 2, 3, 1000⟩
  rs := ⟨4, 2, 32768⟩
  cpBlock := 32768
  code := fun k m => if h : k = 2 ∧ m = 1 then some (h.1 ▸ h.2 ▸ Object.xorCode) else none
  sha := fun b => if b = [1, 2, 3] then ['a'] else ['b']
  shaS := fun t => if t.take 2 = ['a', '1'] then ['h'] else if t.take 2 = ['a', '2'] then ['g'] else ['i']
  gz := id
  ioB := 32768

/-- Uploads 0 and 1 send the same content to two objects of a bucket with erasure coding, 2 sends it to a
bucket with copies, and all others send another content. -/
def exReqs (p : Nat) : Req :=
  match p with
  | 0 => ⟨['b'], ['x'], ⟨false, ['a'], 2, 3, 0, 0, 0, []⟩, [[1, 2], [3]], true⟩
  | 1 => ⟨['b'], ['y'], ⟨false, ['a'], 2, 3, 0, 0, 0, []⟩, [[1], [2, 3]], true⟩
  | 2 => ⟨['c'], ['z'], ⟨false, ['a'], 1, 3, 0, 0, 0, []⟩, [[1, 2, 3]], true⟩
  | _ => ⟨['b'], ['x'], ⟨false, ['b'], 1, 1, 0, 0, 0, []⟩, [[7]], true⟩

/-- The buckets and the objects. -/
def exSetup : List Ev :=
  [.other (.bucketCreate ⟨true, false, false, 1, 2, 1, 3, 1, 1, ['b'], []⟩),
   .other (.bucketCreate ⟨true, false, false, 2, 2, 0, 3, 1, 1, ['c'], []⟩),
   .other (.addMeta ['b', '/', 'x'] ⟨['x'], ['b'], 1, 1⟩),
   .other (.addMeta ['b', '/', 'y'] ⟨['y'], ['b'], 1, 1⟩),
   .other (.addMeta ['c', '/', 'z'] ⟨['z'], ['c'], 1, 1⟩)]

/-- Upload 0 sends its content; upload 3 fails; upload 1 finds the content of upload 0 although that
has not recorded it yet; upload 2 stores copies, one commit is performed without an answer and repeated;
version 1 of the second object is removed. -/
def exEvs : List Ev := exSetup ++
  [.prepare 0, .prepare 3, .send 0 [['s'], ['t'], ['u']] Object.okEnv, .fail 3,
   .commit 0 1 .ok, .commit 0 0 .ok, .prepare 1, .commit 0 2 .ok,
   .locate 1 [.answers [['t', '#', '1']], .answers [['u', '#', '2'], ['s', '#', '0']]],
   .add 1 ['1'] 10 true, .prepare 2, .finish 0 true,
   .send 2 [['s'], ['t']] Object.okEnv, .commit 2 0 (.failed true), .commit 2 0 .ok,
   .add 0 ['2'] 11 true, .commit 2 1 .ok, .finish 2 true, .other (.removeVer ['b', '/', 'y'] 1),
   .add 2 ['3'] 12 true]

end Verif.System
