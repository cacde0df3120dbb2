import Verif.System.Loss

/-!
# C105: what is read while files are lost, moved and repaired
-/

namespace Verif.System

open Verif

/-! ## Specification -/

/-- Enough recorded servers answer and hold what is recorded: one of the copies, or as many shards as there are data shards, of
servers that go on answering until the end. -/
def Held (s : Sys) (mv : Meta.Version) (up : Str → Bool) (dead : Nat → Bool) : Prop :=
  (mv.storeStrategy = Api.multiReplication →
    ∃ i < mv.locate.length, up (serverOf mv i) = true ∧ (s.files (serverOf mv i) (fname mv.hash i)).isSome = true) ∧
  (mv.storeStrategy ≠ Api.multiReplication →
    mv.dataShards.toNat ≤ (List.range (mv.dataShards.toNat + mv.parityShards.toNat)).countP fun i =>
      up (serverOf mv i) && (s.files (serverOf mv i) (fname mv.hash i)).isSome && !dead i)

/-- The files that disappeared in an execution. -/
def lossesOf : List Ev2 → List (Str × Str)
  | [] => []
  | .lose srv f :: es => (srv, f) :: lossesOf es
  | _ :: es => lossesOf es

/-- Enough recorded servers answer and have not lost what is recorded. -/
def Unlost (L : List (Str × Str)) (mv : Meta.Version) (up : Str → Bool) (dead : Nat → Bool) : Prop :=
  up [] = false ∧
  (mv.storeStrategy = Api.multiReplication →
    ∃ i < mv.dataShards.toNat, up (serverOf mv i) = true ∧ (serverOf mv i, fname mv.hash i) ∉ L) ∧
  (mv.storeStrategy ≠ Api.multiReplication →
    mv.dataShards.toNat ≤ (List.range (mv.dataShards.toNat + mv.parityShards.toNat)).countP fun i =>
      up (serverOf mv i) && !decide ((serverOf mv i, fname mv.hash i) ∈ L) && !dead i)

/-! ## Reading -/

/-- The core: reading in a state whose files are right. -/
theorem get_core2 {P : Params} {reqs : Nat → Req} {s : Sys} {sp : Spec} (hi : FilesOk P reqs s)
    (hst : SInv reqs s sp) (hh : HashesOk P reqs s) (hq : ReqsOk reqs)
    (hB : 0 < P.ioB) (hpB : Object.pageSize ∣ P.ioB)
    {k : Str} {n p : Nat} (hsp : sp k n = some p) (hp : Honest P reqs p) {mv : Meta.Version}
    (hmv : Meta.getVer s.store k n = .ok mv) (hcomp : mv.compress = false) (hal : Aligned P mv)
    (up : Str → Bool) (lost : Nat → Nat) (hlost : ∀ i, lost i < Object.pageSize) (pick : Nat → Nat)
    (reads : List (Nat × (Nat → Bool))) :
    (∀ dead, Held s mv up dead → (∀ r ∈ reads, 0 < r.1) → (reqs p).content.length < reads.length →
      (∀ r ∈ reads, ∀ i, r.2 i = true → dead i = true) →
      getObject P s up lost pick reads k n = some (reqs p).content) ∧
    ∀ b, getObject P s up lost pick reads k n = some b → b <+: (reqs p).content := by
  obtain ⟨v, hr, _⟩ := sinv_recorded hst hsp hmv
  have hsize : mv.size.toNat = (reqs p).content.length := by
    rw [hr.size, (hi.ver p v hr.ver).2, hp.size]; simp
  unfold getObject
  rw [hmv]
  simp only
  by_cases hm : mv.storeStrategy = Api.multiReplication
  · rw [if_pos hm, hsize]
    have hold : ∀ (i j : Nat) (f : Bytes), (List.range mv.locate.length)[i]? = some j →
        (if j = i then (s.files (serverOf mv i) (fname mv.hash i)).map (Object.storePieces P.ioB) else none) = some f →
        ∃ ps, Object.AlignedPieces ps ∧ ps.flatten = (reqs p).content ∧ f = Object.storePieces P.ioB ps := by
      intro i j f _ hf
      split at hf
      · rw [Option.map_eq_some_iff] at hf
        obtain ⟨ps, f1, f2⟩ := hf
        obtain ⟨g1, g2⟩ := copies_hold hi hh hq hp hr hcomp hal hm (hi.files _ _ _ f1)
        exact ⟨ps, g1, g2, f2.symm⟩
      · cases hf
    have hgot : (∃ i : Nat, i < mv.locate.length ∧ up (serverOf mv i) = true ∧
        (s.files (serverOf mv i) (fname mv.hash i)).isSome = true) →
        Object.copyRead (lost 0)
          (fun j i => if j = i then (s.files (serverOf mv i) (fname mv.hash i)).map
            (Object.storePieces P.ioB) else none)
          (fun i => up (serverOf mv i)) pick (List.range mv.locate.length) (reqs p).content.length 0 =
          some (reqs p).content := by
      rintro ⟨i, i1, i2, i3⟩
      refine Object.C38_any_copy_suffices hB hpB (lost 0) (hlost 0) _ hp.nonempty _ _ _ _ hold ?_
      exact ⟨i, i, by rw [List.getElem?_range i1], i2, by simpa using i3⟩
    refine ⟨fun dead hheld _ _ _ => hgot (hheld.1 hm), fun b hb => ?_⟩
    have hex : ∃ i : Nat, i < mv.locate.length ∧ up (serverOf mv i) = true ∧
        (s.files (serverOf mv i) (fname mv.hash i)).isSome = true := by
      unfold Object.copyRead at hb
      have hch := Object.openCopies_chosen (fun j i => if j = i then
        (s.files (serverOf mv i) (fname mv.hash i)).map (Object.storePieces P.ioB) else none)
        (fun i => up (serverOf mv i)) pick (List.range mv.locate.length) 0
      split at hb
      · cases hb
      · rename_i i srv hc
        rw [hc] at hch
        simp only [Nat.sub_zero] at hch
        obtain ⟨_, c2, c3, c4⟩ := hch
        have hlt := (List.getElem?_eq_some_iff.1 c2).1
        simp only [List.length_range] at hlt
        rw [List.getElem?_range hlt] at c2
        cases c2
        exact ⟨_, hlt, c3, by simpa using c4⟩
    rw [hgot hex] at hb
    rw [Option.some.inj hb]
    exact List.prefix_refl _
  · rw [if_neg hm]
    obtain ⟨_, hk, hbp, d1, d2, hns, cod, blocks, hcod, w1, w2, w3, hera, hcode, hsh⟩ :=
      shards_hold hi hh hq hB hpB hp hr hcomp hal hm ⟨up, lost, pick, reads, 0, 0⟩ hlost rfl
    unfold readersAt at hera hsh
    dsimp only at hera hsh
    rw [hcod]
    rw [hsize] at hera hsh ⊢
    simp only
    generalize hc : rsConf P mv.dataShards mv.parityShards mv.size = c at *
    refine ⟨fun dead hheld hr1 hr2 hr3 => ?_, fun b hb => ?_⟩
    · generalize hrs : (List.range c.allShards).map
        (shardAt P s up lost mv (c.shardSize (reqs p).content.length)) = rs at *
      have hall : c.allShards = mv.dataShards.toNat + mv.parityShards.toNat := by
        unfold Object.RsConfig.allShards; rw [d1, d2]
      have hcnt : c.dataShards ≤ Object.presentCount (Object.killReaders dead rs) := by
        rw [d1]
        refine Nat.le_trans (hheld.2 hm) ?_
        rw [← hall]
        have hkr : Object.killReaders dead rs = (List.range c.allShards).map fun i =>
            if dead i then none else shardAt P s up lost mv (c.shardSize (reqs p).content.length) i := by
          apply List.ext_getElem?
          intro i
          rw [Object.killReaders, List.getElem?_mapIdx]
          by_cases hin : i < c.allShards
          · rw [(hsh i hin).1, List.getElem?_map, List.getElem?_range hin]; rfl
          · rw [List.getElem?_eq_none (by rw [← hrs]; simp; omega), List.getElem?_eq_none (by simp; omega)]; rfl
        rw [hkr]
        unfold Object.presentCount
        rw [List.countP_map]
        apply List.countP_mono_left
        intro i hin hu
        simp only [Bool.and_eq_true, Bool.not_eq_true'] at hu
        simp only [Function.comp_apply, hu.2]
        exact (hsh i (List.mem_range.1 hin)).2.2 hu.1
      have hsv := Object.C34_survives c cod hk hbp (reqs p).body _ w3 rs hera dead hcnt reads hr3
      have hsv' := hsv.2.1 (hsv.2.2 hr1 hr2)
      exact congrArg some hsv'
    · rw [← Option.some.inj hb]
      exact Object.C34_never_wrong c cod hk hbp (reqs p).body _ w3 _ hera reads

/-! ## C105 -/

/-- **C105** While files are lost, moved and repaired, the metadata server lists exactly the versions of the
specification. -/
theorem C105_recorded {P : Params} {reqs : Nat → Req} (hB : 0 < P.ioB) (hpB : Object.pageSize ∣ P.ioB)
    (hq : ReqsOk reqs) {es : List Ev2} {s : Sys2} {sp : Spec} (hr : Run2 P reqs (Sound P reqs) es s sp)
    (hh : HashesOk P reqs s.sys) (k : Str) (n : Nat) :
    (∃ mv, Meta.getVer s.sys.store k n = .ok mv) ↔ ∃ p, sp k n = some p ∧ k = (reqs p).key := by
  obtain ⟨_, h2⟩ := inv_run2 hB hpB hq (fun _ _ _ h => h) hr hh
  constructor
  · rintro ⟨mv, h⟩
    obtain ⟨p, v, l, uid, ts, h3, h4, _⟩ := h2.stored k n mv ((Meta.getVer_ok_iff _ _ _ _).1 h)
    exact ⟨p, h3, h4⟩
  · rintro ⟨p, h, _⟩
    obtain ⟨mv, h⟩ := h2.spec k n p h
    exact ⟨mv, (Meta.getVer_ok_iff _ _ _ _).2 h⟩

/-- Reading returns what was stored, in all executions whose steps meet `ok`, while enough recorded servers hold what is
recorded. -/
def ReadsBack2 (ok : Params → (Nat → Req) → Sys2 → Spec → Ev2 → Prop) : Prop :=
  ∀ (P : Params) (reqs : Nat → Req), 0 < P.ioB → Object.pageSize ∣ P.ioB → ReqsOk reqs →
    ∀ (es : List Ev2) (s : Sys2) (sp : Spec), Run2 P reqs (ok P reqs) es s sp → HashesOk P reqs s.sys →
    ∀ (k : Str) (n p : Nat), sp k n = some p → Honest P reqs p →
    ∀ mv : Meta.Version, Meta.getVer s.sys.store k n = .ok mv → mv.compress = false → Aligned P mv →
    ∀ (up : Str → Bool) (dead : Nat → Bool), Held s.sys mv up dead →
    ∀ lost : Nat → Nat, (∀ i, lost i < Object.pageSize) → ∀ (pick : Nat → Nat) (reads : List (Nat × (Nat → Bool))),
      (∀ r ∈ reads, 0 < r.1) → (reqs p).content.length < reads.length →
      (∀ r ∈ reads, ∀ i, r.2 i = true → dead i = true) →
      getObject P s.sys up lost pick reads k n = some (reqs p).content

/-- **C105** In every execution with lost, moved and repaired files, a version reads as the content of its upload while enough
of the recorded servers hold what is recorded.  Missing for the full property: reads that end early
(`C105_partial_read_poisons`), uploads that announced a wrong length (`C105_short_announcement_poisons`), layouts that are not made of whole
pages, compressed versions, waits that lose errors. -/
theorem C105_get_partial : ReadsBack2 Sound := by
  intro P reqs hB hpB hq es s sp hr hh k n p hsp hp mv hmv hcomp hal up dead hheld lost hlost pick reads hr1 hr2 hr3
  obtain ⟨h1, h2⟩ := inv_run2 hB hpB hq (fun _ _ _ h => h) hr hh
  exact (get_core2 h1.ok h2 hh hq hB hpB hsp hp hmv hcomp hal up lost hlost pick reads).1 dead hheld hr1 hr2 hr3

/-- **C105** In every such execution, whatever was lost and whoever answers, the bytes delivered are a prefix of the content. -/
theorem C105_never_wrong_partial {P : Params} {reqs : Nat → Req} (hB : 0 < P.ioB) (hpB : Object.pageSize ∣ P.ioB)
    (hq : ReqsOk reqs) {es : List Ev2} {s : Sys2} {sp : Spec} (hr : Run2 P reqs (Sound P reqs) es s sp)
    (hh : HashesOk P reqs s.sys) {k : Str} {n p : Nat} (hsp : sp k n = some p) (hp : Honest P reqs p)
    {mv : Meta.Version} (hmv : Meta.getVer s.sys.store k n = .ok mv) (hcomp : mv.compress = false) (hal : Aligned P mv)
    (up : Str → Bool) (lost : Nat → Nat) (hlost : ∀ i, lost i < Object.pageSize) (pick : Nat → Nat)
    (reads : List (Nat × (Nat → Bool))) {b : Bytes} (hb : getObject P s.sys up lost pick reads k n = some b) :
    b <+: (reqs p).content := by
  obtain ⟨h1, h2⟩ := inv_run2 hB hpB hq (fun _ _ _ h => h) hr hh
  exact (get_core2 h1.ok h2 hh hq hB hpB hsp hp hmv hcomp hal up lost hlost pick reads).2 b hb

/-- **C105** Only a change of locations or a request to the metadata server changes a version record; in
particular no repair does, whether it is complete or not (`UpdateVersion` is always refused, C75). -/
theorem C105_repair_not_recorded {P : Params} {reqs : Nat → Req} {s s' : Sys2} {e : Ev2} (hst : Step2 P reqs s e s')
    (h1 : ∀ now h i srv, e ≠ .record now h i srv) (h2 : ∀ e', e = .base e' → e'.local_) (k : Str) (n : Nat) :
    Meta.getVer s'.sys.store k n = Meta.getVer s.sys.store k n := by
  cases e with
  | base e =>
    obtain ⟨t, hst, rfl⟩ := hst
    rw [(local_store (h2 e rfl) hst).1]
  | lose srv f => cases (show s' = _ from hst); rfl
  | move src dst f => obtain ⟨ps, _, rfl⟩ := hst; rfl
  | record now h i srv => exact absurd rfl (h1 now h i srv)
  | read g k n r => obtain ⟨_, mv, _, _, rfl⟩ := hst; rfl
  | mend g i srv => obtain ⟨mv, reps, b, _, _, rfl⟩ := hst; rfl
  | update now id body =>
    cases (show s' = _ from hst)
    simp only [Api.MetaRpc.C75_update_always_refused]

/-! ## Counting losses -/

/-- A file is there or was lost. -/
def Kept (files : Str → Str → Option (List Bytes)) (L : List (Str × Str)) (a f : Str) : Prop :=
  (files a f).isSome = true ∨ (a, f) ∈ L

structure LInv (s : Sys) (L : List (Str × Str)) : Prop where
  acks : ∀ p i, i ∈ s.acks p → ∃ v ds temps srv, s.ver p = some v ∧ s.sent p = some (ds, temps) ∧
    ds[i]? = some srv ∧ Kept s.files L srv (fname v.hash i)
  ready : ∀ p l, s.phase p = .ready l → ∃ v, s.ver p = some v ∧
    ∀ (i : Nat) (a : Str), i < nShards v.strategy v.ds v.ps → l[i]? = some a → a ≠ [] → Kept s.files L a (fname v.hash i)
  stored : ∀ k n mv, Meta.Stored s.store k n mv → ∀ (i : Nat) (a : Str),
    i < nShards mv.storeStrategy mv.dataShards mv.parityShards → mv.locate[i]? = some a → a ≠ [] →
    Kept s.files L a (fname mv.hash i)

/-- `Sound`, the wait for the commits reports errors, and locations are changed to servers that have the file, for
versions that have that hash (for those that do not see `C16_index_stale`). -/
def Sound2 (P : Params) (reqs : Nat → Req) (s : Sys2) (sp : Spec) (e : Ev2) : Prop :=
  Sound P reqs s sp e ∧
  match e with
  | .base (.finish _ sees) => sees = true
  | .record _ h i srv => (s.sys.files srv (fname h i)).isSome = true ∧
      ∀ k n mv, Indexed s.sys.store h k n → Meta.Stored s.sys.store k n mv → mv.hash = h
  | _ => True

theorem lossesOf_append (es es' : List Ev2) : lossesOf (es ++ es') = lossesOf es ++ lossesOf es' := by
  induction es with
  | nil => rfl
  | cons e es ih => cases e <;> simp [lossesOf, ih]

theorem linv_mono {s s' : Sys} {L L' : List (Str × Str)} (h : LInv s L)
    (hk : ∀ a f, Kept s.files L a f → Kept s'.files L' a f)
    (hv : ∀ p v, s.ver p = some v → s'.ver p = some v)
    (hs : ∀ p x, s.sent p = some x → s'.sent p = some x)
    (ha : s'.acks = s.acks) (hp : ∀ p l, s'.phase p = .ready l → s.phase p = .ready l)
    (hst : ∀ k n mv, Meta.Stored s'.store k n mv → Meta.Stored s.store k n mv) : LInv s' L' := by
  refine ⟨fun p i hi => ?_, fun p l hl => ?_, fun k n mv hm i a h1 h2 h3 => hk _ _ (h.stored k n mv (hst k n mv hm) i a h1 h2 h3)⟩
  · rw [ha] at hi
    obtain ⟨v, ds, temps, srv, g1, g2, g3, g4⟩ := h.acks p i hi
    exact ⟨v, ds, temps, srv, hv _ _ g1, hs _ _ g2, g3, hk _ _ g4⟩
  · obtain ⟨v, g1, g2⟩ := h.ready p l (hp p l hl)
    exact ⟨v, hv _ _ g1, fun i a h1 h2 h3 => hk _ _ (g2 i a h1 h2 h3)⟩

theorem linv_step {P : Params} {reqs : Nat → Req} (hc : ∀ a, '#' ∉ P.shaS a ∧ '.' ∉ P.shaS a)
    {s s' : Sys2} {sp : Spec} {e : Ev2} {L : List (Str × Str)} (hi : FInv P reqs s)
    (hs : SInv reqs s.sys sp) (hl : LInv s.sys L) (hok : Sound2 P reqs s sp e) (hst : Step2 P reqs s e s') :
    LInv s'.sys (L ++ lossesOf [e]) := by
  have hm := ver_mono2 hi.idle hst
  have hadd : ∀ (files' : Str → Str → Option (List Bytes)),
      (∀ a f, (s.sys.files a f).isSome = true → (files' a f).isSome = true) →
      ∀ a f, Kept s.sys.files L a f → Kept files' (L ++ lossesOf [e]) a f := by
    intro files' hf a f h
    rcases h with h | h
    · exact Or.inl (hf a f h)
    · exact Or.inr (List.mem_append_left _ h)
  have hstore : ∀ srv f ps a b, (s.sys.files a b).isSome = true → (store1 s.sys.files srv f ps a b).isSome = true := by
    intro srv f ps a b h
    rw [store1_get]
    split
    · rfl
    · exact h
  cases e with
  | base e =>
    obtain ⟨t, hst, rfl⟩ := hst
    cases e with
    | prepare p =>
      obtain ⟨h1, mb, v, _, _, h4, rfl⟩ := hst
      refine linv_mono hl (hadd _ fun _ _ h => h) hm (fun _ _ h => h) rfl (fun q l hq => ?_) (fun _ _ _ h => h)
      by_cases hqp : q = p
      · subst hqp; simp only [upd_same] at hq; cases hq
      · simp only [upd_ne _ _ hqp] at hq; exact hq
    | locate p evs =>
      obtain ⟨_, v, l, h2, h3, h4, h5, rfl⟩ := hst
      have hk := hadd s.sys.files fun _ _ h => h
      refine ⟨fun q i hq => ?_, fun q l' hq => ?_, fun k n mv hm i a h1 h2 h3 => hk _ _ (hl.stored k n mv hm i a h1 h2 h3)⟩
      · obtain ⟨v, ds, temps, srv, g1, g2, g3, g4⟩ := hl.acks q i hq
        exact ⟨v, ds, temps, srv, g1, g2, g3, hk _ _ g4⟩
      · by_cases hqp : q = p
        · subst hqp
          simp only [upd_same, Phase.ready.injEq] at hq
          subst hq
          refine ⟨v, h2, fun i a hin hla ha => Or.inl ?_⟩
          obtain ⟨e1, used, rest, e2, _, e3⟩ := Api.C41_entries _ _ _ h5
          have hin' : i < (v.ds + v.ps).toNat := by
            rw [← e1]
            exact (List.getElem?_eq_some_iff.1 hla).1
          rcases e3 i hin' with ⟨ip, f1, r, f2, f3⟩ | ⟨f1, _⟩
          · rw [hla] at f1; cases f1
            obtain ⟨ip, key, j, g1, g2, g3, g4⟩ := h3 r (by rw [e2]; exact List.mem_append_left _ f2)
            have hv := hc (nameText reqs q v)
            rw [← (hi.ok.ver q v h2).1] at hv
            have := Api.C41_answer (fun f => (s.sys.files ip f).isSome) ip v.hash key j g3 g1 hv.1 hv.2 g2
            rw [g4, Option.map_some, f3] at this
            split at this
            · rename_i hh
              simp only [Option.some.injEq, Prod.mk.injEq, Int.natCast_inj] at this
              obtain ⟨t1, t2⟩ := this
              subst t1
              have : i = j := by omega
              subst this
              simpa [fname] using hh
            · cases this
          · rw [hla] at f1; cases f1; exact absurd rfl ha
        · simp only [upd_ne _ _ hqp] at hq
          obtain ⟨v, g1, g2⟩ := hl.ready q l' hq
          exact ⟨v, g1, fun i a h1 h2 h3 => hk _ _ (g2 i a h1 h2 h3)⟩
    | send p ds env =>
      obtain ⟨_, h2, v, temps, h3, _, _, _, _, h7, rfl⟩ := hst
      refine linv_mono hl (hadd _ fun _ _ h => h) hm (fun q x hx => ?_) rfl (fun _ _ h => h) (fun _ _ _ h => h)
      simp only
      rw [upd_ne]
      · exact hx
      · rintro rfl; rw [h2] at hx; cases hx
    | commit p i r =>
      obtain ⟨v, ds, temps, srv, t, h1, h2, h3, h4, h5, rfl⟩ := hst
      generalize hcont : (if v.compress then P.gz t else t) = c
      have hf : ∀ a b, (s.sys.files a b).isSome = true → ((if r.performed then
          store1 s.sys.files srv (fname v.hash i) c else s.sys.files) a b).isSome = true := by
        intro a b h
        split
        · exact hstore _ _ _ a b h
        · exact h
      have hk := hadd _ hf
      refine ⟨fun q j hj => ?_, fun q l hq => ?_, fun k n mv hm i a h1 h2 h3 => hk _ _ (hl.stored k n mv hm i a h1 h2 h3)⟩
      · have hold : j ∈ s.sys.acks q → ∃ w ds' temps' srv', s.sys.ver q = some w ∧ s.sys.sent q = some (ds', temps') ∧
            ds'[j]? = some srv' ∧ Kept (if r.performed then store1 s.sys.files srv (fname v.hash i) c else s.sys.files)
              (L ++ lossesOf [.base (.commit p i r)]) srv' (fname w.hash j) := by
          intro hj
          obtain ⟨w, ds', t', srv', g1, g2, g3, g4⟩ := hl.acks q j hj
          exact ⟨w, ds', t', srv', g1, g2, g3, hk _ _ g4⟩
        simp only at hj
        split at hj
        · rename_i hokr
          by_cases hqp : q = p
          · subst hqp
            rw [upd_same] at hj
            rcases List.mem_cons.1 hj with rfl | hj
            · refine ⟨v, ds, temps, srv, h1, h2, h4, Or.inl ?_⟩
              show ((if r.performed then store1 s.sys.files srv (fname v.hash j) c else s.sys.files)
                srv (fname v.hash j)).isSome = true
              rw [hokr, if_pos (by rfl), store1_get]; simp
            · exact hold hj
          · rw [upd_ne _ _ hqp] at hj; exact hold hj
        · exact hold hj
      · obtain ⟨w, g1, g2⟩ := hl.ready q l hq
        exact ⟨w, g1, fun i a h1 h2 h3 => hk _ _ (g2 i a h1 h2 h3)⟩
    | finish p sees =>
      obtain ⟨_, v, ds, temps, h2, h3, h4, rfl⟩ := hst
      have hk := hadd s.sys.files fun _ _ h => h
      refine ⟨fun q i hq => ?_, fun q l' hq => ?_, fun k n mv hm i a h1 h2 h3 => hk _ _ (hl.stored k n mv hm i a h1 h2 h3)⟩
      · obtain ⟨v, ds, temps, srv, g1, g2, g3, g4⟩ := hl.acks q i hq
        exact ⟨v, ds, temps, srv, g1, g2, g3, hk _ _ g4⟩
      · by_cases hqp : q = p
        · subst hqp
          simp only [upd_same, Phase.ready.injEq] at hq
          subst hq
          refine ⟨v, h2, fun i a hin hla ha => ?_⟩
          have hsee : sees = true := hok.2
          rcases h4 with h4 | h4
          · obtain ⟨w, ds', t, srv, g1, g2, g3, g4⟩ := hl.acks q i (h4 i hin)
            rw [h2] at g1; cases g1
            rw [h3] at g2; cases g2
            rw [hla] at g3; cases g3
            exact hk _ _ g4
          · rw [hsee] at h4; cases h4
        · simp only [upd_ne _ _ hqp] at hq
          obtain ⟨v, g1, g2⟩ := hl.ready q l' hq
          exact ⟨v, g1, fun i a h1 h2 h3 => hk _ _ (g2 i a h1 h2 h3)⟩
    | fail p =>
      cases (show t = _ from hst)
      refine linv_mono hl (hadd _ fun _ _ h => h) hm (fun _ _ h => h) rfl (fun q l hq => ?_) (fun _ _ _ h => h)
      by_cases hqp : q = p
      · subst hqp; simp only [upd_same] at hq; cases hq
      · simp only [upd_ne _ _ hqp] at hq; exact hq
    | add p uid ts answered =>
      obtain ⟨op, q, st, h1, h2, rfl⟩ := hst
      have hk := hadd s.sys.files fun _ _ h => h
      obtain ⟨l, v, g1, g2, rfl⟩ := addOp_eq h1
      obtain ⟨c1, c2, _⟩ := Meta.C16_added_readable h2
      refine ⟨fun q' i hq => ?_, fun q' l' hq => ?_, fun k n mv hmv i a h1 h2 h3 => ?_⟩
      · obtain ⟨v, ds, temps, srv, g1, g2, g3, g4⟩ := hl.acks q' i hq
        exact ⟨v, ds, temps, srv, g1, g2, g3, hk _ _ g4⟩
      · have : s.sys.phase q' = .ready l' := by
          cases answered with
          | false => exact hq
          | true =>
            simp only [if_true] at hq
            by_cases hqp : q' = p
            · subst hqp; simp only [upd_same] at hq; cases hq
            · simp only [upd_ne _ _ hqp] at hq; exact hq
        obtain ⟨v, g1, g2⟩ := hl.ready q' l' this
        exact ⟨v, g1, fun i a h1 h2 h3 => hk _ _ (g2 i a h1 h2 h3)⟩
      · rw [← Meta.getVer_ok_iff] at hmv
        by_cases hkn : (k, n) = ((reqs p).key, q)
        · cases hkn
          rw [c1] at hmv
          cases hmv
          obtain ⟨v', r1, r2⟩ := hl.ready p l g1
          rw [g2] at r1; cases r1
          exact hk _ _ (r2 i a h1 h2 h3)
        · dsimp only at hmv
          rw [c2 k n hkn] at hmv
          exact hk _ _ (hl.stored k n mv ((Meta.getVer_ok_iff _ _ _ _).1 hmv) i a h1 h2 h3)
    | other op =>
      obtain ⟨hp, rfl⟩ := hst
      exact linv_mono hl (hadd _ fun _ _ h => h) hm (fun _ _ h => h) rfl (fun _ _ h => h)
        (fun k n mv h => plain_shrinks hp k n mv h)
  | lose srv f =>
    cases (show s' = _ from hst)
    refine linv_mono hl (fun a b h => ?_) (fun _ _ h => h) (fun _ _ h => h) rfl (fun _ _ h => h) (fun _ _ _ h => h)
    by_cases hab : a = srv ∧ b = f
    · obtain ⟨rfl, rfl⟩ := hab
      exact Or.inr (by simp [lossesOf])
    · rcases h with h | h
      · refine Or.inl ?_
        dsimp only
        rw [drop1_get, if_neg hab]; exact h
      · exact Or.inr (List.mem_append_left _ h)
  | move src dst f =>
    obtain ⟨ps, _, rfl⟩ := hst
    exact linv_mono hl (hadd _ (hstore _ _ _)) (fun _ _ h => h) (fun _ _ h => h) rfl (fun _ _ h => h) (fun _ _ _ h => h)
  | record now h i srv =>
    cases (show s' = _ from hst)
    obtain ⟨r1, _⟩ := locate_step (now := now) (h := h) (i := i) (val := srv) (sinv_seq hs)
    have hk := hadd s.sys.files fun _ _ h => h
    refine ⟨fun q i hq => ?_, fun q l' hq => ?_, fun k n mv hmv j a h1 h2 h3 => ?_⟩
    · obtain ⟨v, ds, temps, srv, g1, g2, g3, g4⟩ := hl.acks q i hq
      exact ⟨v, ds, temps, srv, g1, g2, g3, hk _ _ g4⟩
    · obtain ⟨v, g1, g2⟩ := hl.ready q l' hq
      exact ⟨v, g1, fun i a h1 h2 h3 => hk _ _ (g2 i a h1 h2 h3)⟩
    · obtain ⟨mv0, m1, m2⟩ := r1 k n mv hmv
      rcases m2 with rfl | ⟨hx, ts', rfl⟩
      · exact hk _ _ (hl.stored k n _ m1 j a h1 h2 h3)
      · dsimp only at h1 h2 ⊢
        rw [List.getElem?_set] at h2
        split at h2
        · rename_i hij
          subst hij
          split at h2
          · cases h2
            refine Or.inl ?_
            rw [hok.2.2 k n mv0 hx m1]
            exact hok.2.1
          · cases h2
        · exact hk _ _ (hl.stored k n _ m1 j a h1 h2 h3)
  | read g k n r =>
    obtain ⟨_, mv, _, _, rfl⟩ := hst
    exact linv_mono hl (hadd _ fun _ _ h => h) (fun _ _ h => h) (fun _ _ h => h) rfl (fun _ _ h => h) (fun _ _ _ h => h)
  | mend g i srv =>
    obtain ⟨mv, reps, b, _, _, rfl⟩ := hst
    exact linv_mono hl (hadd _ (hstore _ _ _)) (fun _ _ h => h) (fun _ _ h => h) rfl (fun _ _ h => h) (fun _ _ _ h => h)
  | update now id body =>
    cases (show s' = _ from hst)
    refine linv_mono hl (hadd _ fun _ _ h => h) (fun _ _ h => h) (fun _ _ h => h) rfl (fun _ _ h => h) (fun k n mv h => ?_)
    simpa only [Api.MetaRpc.C75_update_always_refused] using h

theorem linv_run {P : Params} {reqs : Nat → Req} (hB : 0 < P.ioB) (hpB : Object.pageSize ∣ P.ioB)
    (hq : ReqsOk reqs) {es : List Ev2} {s : Sys2} {sp : Spec} (hr : Run2 P reqs (Sound2 P reqs) es s sp)
    (hh : HashesOk P reqs s.sys) : LInv s.sys (lossesOf es) := by
  induction hr with
  | nil =>
    refine ⟨fun _ _ h => by simp [Sys2.init, Sys.init] at h, fun _ _ h => by simp [Sys2.init, Sys.init] at h,
      fun k n mv h => ?_⟩
    obtain ⟨b, hb, _⟩ := h
    simp [Sys2.init, Sys.init, Meta.Store.empty, KMap.get, KMap.empty, KMap.rawGet] at hb
  | snoc hr ho hst ih =>
    have hidle : ∀ {es s sp}, Run2 P reqs (Sound2 P reqs) es s sp → ∀ p, s.sys.phase p = .idle → s.sys.ver p = none := by
      intro es s sp hr
      induction hr with
      | nil => exact fun _ _ => rfl
      | snoc hr ho hst ih => exact idle_step2 ih hst
    have hh' := hashes_mono (ver_mono2 (hidle hr) hst) hh
    obtain ⟨h1, h2⟩ := inv_run2 hB hpB hq (fun _ _ _ h => h.1) hr hh'
    rw [lossesOf_append]
    exact linv_step hh.chars h1 h2 (ih hh') ho hst

/-- **C105** In every execution, a version is readable while no more of the recorded shards were ever lost than there are parity shards,
or one copy was not: what counts is only how often a recorded file disappeared, wherever files were moved and whatever was
repaired meanwhile.  Missing for the full property: see `C105_get_partial`; that the index of hashes is right when locations are
changed. -/
theorem C105_losses_partial {P : Params} {reqs : Nat → Req} (hB : 0 < P.ioB) (hpB : Object.pageSize ∣ P.ioB)
    (hq : ReqsOk reqs) {es : List Ev2} {s : Sys2} {sp : Spec} (hr : Run2 P reqs (Sound2 P reqs) es s sp)
    (hh : HashesOk P reqs s.sys) {k : Str} {n p : Nat} (hsp : sp k n = some p) (hp : Honest P reqs p)
    {mv : Meta.Version} (hmv : Meta.getVer s.sys.store k n = .ok mv) (hcomp : mv.compress = false) (hal : Aligned P mv)
    (up : Str → Bool) (dead : Nat → Bool) (hu : Unlost (lossesOf es) mv up dead)
    (lost : Nat → Nat) (hlost : ∀ i, lost i < Object.pageSize) (pick : Nat → Nat)
    (reads : List (Nat × (Nat → Bool))) (hr1 : ∀ r ∈ reads, 0 < r.1)
    (hr2 : (reqs p).content.length < reads.length) (hr3 : ∀ r ∈ reads, ∀ i, r.2 i = true → dead i = true) :
    getObject P s.sys up lost pick reads k n = some (reqs p).content := by
  obtain ⟨h1, h2⟩ := inv_run2 hB hpB hq (fun _ _ _ h => h.1) hr hh
  have hl := linv_run hB hpB hq hr hh
  have hkept : ∀ i < nShards mv.storeStrategy mv.dataShards mv.parityShards, up (serverOf mv i) = true →
      (serverOf mv i, fname mv.hash i) ∉ lossesOf es → i < mv.locate.length ∧
        (s.sys.files (serverOf mv i) (fname mv.hash i)).isSome = true := by
    intro i hin hup hno
    have hne : serverOf mv i ≠ [] := by
      intro he; rw [he, hu.1] at hup; cases hup
    have hget : mv.locate[i]? = some (serverOf mv i) := by
      unfold serverOf at hne ⊢
      rw [List.getD_eq_getElem?_getD] at hne ⊢
      cases hx : mv.locate[i]? with
      | none => rw [hx] at hne; exact absurd rfl hne
      | some y => rfl
    refine ⟨(List.getElem?_eq_some_iff.1 hget).1, ?_⟩
    rcases hl.stored k n mv ((Meta.getVer_ok_iff _ _ _ _).1 hmv) i _ hin hget hne with h | h
    · exact h
    · exact absurd h hno
  refine (get_core2 h1.ok h2 hh hq hB hpB hsp hp hmv hcomp hal up lost hlost pick reads).1 dead ⟨fun hm => ?_, fun hm => ?_⟩
    hr1 hr2 hr3
  · obtain ⟨i, i1, i2, i3⟩ := hu.2.1 hm
    obtain ⟨a, b⟩ := hkept i (by unfold nShards; rw [if_pos hm]; exact i1) i2 i3
    exact ⟨i, a, i2, b⟩
  · refine Nat.le_trans (hu.2.2 hm) (List.countP_mono_left fun i hi hx => ?_)
    simp only [Bool.and_eq_true, Bool.not_eq_true', decide_eq_false_iff_not] at hx ⊢
    obtain ⟨⟨x1, x2⟩, x3⟩ := hx
    exact ⟨⟨x1, (hkept i (by unfold nShards; rw [if_neg hm]; exact List.mem_range.1 hi) x1 x2).2⟩, x3⟩

end Verif.System
