import Verif.System.Lemmas
import Verif.System.Sample
import Verif.Object.EndToEnd

/-!
# C72: reading returns what was stored
-/

namespace Verif.System

open Verif

/-! ## Conditions of reading -/

/-- The layout of a version is one that the data servers store faithfully (else `C33_padding_corrupts`): whole
pages per shard and block; and the library supports the number of shards. -/
def Aligned (P : Params) (mv : Meta.Version) : Prop :=
  (mv.storeStrategy = Api.multiReplication → 0 < P.cpBlock) ∧
  (mv.storeStrategy ≠ Api.multiReplication →
    0 < mv.dataShards ∧ (P.code mv.dataShards.toNat mv.parityShards.toNat).isSome ∧
    0 < (rsConf P mv.dataShards mv.parityShards mv.size).blockPerShard ∧
    Object.pageSize ∣ (rsConf P mv.dataShards mv.parityShards mv.size).blockPerShard)

/-- Enough of the recorded servers answer: one of the copies, or as many as there are data shards that go on
answering until the end (`dead`: shards whose servers fail while reading). -/
def Enough (mv : Meta.Version) (up : Str → Bool) (dead : Nat → Bool) : Prop :=
  up [] = false ∧
  (mv.storeStrategy = Api.multiReplication →
    ∃ i < mv.dataShards.toNat, up (serverOf mv i) = true) ∧
  (mv.storeStrategy ≠ Api.multiReplication →
    mv.dataShards.toNat ≤ (List.range (mv.dataShards.toNat + mv.parityShards.toNat)).countP
      (fun i => up (serverOf mv i) && !dead i))

/-- An upload of `reqs p` whose client announced digest and length of what it sent (for content that is
already stored nothing checks this, `C39_dedup_unverified`). -/
structure Honest (P : Params) (reqs : Nat → Req) (p : Nat) : Prop where
  digest : P.sha (reqs p).content = (reqs p).ver.hash
  size : (reqs p).ver.size = (reqs p).content.length
  nonempty : (reqs p).content ≠ []

/-! ## Proof -/

theorem same_content {P : Params} {reqs : Nat → Req} {s : Sys} (hi : SysInv P reqs s)
    (hh : HashesOk P reqs s) (hq : ReqsOk reqs) {p : Nat} (hp : Honest P reqs p) {v : Api.Ver}
    (hv : s.ver p = some v) {a : Str} {i : Nat} {ps : List Bytes}
    (hf : s.files a (fname v.hash i) = some ps) :
    ∃ q w, s.ver q = some w ∧ i < nShards w.strategy w.ds w.ps ∧
      (reqs q).content = (reqs p).content ∧ w.strategy = v.strategy ∧ w.compress = v.compress ∧
      w.size = v.size ∧ (v.strategy = Api.multiReplication ∨ w.ds = v.ds ∧ w.ps = v.ps) ∧
      (v.compress = false → ShardIs P reqs q w i ps) := by
  obtain ⟨q, w, j, h1, h2, h3, ⟨h4, h5⟩, h6⟩ := hi.files _ _ _ hf
  obtain ⟨e1, rfl⟩ := fname_inj h2
  obtain ⟨p1, p2⟩ := hi.ver p v hv
  obtain ⟨q1, q2⟩ := hi.ver q w h1
  rw [p1, q1] at e1
  have htext := hh.name p q v w hv h1 e1
  have hsame := Api.C42_same_key_partial P.shaS
    ⟨(reqs p).ver.hash, v.strategy, v.ds, v.ps, v.compress⟩
    ⟨(reqs q).ver.hash, w.strategy, w.ds, w.ps, w.compress⟩
    (by simp only; rw [← hp.digest, ← h5]; exact hh.len _ _) e1
  rcases hsame with ⟨s1, s2, s3, s4⟩ | ⟨hne, _⟩
  · simp only at s1 s2 s3 s4
    have hc : (reqs q).content = (reqs p).content :=
      hh.body q p w v h1 hv (by rw [h5, hp.digest, s1])
    refine ⟨q, w, h1, h3, hc, s2.symm, s3.symm, ?_, ?_, ?_⟩
    · rw [q2, p2, hq.size q h4, hp.size, hc]
    · rcases s4 with s4 | ⟨s4, s5⟩
      · exact Or.inl s4
      · exact Or.inr ⟨s4.symm, s5.symm⟩
    · intro hcomp; exact h6 (by rw [← s3]; exact hcomp)
  · exact absurd htext hne

theorem copy_map {n i : Nat} (hi : i < n) (blocks : List Bytes) :
    (blocks.map fun b => (Object.copyEnc n b).getD i []) = blocks := by
  conv => rhs; rw [← List.map_id blocks]
  apply List.map_congr_left
  intro b _
  simp [Object.copyEnc, List.getD_eq_getElem?_getD, hi]

theorem rsEnc_eq {P : Params} {k m : Nat} {cod : Object.Code k m} (h : P.code k m = some cod) (b : Bytes) :
    rsEnc P k m b = Object.encodeBlock cod b := by
  unfold rsEnc; rw [h]

theorem rsConf_shards (P : Params) (ds ps size : Int) :
    (rsConf P ds ps size).dataShards = ds.toNat ∧ (rsConf P ds ps size).parityShards = ps.toNat := by
  unfold rsConf Object.streamConfig
  simp only
  split <;> exact ⟨rfl, rfl⟩

/-- The pieces of every file of a content. -/
theorem file_blocks {P : Params} {reqs : Nat → Req} {s : Sys} (hi : SysInv P reqs s)
    (hh : HashesOk P reqs s) (hq : ReqsOk reqs) {p : Nat} (hp : Honest P reqs p) {v : Api.Ver}
    (hv : s.ver p = some v) (hcomp : v.compress = false) (hbs : 0 < blockSize P v.strategy v.ds v.ps v.size)
    {a : Str} {i : Nat} {ps : List Bytes} (hf : s.files a (fname v.hash i) = some ps) :
    ∃ blocks, Object.WF (blockSize P v.strategy v.ds v.ps v.size) blocks ∧
      blocks.flatten = (reqs p).content ∧
      ps = blocks.map fun b => if v.strategy = Api.multiReplication then b
        else (rsEnc P v.ds.toNat v.ps.toNat b).getD i [] := by
  obtain ⟨q, w, h1, h2, h3, h4, h5, h6, h7, h8⟩ := same_content hi hh hq hp hv hf
  have hbe : blockSize P w.strategy w.ds w.ps w.size = blockSize P v.strategy v.ds v.ps v.size := by
    unfold blockSize
    rw [h4]
    rcases h7 with h7 | ⟨h7, h7'⟩
    · rw [if_pos h7, if_pos h7]
    · rw [h7, h7', h6]
  obtain ⟨bl, b1, b2, b3⟩ := h8 hcomp (by rw [hbe]; exact hbs)
  refine ⟨bl, by rw [← hbe]; exact b1, by rw [b2, h3], ?_⟩
  rw [b3]
  by_cases hm : v.strategy = Api.multiReplication
  · simp only [hm, if_true]
    have hwm : w.strategy = Api.multiReplication := by rw [h4, hm]
    simp only [nShards, if_pos hwm] at h2
    simp only [encode, if_pos hwm]
    rw [copy_map h2]; simp
  · simp only [if_neg hm]
    rcases h7 with h7 | ⟨h7, h7'⟩
    · exact absurd h7 hm
    · simp only [encode, h4, if_neg hm]
      rw [h7, h7']

/-- The core of C72: reading the version that upload `p` recorded. -/
theorem get_core {P : Params} {reqs : Nat → Req} {s : Sys} {sp : Spec} (hi : SysInv P reqs s)
    (hst : StoreInv reqs s sp) (hh : HashesOk P reqs s) (hq : ReqsOk reqs)
    (hB : 0 < P.ioB) (hpB : Object.pageSize ∣ P.ioB)
    {k : Str} {n p : Nat} (hsp : sp k n = some p) (hp : Honest P reqs p) {mv : Meta.Version}
    (hmv : Meta.getVer s.store k n = .ok mv) (hcomp : mv.compress = false) (hal : Aligned P mv)
    (up : Str → Bool) (dead : Nat → Bool) (hup : Enough mv up dead)
    (lost : Nat → Nat) (hlost : ∀ i, lost i < Object.pageSize) (pick : Nat → Nat)
    (reads : List (Nat × (Nat → Bool))) (hr1 : ∀ r ∈ reads, 0 < r.1)
    (hr2 : (reqs p).content.length < reads.length) (hr3 : ∀ r ∈ reads, ∀ i, r.2 i = true → dead i = true) :
    getObject P s up lost pick reads k n = some (reqs p).content := by
  obtain ⟨p', v, l, uid, ts, g1, _, g3, g4, g5⟩ := hst.stored k n mv ((Meta.getVer_ok_iff _ _ _ _).1 hmv)
  rw [hsp] at g1; cases g1
  have hsize : mv.size.toNat = (reqs p).content.length := by
    rw [g4]
    simp only [toVersion]
    rw [(hi.ver p v g3).2, hp.size]; simp
  have hpres : ∀ i < nShards v.strategy v.ds v.ps, up (serverOf mv i) = true →
      (s.files (serverOf mv i) (fname mv.hash i)).isSome = true := by
    intro i hin hu
    have hml : mv.locate = l := by rw [g4]; rfl
    have hmh : mv.hash = v.hash := by rw [g4]; rfl
    have hne : serverOf mv i ≠ [] := by
      intro he; rw [he, hup.1] at hu; cases hu
    rw [hmh]
    apply g5 i (serverOf mv i) hin _ hne
    unfold serverOf at hne ⊢
    rw [hml, List.getD_eq_getElem?_getD] at hne ⊢
    cases hx : l[i]? with
    | none => rw [hx] at hne; exact absurd rfl hne
    | some y => rfl
  have hmh : mv.hash = v.hash := by rw [g4]; rfl
  have hms : mv.storeStrategy = v.strategy := by rw [g4]; rfl
  have hmd : mv.dataShards = v.ds := by rw [g4]; rfl
  have hmp : mv.parityShards = v.ps := by rw [g4]; rfl
  have hmc : mv.compress = v.compress := by rw [g4]; rfl
  have hmz : mv.size = v.size := by rw [g4]; rfl
  have hvc : v.compress = false := by rw [← hmc]; exact hcomp
  unfold getObject
  rw [hmv]
  simp only
  by_cases hm : mv.storeStrategy = Api.multiReplication
  · rw [if_pos hm, hsize]
    have hm' : v.strategy = Api.multiReplication := by rw [← hms]; exact hm
    obtain ⟨c1, c2, _⟩ := Object.C38_block_size P.cpBlock (hal.1 hm)
    have hbs : blockSize P v.strategy v.ds v.ps v.size = Object.initBlockSize P.cpBlock := by
      unfold blockSize; rw [if_pos hm']
    apply Object.C38_any_copy_suffices hB hpB (lost 0) (hlost 0) _ hp.nonempty
    · intro i j f hl hf
      split at hf
      · rename_i hij
        subst hij
        rw [Option.map_eq_some_iff] at hf
        obtain ⟨ps, f1, f2⟩ := hf
        rw [hmh] at f1
        obtain ⟨bl, b1, b2, b3⟩ := file_blocks hi hh hq hp g3 hvc (by rw [hbs]; exact c1) f1
        simp only [if_pos hm'] at b3
        rw [List.map_id'] at b3
        subst b3
        rw [hbs] at b1
        refine ⟨ps, ?_, b2, f2.symm⟩
        have := Object.copy_aligned (i := 0) (n := 1) (by omega) c2 ps b1
        rw [copy_map (by omega)] at this
        exact this
      · cases hf
    · obtain ⟨i, i1, i2⟩ := hup.2.1 hm
      have hin : i < nShards v.strategy v.ds v.ps := by
        unfold nShards; rw [if_pos hm', ← hmd]; exact i1
      have hp1 := hpres i hin i2
      have hil : i < mv.locate.length := by
        refine Nat.lt_of_not_le fun hcon => ?_
        have : serverOf mv i = [] := by
          unfold serverOf; rw [List.getD_eq_getElem?_getD, List.getElem?_eq_none hcon]; rfl
        rw [this, hup.1] at i2; cases i2
      exact ⟨i, i, by rw [List.getElem?_range hil], i2, by simpa using hp1⟩
  · rw [if_neg hm]
    have hm' : v.strategy ≠ Api.multiReplication := by rw [← hms]; exact hm
    obtain ⟨a1, a0, a2, a3⟩ := hal.2 hm
    obtain ⟨d1, d2⟩ := rsConf_shards P mv.dataShards mv.parityShards mv.size
    have hbsz : blockSize P v.strategy v.ds v.ps v.size =
        (rsConf P mv.dataShards mv.parityShards mv.size).blockSize := by
      unfold blockSize; rw [if_neg hm', hmd, hmp, hmz]
    have hcode : ∀ b, rsEnc P v.ds.toNat v.ps.toNat b =
        rsEnc P (rsConf P mv.dataShards mv.parityShards mv.size).dataShards
          (rsConf P mv.dataShards mv.parityShards mv.size).parityShards b := by
      intro b; rw [d1, d2, hmd, hmp]
    rw [← d1, ← d2] at a0
    have hall : (rsConf P mv.dataShards mv.parityShards mv.size).allShards =
        mv.dataShards.toNat + mv.parityShards.toNat := by
      unfold Object.RsConfig.allShards; rw [d1, d2]
    have hns : nShards v.strategy v.ds v.ps = mv.dataShards.toNat + mv.parityShards.toNat := by
      unfold nShards; rw [if_neg hm', hmd, hmp]
    have henough := hup.2.2 hm
    rw [hsize]
    generalize hc : rsConf P mv.dataShards mv.parityShards mv.size = c at *
    have hk : 0 < c.dataShards := by rw [d1]; omega
    have hbs : 0 < c.blockSize := Nat.mul_pos a2 hk
    obtain ⟨cod, hcod⟩ := Option.isSome_iff_exists.1 a0
    simp only [hcod]
    replace hcode : ∀ b, rsEnc P v.ds.toNat v.ps.toNat b = Object.encodeBlock cod b := by
      intro b; rw [hcode b, rsEnc_eq hcod]
    obtain ⟨blocks, u1, u2, u3⟩ := Object.upload_blocks c cod hk a2 (reqs p).body
    have hrd : ∀ i < c.allShards, ∀ x, shardAt P s up lost mv (c.shardSize (reqs p).content.length) i =
        some x → x = Object.strm cod i blocks := by
      intro i hin x hx
      unfold shardAt at hx
      split at hx
      · split at hx
        · cases hx
        · rename_i ps hps
          rw [hmh] at hps
          obtain ⟨bl, b1, b2, b3⟩ := file_blocks hi hh hq hp g3 hvc (by rw [hbsz]; exact hbs) hps
          rw [hbsz] at b1
          have hbb : bl = blocks := Object.wf_unique _ _ b1 u1 (by rw [b2, u2]; rfl)
          subst hbb
          simp only [if_neg hm', hcode] at b3
          have hl := Object.strm_length hk cod hin bl u1
          have hs' : ps.flatten = Object.strm cod i bl := by rw [b3]; rfl
          have h48 := Object.C48_store_partial hB hpB (hlost i) ps
            (by rw [b3]; exact Object.aligned_shards hk cod hin a3 bl u1) (by
              rw [hs', ← List.length_pos_iff, hl]
              apply Object.perShard_pos hk
              rw [u2]
              exact List.length_pos_iff.2 hp.nonempty)
          rw [hs', hl, u2] at h48
          have hsz : c.shardSize (reqs p).content.length =
            Object.perShard c.dataShards (reqs p).body.flatten.length := rfl
          rw [hsz, h48] at hx
          exact (Option.some.inj hx).symm
      · cases hx
    have hrp : ∀ i < c.allShards, up (serverOf mv i) = true →
        (shardAt P s up lost mv (c.shardSize (reqs p).content.length) i).isSome = true := by
      intro i hin hu
      have hpr := hpres i (by rw [hns, ← hall]; exact hin) hu
      unfold shardAt
      rw [if_pos hu]
      cases hps : s.files (serverOf mv i) (fname mv.hash i) with
      | none => rw [hps] at hpr; cases hpr
      | some ps =>
        simp only
        rw [hmh] at hps
        obtain ⟨bl, b1, b2, b3⟩ := file_blocks hi hh hq hp g3 hvc (by rw [hbsz]; exact hbs) hps
        rw [hbsz] at b1
        have hbb : bl = blocks := Object.wf_unique _ _ b1 u1 (by rw [b2, u2]; rfl)
        subst hbb
        simp only [if_neg hm', hcode] at b3
        have hl := Object.strm_length hk cod hin bl u1
        have hs' : ps.flatten = Object.strm cod i bl := by rw [b3]; rfl
        have h48 := Object.C48_store_partial hB hpB (hlost i) ps
          (by rw [b3]; exact Object.aligned_shards hk cod hin a3 bl u1) (by
            rw [hs', ← List.length_pos_iff, hl]
            apply Object.perShard_pos hk
            rw [u2]
            exact List.length_pos_iff.2 hp.nonempty)
        rw [hs', hl, u2] at h48
        have hsz : c.shardSize (reqs p).content.length =
            Object.perShard c.dataShards (reqs p).body.flatten.length := rfl
        rw [hsz, h48]; rfl
    generalize hrs : (List.range c.allShards).map
      (shardAt P s up lost mv (c.shardSize (reqs p).content.length)) = rs
    have hrsi : ∀ i < c.allShards, rs[i]? =
        some (shardAt P s up lost mv (c.shardSize (reqs p).content.length) i) := by
      intro i hin; rw [← hrs, List.getElem?_map, List.getElem?_range hin]; rfl
    have hrl : rs.length = c.allShards := by rw [← hrs]; simp
    have hera : Object.ErasureOf rs (Object.encOut cod blocks) := by
      refine ⟨by rw [hrl]; simp [Object.encOut, Object.RsConfig.allShards], fun i x hx => ?_⟩
      have hin : i < c.allShards := by
        rw [← hrl]; exact (List.getElem?_eq_some_iff.1 hx).1
      rw [hrsi i hin] at hx
      have := hrd i hin x (Option.some.inj hx)
      have hin' : i < c.dataShards + c.parityShards := hin
      simp [Object.encOut, List.getElem?_range hin', this]
    have hcnt : c.dataShards ≤ Object.presentCount (Object.killReaders dead rs) := by
      rw [d1]
      refine Nat.le_trans henough ?_
      rw [← hall]
      have hkr : Object.killReaders dead rs = (List.range c.allShards).map fun i =>
          if dead i then none else shardAt P s up lost mv (c.shardSize (reqs p).content.length) i := by
        apply List.ext_getElem?
        intro i
        rw [Object.killReaders, List.getElem?_mapIdx]
        by_cases hin : i < c.allShards
        · rw [hrsi i hin, List.getElem?_map, List.getElem?_range hin]; rfl
        · rw [List.getElem?_eq_none (by omega), List.getElem?_eq_none (by simp; omega)]; rfl
      rw [hkr]
      unfold Object.presentCount
      rw [List.countP_map]
      apply List.countP_mono_left
      intro i hin hu
      simp only [Bool.and_eq_true, Bool.not_eq_true'] at hu
      simp only [Function.comp_apply, hu.2]
      exact hrp i (List.mem_range.1 hin) hu.1
    have hsv := Object.C34_survives c cod hk a2 (reqs p).body _ u3 rs hera dead hcnt reads hr3
    have hsv' := hsv.2.1 (hsv.2.2 hr1 hr2)
    exact congrArg some hsv'

/-! ## C72 -/

/-- Later steps. -/
inductive Steps (P : Params) (reqs : Nat → Req) : Sys → Spec → List Ev → Sys → Spec → Prop
  | nil {s : Sys} {sp : Spec} : Steps P reqs s sp [] s sp
  | cons {s s1 s2 : Sys} {sp sp2 : Spec} {e : Ev} {es : List Ev} : Step P reqs s e s1 →
      Steps P reqs s1 (specNext reqs s e s1 sp) es s2 sp2 → Steps P reqs s sp (e :: es) s2 sp2

theorem run_steps {P : Params} {reqs : Nat → Req} {es : List Ev} {s : Sys} {sp : Spec} (h : Run P reqs es s sp)
    {es2 : List Ev} {s2 : Sys} {sp2 : Spec} (h2 : Steps P reqs s sp es2 s2 sp2) :
    Run P reqs (es ++ es2) s2 sp2 := by
  induction h2 generalizing es with
  | nil => simpa using h
  | cons hst _ ih =>
    have := ih (.snoc h hst)
    simpa using this

/-- **C72** The metadata server lists exactly the versions of the specification: a number is readable if and
only if an upload is stored under it. -/
theorem C72_recorded {P : Params} {reqs : Nat → Req} (hc : ∀ a, '#' ∉ P.shaS a ∧ '.' ∉ P.shaS a)
    (hq : ReqsOk reqs) {es : List Ev} {s : Sys} {sp : Spec} (hr : Run P reqs es s sp)
    (hrel : ∀ e ∈ es, e.Reliable) (k : Str) (n : Nat) :
    (∃ mv, Meta.getVer s.store k n = .ok mv) ↔ ∃ p, sp k n = some p ∧ k = (reqs p).key := by
  obtain ⟨_, h2⟩ := inv_run hc hq hr hrel
  constructor
  · rintro ⟨mv, h⟩
    obtain ⟨p, v, l, uid, ts, h3, h4, _⟩ := h2.stored k n mv ((Meta.getVer_ok_iff _ _ _ _).1 h)
    exact ⟨p, h3, h4⟩
  · rintro ⟨p, h, _⟩
    obtain ⟨mv, h⟩ := h2.spec k n p h
    exact ⟨mv, (Meta.getVer_ok_iff _ _ _ _).2 h⟩

/-- **C72** An upload that is answered with a number is stored under that number of its object, which no
stored version had before; everything else stays as it was. -/
theorem C72_answered {P : Params} {reqs : Nat → Req} (hc : ∀ a, '#' ∉ P.shaS a ∧ '.' ∉ P.shaS a)
    (hq : ReqsOk reqs) {es : List Ev} {s : Sys} {sp : Spec} (hr : Run P reqs es s sp)
    (hrel : ∀ e ∈ es, e.Reliable) {p : Nat} {uid : Str} {ts : Int} {s' : Sys}
    (hst : Step P reqs s (.add p uid ts true) s') :
    ∃ q, s'.phase p = .ok q ∧ sp (reqs p).key q = none ∧
      specNext reqs s (.add p uid ts true) s' sp (reqs p).key q = some p ∧
      ∀ k n, (k, n) ≠ ((reqs p).key, q) → specNext reqs s (.add p uid ts true) s' sp k n = sp k n := by
  obtain ⟨_, h2⟩ := inv_run hc hq hr hrel
  obtain ⟨op, q, st, h3, h4, rfl⟩ := hst
  refine ⟨q, by simp [upd_same], ?_, ?_, ?_⟩
  · cases hx : sp (reqs p).key q with
    | none => rfl
    | some p' =>
      obtain ⟨mv, b, hb, hi⟩ := h2.spec _ _ _ hx
      obtain ⟨l, v, _, _, rfl⟩ := addOp_eq h3
      obtain ⟨b', _, _, e1, e2, _, e4, _⟩ := Meta.addVer_ok (Meta.step_addVer_seq h4)
      rw [hb] at e1; cases e1
      rw [hi] at e4; cases e4
  · rw [specNext_add h3 h4]; simp
  · intro k n hne
    rw [specNext_add h3 h4]
    simp only
    rw [if_neg]
    rintro ⟨rfl, rfl⟩
    exact hne rfl

/-- **C72** A stored version stays the one of its upload until it, its object, or all versions of its object
are removed. -/
theorem C72_stable {P : Params} {reqs : Nat → Req} (hc : ∀ a, '#' ∉ P.shaS a ∧ '.' ∉ P.shaS a)
    (hq : ReqsOk reqs) {es : List Ev} {s : Sys} {sp : Spec} (hr : Run P reqs es s sp)
    (hrel : ∀ e ∈ es, e.Reliable) {e : Ev} {s' : Sys} (hst : Step P reqs s e s') {k : Str} {n p : Nat}
    (hsp : sp k n = some p) (hno : ∀ op, e = .other op → ¬ Removes k n op) :
    specNext reqs s e s' sp k n = some p := by
  obtain ⟨_, h2⟩ := inv_run hc hq hr hrel
  by_cases hl : e.local_
  · rw [(local_store hl hst).2]; exact hsp
  · cases e with
    | add p' uid ts answered =>
      obtain ⟨op, q, st, h3, h4, rfl⟩ := hst
      rw [specNext_add h3 h4]
      simp only
      rw [if_neg]
      · exact hsp
      · rintro ⟨rfl, rfl⟩
        obtain ⟨mv, b, hb, hi⟩ := h2.spec _ _ _ hsp
        obtain ⟨l, v, _, _, rfl⟩ := addOp_eq h3
        obtain ⟨b', _, _, e1, e2, _, e4, _⟩ := Meta.addVer_ok (Meta.step_addVer_seq h4)
        rw [hb] at e1; cases e1
        rw [hi] at e4; cases e4
    | other op =>
      obtain ⟨hp, rfl⟩ := hst
      obtain ⟨mv, hmv⟩ := h2.spec _ _ _ hsp
      have := plain_keeps hp (hno op rfl) hmv
      simp only [specNext, (Meta.getVer_ok_iff _ _ _ _).2 this]
      exact hsp
    | _ => exact absurd trivial hl

/-- **C72** In every execution, reading a stored version returns exactly the content of the upload that is
stored there, when enough of the recorded servers answer — however uploads overlapped, shared content or
failed.  Missing for the full property: waits that lose errors (`C72_lost_error`), layouts that are not made
of whole pages (`C33_padding_corrupts`), clients that announce a wrong digest of stored content
(`C39_dedup_unverified`), compressed versions. -/
theorem C72_get_partial {P : Params} {reqs : Nat → Req} (hB : 0 < P.ioB) (hpB : Object.pageSize ∣ P.ioB)
    (hq : ReqsOk reqs) {es : List Ev} {s : Sys} {sp : Spec} (hr : Run P reqs es s sp)
    (hrel : ∀ e ∈ es, e.Reliable) (hh : HashesOk P reqs s)
    {k : Str} {n p : Nat} (hsp : sp k n = some p) (hp : Honest P reqs p) {mv : Meta.Version}
    (hmv : Meta.getVer s.store k n = .ok mv) (hcomp : mv.compress = false) (hal : Aligned P mv)
    (up : Str → Bool) (dead : Nat → Bool) (hup : Enough mv up dead)
    (lost : Nat → Nat) (hlost : ∀ i, lost i < Object.pageSize) (pick : Nat → Nat)
    (reads : List (Nat × (Nat → Bool))) (hr1 : ∀ r ∈ reads, 0 < r.1)
    (hr2 : (reqs p).content.length < reads.length) (hr3 : ∀ r ∈ reads, ∀ i, r.2 i = true → dead i = true) :
    getObject P s up lost pick reads k n = some (reqs p).content := by
  obtain ⟨h1, h2⟩ := inv_run hh.chars hq hr hrel
  exact get_core h1 h2 hh hq hB hpB hsp hp hmv hcomp hal up dead hup lost hlost pick reads hr1 hr2 hr3

/-- **C72** Read after write: once an upload was answered with a number, that number reads as its content
after any further steps that do not remove it.  Missing for the full property: see `C72_get_partial`. -/
theorem C72_read_after_write_partial {P : Params} {reqs : Nat → Req} (hB : 0 < P.ioB)
    (hpB : Object.pageSize ∣ P.ioB) (hq : ReqsOk reqs) {es : List Ev} {s : Sys} {sp : Spec}
    (hr : Run P reqs es s sp) {p : Nat} {uid : Str} {ts : Int} {s1 : Sys}
    (hst : Step P reqs s (.add p uid ts true) s1) {es2 : List Ev} {s2 : Sys} {sp2 : Spec}
    (hst2 : Steps P reqs s1 (specNext reqs s (.add p uid ts true) s1 sp) es2 s2 sp2)
    (hrel : ∀ e ∈ es ++ es2, e.Reliable) (hh : HashesOk P reqs s2) (hp : Honest P reqs p) :
    ∃ q, s1.phase p = .ok q ∧ ((∀ op, .other op ∈ es2 → ¬ Removes (reqs p).key q op) →
      ∃ mv, Meta.getVer s2.store (reqs p).key q = .ok mv ∧
        ∀ (up : Str → Bool) (dead : Nat → Bool) (lost pick : Nat → Nat) (reads : List (Nat × (Nat → Bool))),
          mv.compress = false → Aligned P mv → Enough mv up dead → (∀ i, lost i < Object.pageSize) →
          (∀ r ∈ reads, 0 < r.1) → (reqs p).content.length < reads.length →
          (∀ r ∈ reads, ∀ i, r.2 i = true → dead i = true) →
          getObject P s2 up lost pick reads (reqs p).key q = some (reqs p).content) := by
  have hrel1 : ∀ e ∈ es, e.Reliable := fun e he => hrel e (List.mem_append_left _ he)
  obtain ⟨q, g1, _, g3, _⟩ := C72_answered hh.chars hq hr hrel1 hst
  refine ⟨q, g1, fun hno => ?_⟩
  have hr1 := Run.snoc hr hst
  have hrel2 : ∀ e ∈ es ++ [Ev.add p uid ts true], e.Reliable := by
    intro e he
    rcases List.mem_append.1 he with he | he
    · exact hrel1 e he
    · rw [List.mem_singleton.1 he]; trivial
  have key : ∀ (pre : List Ev) (sa : Sys) (spa : Spec), Run P reqs pre sa spa → (∀ e ∈ pre, e.Reliable) →
      spa (reqs p).key q = some p → ∀ (tail : List Ev) (sb : Sys) (spb : Spec),
      Steps P reqs sa spa tail sb spb → (∀ e ∈ tail, e.Reliable) →
      (∀ op, .other op ∈ tail → ¬ Removes (reqs p).key q op) → spb (reqs p).key q = some p := by
    intro pre sa spa hrun hpre hs tail sb spb hsteps
    induction hsteps generalizing pre with
    | nil => intro _ _; exact hs
    | cons hst _ ih =>
      intro htail hnr
      refine ih (pre ++ [_]) (.snoc hrun hst) ?_ ?_ (fun e he => htail e (List.mem_cons_of_mem _ he))
        (fun op hop => hnr op (List.mem_cons_of_mem _ hop))
      · intro e he
        rcases List.mem_append.1 he with he | he
        · exact hpre e he
        · rw [List.mem_singleton.1 he]; exact htail _ (by simp)
      · exact C72_stable hh.chars hq hrun hpre hst hs (fun op hop => hnr op (by rw [← hop]; simp))
  have hsp2 := key _ _ _ hr1 hrel2 g3 es2 s2 sp2 hst2 (fun e he => hrel e (List.mem_append_right _ he)) hno
  have hrun2 := run_steps hr1 hst2
  have hrel3 : ∀ e ∈ (es ++ [Ev.add p uid ts true]) ++ es2, e.Reliable := by
    intro e he
    rcases List.mem_append.1 he with he | he
    · exact hrel2 e he
    · exact hrel e (List.mem_append_right _ he)
  obtain ⟨mv, hmv⟩ := (C72_recorded hh.chars hq hrun2 hrel3 _ q).2 ⟨p, hsp2, rfl⟩
  exact ⟨mv, hmv, fun up dead lost pick reads a1 a2 a3 a4 a5 a6 a7 =>
    C72_get_partial hB hpB hq hrun2 hrel3 hh hsp2 hp hmv a1 a2 up dead a3 lost a4 pick reads a5 a6 a7⟩

/-! ## The sample run meets all conditions -/

theorem ex_some : (runOf exP exReqs exEvs .init (fun _ _ => none)).isSome = true := by rfl

def exEnd : Sys × Spec := (runOf exP exReqs exEvs .init (fun _ _ => none)).get ex_some

theorem ex_run : Run exP exReqs exEvs exEnd.1 exEnd.2 := runOf_sound (Option.some_get ex_some).symm

theorem ex_reliable : ∀ e ∈ exEvs, e.Reliable := by
  intro e he
  simp only [exEvs, exSetup, List.cons_append, List.nil_append, List.mem_cons, List.not_mem_nil, or_false] at he
  rcases he with h | h | h | h | h | h | h | h | h | h | h | h | h | h | h | h | h | h | h | h | h | h | h | h | h <;>
    subst h <;> first | trivial | (intro k; rfl)

theorem ex_reqs : ReqsOk exReqs :=
  ⟨fun p _ => by rcases p with _ | _ | _ | p <;> rfl, fun p => by
    rcases p with _ | _ | _ | p <;> simp [exReqs]⟩

def exVer (h : Char) (st ds ps size shard : Int) : Api.Ver := ⟨false, [h], st, size, ds, ps, shard, []⟩

theorem ex_vers (p : Nat) : exEnd.1.ver p = match p with
    | 0 => some (exVer 'h' 1 2 1 3 2)
    | 1 => some (exVer 'h' 1 2 1 3 2)
    | 2 => some (exVer 'g' 2 2 0 3 3)
    | 3 => some (exVer 'i' 1 2 1 1 1)
    | _ => none := by
  rcases p with _ | _ | _ | _ | p <;> rfl

theorem ex_chars (a : Str) : '#' ∉ exP.shaS a ∧ '.' ∉ exP.shaS a := by
  simp only [exP]
  split
  · decide
  · split <;> decide

theorem ex_hashes : HashesOk exP exReqs exEnd.1 := by
  refine ⟨fun a b => ?_, fun p q v w hp hq => ?_, fun p q v w hp hq => ?_, ex_chars⟩
  · simp only [exP]
    split <;> split <;> rfl
  · rw [ex_vers] at hp hq
    rcases p with _ | _ | _ | _ | p <;> rcases q with _ | _ | _ | _ | q <;> first | cases hp; done | cases hq; done | decide
  · rw [ex_vers] at hp hq
    rcases p with _ | _ | _ | _ | p <;> rcases q with _ | _ | _ | _ | q <;>
      first | cases hp; done | cases hq; done | (cases hp; cases hq; decide)

theorem ex_honest (p : Nat) : Honest exP exReqs p := by
  rcases p with _ | _ | _ | p <;> exact ⟨rfl, rfl, by simp [exReqs, Req.content]⟩

/-- The erasure coded object of upload 0, with the server of one data shard failing after the first read. -/
example : getObject exP exEnd.1 (fun a => a = ['s'] || a = ['t'] || a = ['u']) (fun _ => 1) (fun _ => 0)
    [(2, fun _ => false), (2, fun i => i = 1), (2, fun _ => false), (2, fun _ => false)] ['b', '/', 'x'] 1 =
    some [1, 2, 3] := by
  refine C72_get_partial (dead := fun i => i = 1) (by decide) (by decide) ex_reqs ex_run ex_reliable
    ex_hashes (p := 0) (by rfl) (ex_honest 0) (mv := { toVersion (exVer 'h' 1 2 1 3 2)
      [['s'], ['t'], ['u']] ['2'] 11 with sequence := 1 }) (by rfl) rfl ?_ _ ?_ _ (fun _ => by decide) _ _ ?_ ?_ ?_
  · exact ⟨fun h => absurd h (by decide), fun _ => ⟨by decide, by decide, by decide, by decide⟩⟩
  · exact ⟨by decide, fun h => absurd h (by decide), fun _ => by decide⟩
  · decide
  · decide
  · intro r hr i h
    simp only [List.mem_cons, List.not_mem_nil, or_false] at hr
    rcases hr with rfl | rfl | rfl | rfl <;> simp_all

/-- The copies of upload 2, with the first server down. -/
example : getObject exP exEnd.1 (fun a => a = ['t']) (fun _ => 1) (fun _ => 0)
    [(2, fun _ => false), (2, fun _ => false), (2, fun _ => false), (2, fun _ => false)] ['c', '/', 'z'] 1 =
    some [1, 2, 3] := by
  refine C72_get_partial (dead := fun _ => false) (by decide) (by decide) ex_reqs ex_run ex_reliable
    ex_hashes (p := 2) (by rfl) (ex_honest 2) (mv := { toVersion (exVer 'g' 2 2 0 3 3)
      [['s'], ['t']] ['3'] 12 with sequence := 1 }) (by rfl) rfl ?_ _ ?_ _ (fun _ => by decide) _ _ ?_ ?_ ?_
  · exact ⟨fun _ => by decide, fun h => absurd rfl h⟩
  · exact ⟨by decide, fun _ => ⟨1, by decide, by decide⟩, fun h => absurd rfl h⟩
  · decide
  · decide
  · intro r hr i h
    simp only [List.mem_cons, List.not_mem_nil, or_false] at hr
    rcases hr with rfl | rfl | rfl | rfl <;> simp_all

/-- Version 1 of the second object was removed and is not readable; upload 3 is not stored anywhere. -/
example : exEnd.2 ['b', '/', 'y'] 1 = none ∧ exEnd.1.phase 1 = .ok 1 ∧ exEnd.1.phase 3 = .failed ∧
    exEnd.2 ['b', '/', 'x'] 2 = none := ⟨rfl, rfl, rfl, rfl⟩

/-! ## The full statement -/

/-- Reading returns what was stored in all executions, whether or not waits lose errors. -/
def ReadsBack : Prop :=
  ∀ (P : Params) (reqs : Nat → Req), 0 < P.ioB → Object.pageSize ∣ P.ioB → ReqsOk reqs →
    ∀ (es : List Ev) (s : Sys) (sp : Spec), Run P reqs es s sp → HashesOk P reqs s →
    ∀ (k : Str) (n p : Nat), sp k n = some p → Honest P reqs p →
    ∀ mv : Meta.Version, Meta.getVer s.store k n = .ok mv → mv.compress = false → Aligned P mv →
    ∀ up : Str → Bool, Enough mv up (fun _ => false) →
      getObject P s up (fun _ => 0) (fun _ => 0)
        (List.replicate ((reqs p).content.length + 1) (1, fun _ => false)) k n = some (reqs p).content

/-- The first copy is not committed, the wait for the commits loses the error. -/
def lossyEvs : List Ev := exSetup ++
  [.prepare 2, .send 2 [['s'], ['t']] Object.okEnv, .commit 2 0 (.failed false), .commit 2 1 .ok,
   .finish 2 false, .add 2 ['3'] 12 true]

theorem lossy_some : (runOf exP exReqs lossyEvs .init (fun _ _ => none)).isSome = true := by rfl

def lossyEnd : Sys × Spec := (runOf exP exReqs lossyEvs .init (fun _ _ => none)).get lossy_some

theorem lossy_vers (p : Nat) : lossyEnd.1.ver p = if p = 2 then some (exVer 'g' 2 2 0 3 3) else none := by
  rcases p with _ | _ | _ | p <;> rfl

theorem lossy_hashes : HashesOk exP exReqs lossyEnd.1 := by
  have hv : ∀ p v, lossyEnd.1.ver p = some v → p = 2 ∧ some (exVer 'g' 2 2 0 3 3) = some v := by
    intro p v h
    rw [lossy_vers] at h
    split at h
    · rename_i hp; exact ⟨hp, h⟩
    · cases h
  refine ⟨ex_hashes.len, fun p q v w hp hq _ => ?_, fun p q v w hp hq _ => ?_, ex_chars⟩
  · rw [(hv p v hp).1, (hv q w hq).1]
  · obtain ⟨rfl, e1⟩ := hv p v hp
    obtain ⟨rfl, e2⟩ := hv q w hq
    rw [e1] at e2; cases e2; rfl

/-- **C72 fails** when a wait loses an error: the upload is answered with a number although its first copy
is missing, and cannot be read although the server recorded for that copy answers. -/
theorem C72_lost_error : ¬ ReadsBack := by
  intro h
  have := h exP exReqs (by decide) (by decide) ex_reqs lossyEvs lossyEnd.1 lossyEnd.2
    (runOf_sound (Option.some_get lossy_some).symm) lossy_hashes ['c', '/', 'z'] 1 2 (by rfl) (ex_honest 2)
    { toVersion (exVer 'g' 2 2 0 3 3) [['s'], ['t']] ['3'] 12 with sequence := 1 } (by rfl) rfl
    ⟨fun _ => by decide, fun h => absurd rfl h⟩ (fun a => a = ['s'])
    ⟨by decide, fun _ => ⟨0, by decide, by decide⟩, fun h => absurd rfl h⟩
  have he : getObject exP lossyEnd.1 (fun a => a = ['s']) (fun _ => 0) (fun _ => 0)
        (List.replicate ((exReqs 2).content.length + 1) (1, fun _ => false)) ['c', '/', 'z'] 1 = none := by rfl
  rw [he] at this
  cases this

end Verif.System
