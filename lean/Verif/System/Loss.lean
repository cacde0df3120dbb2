import Verif.System.Props
import Verif.Api.MetaRpcProps

/-!
# The whole system while files are lost, moved and repaired (C105)

Extends `Verif.System.Model` (C72) by what happens to the files of the data servers after they were stored:

* a file disappears: a disk fails, or the sender of a moved file deletes it
  (src/objectserver/internal/usecase/service/migration_service.go:200-330);
* a file is copied to another server (`ReceiveData`, `FinishReceive`; C68), and the servers recorded for it are
  changed (`UpdateLocateByHash`, C16);
* a GET that finds shards missing writes them to other servers and commits them when it is closed (rs_get_stream.go:51-72,
  113-140, copy_get_stream.go:16-62, copy_fix_stream.go:39-83; C37), then asks the metadata server to
  change the version (`UpdateVersion`, object_service.go:233-237, grpcapi/meta_server.go:120-142; C75).

A GET opens its streams in one step and commits what it repaired in later ones, so everything else may happen in
between.

Simplified, beyond what `Verif.System.Model` says:

* a file that is copied has the same bytes on disk as the original;
* repaired shards are written in the order of the blocks (else `C37_block_order_lost`);
* only reads of versions without compression repair.
-/

namespace Verif.System

open Verif

/-! ## Model -/

/-- The system and the GETs that repair: the version each has read and what it hands to the writer of each shard. -/
structure Sys2 where
  sys : Sys
  fix : Nat → Option (Meta.Version × List (Option Bytes))

def Sys2.init : Sys2 := ⟨.init, fun _ => none⟩

/-- The circumstances of a GET, see `getObject`.  `took`: how many bytes the client takes of a copy; `tolerate`:
`ToleranceLossNum`, copy_get_stream.go:34. -/
structure Rd where
  up : Str → Bool
  lost : Nat → Nat
  pick : Nat → Nat
  reads : List (Nat × (Nat → Bool))
  took : Nat
  tolerate : Nat

/-- The copies of a version for `Object.copyRead`. -/
def copiesAt (P : Params) (s : Sys) (mv : Meta.Version) : Object.Cluster :=
  fun j i => if j = i then (s.files (serverOf mv i) (fname mv.hash i)).map (Object.storePieces P.ioB) else none

/-- What an erasure coded version is read from: rs_get_stream.go:51-72. -/
def readersAt (P : Params) (s : Sys) (r : Rd) (mv : Meta.Version) : List (Option Bytes) :=
  let c := rsConf P mv.dataShards mv.parityShards mv.size
  (List.range c.allShards).map (shardAt P s r.up r.lost mv (c.shardSize mv.size.toNat))

/-- What a GET hands to the writers of missing shards: rs_decoder.go:98-119; copy_get_stream.go:16-62 with the buffer of
copy_fix_stream.go:37-39. -/
def repairs (P : Params) (s : Sys) (r : Rd) (mv : Meta.Version) : List (Option Bytes) :=
  if mv.storeStrategy = Api.multiReplication then
    let up := fun i => r.up (serverOf mv i)
    let o := Object.openCopies (copiesAt P s mv) up r.pick 0 (List.range mv.locate.length)
    if o.fails.length ≤ r.tolerate then []
    else
      match Object.copyRead (r.lost 0) (copiesAt P s mv) up r.pick (List.range mv.locate.length) mv.size.toNat 0 with
      | none => []
      | some data => (List.range mv.locate.length).map fun i =>
        if i ∈ o.fails.map (·.1) then some (data.take r.took) else none
  else
    let c := rsConf P mv.dataShards mv.parityShards mv.size
    match P.code c.dataShards c.parityShards with
    | none => []
    | some cod => (Object.Dec.reads c cod mv.size.toNat r.reads (.init (readersAt P s r mv))).2.repair

inductive Ev2
  | base (e : Ev)
  /-- a file disappears -/
  | lose (srv f : Str)
  /-- a file is copied; an existing one is kept -/
  | move (src dst f : Str)
  /-- `UpdateLocateByHash` -/
  | record (now : Int) (hash : Str) (i : Nat) (srv : Str)
  /-- GET number `g` of version `n` opens its streams and reads -/
  | read (g : Nat) (k : Str) (n : Nat) (r : Rd)
  /-- GET number `g` commits shard `i` at a server -/
  | mend (g i : Nat) (srv : Str)
  /-- any `UpdateVersion` of an API server -/
  | update (now : Int) (id : Str) (body : Api.MetaRpc.EVersion)

/-- The files after one of them is stored: an existing one is kept (temp_rest.go:63-83, `CommitFile`). -/
def store1 (files : Str → Str → Option (List Bytes)) (srv f : Str) (ps : List Bytes) :
    Str → Str → Option (List Bytes) :=
  upd files srv (upd (files srv) f (some ((files srv f).getD ps)))

/-- The files after one of them disappeared. -/
def drop1 (files : Str → Str → Option (List Bytes)) (srv f : Str) : Str → Str → Option (List Bytes) :=
  upd files srv (upd (files srv) f none)

/-- What a step does; see `Ev2` for the code. -/
def Step2 (P : Params) (reqs : Nat → Req) (s : Sys2) : Ev2 → Sys2 → Prop
  | .base e, s' => ∃ t, Step P reqs s.sys e t ∧ s' = { s with sys := t }
  | .lose srv f, s' => s' = { s with sys := { s.sys with files := drop1 s.sys.files srv f } }
  | .move src dst f, s' => ∃ ps, s.sys.files src f = some ps ∧
      s' = { s with sys := { s.sys with files := store1 s.sys.files dst f ps } }
  | .record now h i srv, s' =>
      s' = { s with sys := { s.sys with store := (Meta.step s.sys.store (.updateLocate now h i srv)).2 } }
  | .read g k n r, s' => s.fix g = none ∧ ∃ mv, Meta.getVer s.sys.store k n = .ok mv ∧ mv.compress = false ∧
      s' = { s with fix := upd s.fix g (some (mv, repairs P s.sys r mv)) }
  | .mend g i srv, s' => ∃ mv reps b, s.fix g = some (mv, reps) ∧ reps[i]? = some (some b) ∧
      s' = { s with sys := { s.sys with files := store1 s.sys.files srv (fname mv.hash i) [b] } }
  | .update now id body, s' =>
      s' = { s with sys := { s.sys with store := (Api.MetaRpc.updateVersion now s.sys.store id body).2 } }

/-- What a step does to the specification: only the steps of `Ev` change it. -/
def specNext2 (reqs : Nat → Req) (s : Sys2) (e : Ev2) (s' : Sys2) (sp : Spec) : Spec :=
  match e with
  | .base e => specNext reqs s.sys e s'.sys sp
  | _ => sp

/-- Executions from the empty system in which all steps meet `ok`. -/
inductive Run2 (P : Params) (reqs : Nat → Req) (ok : Sys2 → Spec → Ev2 → Prop) : List Ev2 → Sys2 → Spec → Prop
  | nil : Run2 P reqs ok [] .init (fun _ _ => none)
  | snoc {es : List Ev2} {s s' : Sys2} {sp : Spec} {e : Ev2} : Run2 P reqs ok es s sp → ok s sp e →
      Step2 P reqs s e s' → Run2 P reqs ok (es ++ [e]) s' (specNext2 reqs s e s' sp)

/-- The client reads to the end. -/
def Complete (P : Params) (s : Sys) (r : Rd) (mv : Meta.Version) : Prop :=
  (mv.storeStrategy = Api.multiReplication → mv.size.toNat ≤ r.took) ∧
  (mv.storeStrategy ≠ Api.multiReplication →
    ∀ cod, P.code (rsConf P mv.dataShards mv.parityShards mv.size).dataShards
        (rsConf P mv.dataShards mv.parityShards mv.size).parityShards = some cod →
      .error .eof ∈ (Object.Dec.reads (rsConf P mv.dataShards mv.parityShards mv.size) cod mv.size.toNat r.reads
        (.init (readersAt P s r mv))).1)

/-- The conditions on steps: a wait while sending reports errors (as for C38, C39), and a GET that repairs reads to the end a
version of an upload that announced digest and length of its content, in a layout of whole pages. -/
def Sound (P : Params) (reqs : Nat → Req) (s : Sys2) (sp : Spec) : Ev2 → Prop
  | .base (.send _ _ env) => ∀ k, env.sees k = true
  | .read _ k n r => ∀ mv p, Meta.getVer s.sys.store k n = .ok mv → sp k n = some p →
      Honest P reqs p ∧ Aligned P mv ∧ Complete P s.sys r mv ∧ ∀ i, r.lost i < Object.pageSize
  | _ => True

/-! ## Invariants -/

/-- The pieces of shard `i` are those of the blocks of the content, or all in one. -/
def ShardIs2 (P : Params) (reqs : Nat → Req) (q : Nat) (v : Api.Ver) (i : Nat) (ps : List Bytes) : Prop :=
  0 < blockSize P v.strategy v.ds v.ps v.size →
    ∃ blocks, Object.WF (blockSize P v.strategy v.ds v.ps v.size) blocks ∧
      blocks.flatten = (reqs q).content ∧
      (ps = (blocks.map fun b => (encode P v.strategy v.ds v.ps b).getD i []) ∨
        ps = [(blocks.map fun b => (encode P v.strategy v.ds v.ps b).getD i []).flatten])

/-- A file belongs to a verified upload. -/
def FileOk (P : Params) (reqs : Nat → Req) (ver : Nat → Option Api.Ver) (f : Str) (ps : List Bytes) : Prop :=
  ∃ q v i, ver q = some v ∧ f = fname v.hash i ∧ i < nShards v.strategy v.ds v.ps ∧ Verified P reqs q ∧
    (v.compress = false → ShardIs2 P reqs q v i ps)

structure FilesOk (P : Params) (reqs : Nat → Req) (s : Sys) : Prop where
  ver : ∀ p v, s.ver p = some v → v.hash = P.shaS (nameText reqs p v) ∧ v.size = (reqs p).ver.size
  files : ∀ srv f ps, s.files srv f = some ps → FileOk P reqs s.ver f ps

structure FInv (P : Params) (reqs : Nat → Req) (s : Sys2) : Prop where
  idle : ∀ p, s.sys.phase p = .idle → s.sys.ver p = none
  ok : FilesOk P reqs s.sys
  sent : ∀ p ds temps, s.sys.sent p = some (ds, temps) → ∃ v, s.sys.ver p = some v ∧ Verified P reqs p ∧
    ∀ (i : Nat) (t : List Bytes), i < nShards v.strategy v.ds v.ps → temps[i]? = some t → ShardIs P reqs p v i t
  fix : ∀ g mv reps, s.fix g = some (mv, reps) → ∀ (i : Nat) (b : Bytes), reps[i]? = some (some b) →
    FileOk P reqs s.sys.ver (fname mv.hash i) [b]

/-- The stored versions are those of the specification, wherever their files are. -/
structure SInv (reqs : Nat → Req) (s : Sys) (sp : Spec) : Prop where
  stored : ∀ k n mv, Meta.Stored s.store k n mv → ∃ p v l uid ts, sp k n = some p ∧ k = (reqs p).key ∧
    s.ver p = some v ∧ mv = { toVersion v l uid ts with sequence := n }
  spec : ∀ k n p, sp k n = some p → ∃ mv, Meta.Stored s.store k n mv

theorem FileOk.mono {P : Params} {reqs : Nat → Req} {ver ver' : Nat → Option Api.Ver}
    (h : ∀ p v, ver p = some v → ver' p = some v) {f : Str} {ps : List Bytes} (hf : FileOk P reqs ver f ps) :
    FileOk P reqs ver' f ps := by
  obtain ⟨q, v, i, h1, h2⟩ := hf
  exact ⟨q, v, i, h q v h1, h2⟩

/-! ## What the files of an honest upload contain -/

theorem same_content2 {P : Params} {reqs : Nat → Req} {s : Sys} (hi : FilesOk P reqs s)
    (hh : HashesOk P reqs s) (hq : ReqsOk reqs) {p : Nat} (hp : Honest P reqs p) {v : Api.Ver}
    (hv : s.ver p = some v) {i : Nat} {ps : List Bytes} (hf : FileOk P reqs s.ver (fname v.hash i) ps) :
    ∃ q w, s.ver q = some w ∧ i < nShards w.strategy w.ds w.ps ∧ Verified P reqs q ∧ w.hash = v.hash ∧
      (reqs q).content = (reqs p).content ∧ w.strategy = v.strategy ∧ w.compress = v.compress ∧
      w.size = v.size ∧ (v.strategy = Api.multiReplication ∨ w.ds = v.ds ∧ w.ps = v.ps) ∧
      (v.compress = false → ShardIs2 P reqs q w i ps) := by
  obtain ⟨q, w, j, h1, h2, h3, hver, h6⟩ := hf
  have h4 := hver.1
  have h5 := hver.2
  obtain ⟨e1, rfl⟩ := fname_inj h2
  have e0 := e1
  obtain ⟨p1, p2⟩ := hi.ver p v hv
  obtain ⟨q1, q2⟩ := hi.ver q w h1
  rw [p1, q1] at e1
  have htext := hh.name p q v w hv h1 e1
  have hsame := Api.C42_same_key_partial P.shaS
    ⟨(reqs p).ver.hash, v.strategy, v.ds, v.ps, v.compress⟩
    ⟨(reqs q).ver.hash, w.strategy, w.ds, w.ps, w.compress⟩
    (by simp only; rw [← hp.digest, ← h5]; exact hh.len _ _) e1
  rcases hsame with ⟨s1, s2, s3, s4⟩ | ⟨hne, _⟩
  · simp only at s1 s2 s3 s4
    have hc : (reqs q).content = (reqs p).content :=
      hh.body q p w v h1 hv (by rw [h5, hp.digest, s1])
    refine ⟨q, w, h1, h3, hver, e0.symm, hc, s2.symm, s3.symm, ?_, ?_, ?_⟩
    · rw [q2, p2, hq.size q h4, hp.size, hc]
    · rcases s4 with s4 | ⟨s4, s5⟩
      · exact Or.inl s4
      · exact Or.inr ⟨s4.symm, s5.symm⟩
    · intro hcomp; exact h6 (by rw [← s3]; exact hcomp)
  · exact absurd htext hne

/-- The pieces of every file of a content. -/
theorem file_blocks2 {P : Params} {reqs : Nat → Req} {s : Sys} (hi : FilesOk P reqs s)
    (hh : HashesOk P reqs s) (hq : ReqsOk reqs) {p : Nat} (hp : Honest P reqs p) {v : Api.Ver}
    (hv : s.ver p = some v) (hcomp : v.compress = false) (hbs : 0 < blockSize P v.strategy v.ds v.ps v.size)
    {i : Nat} {ps : List Bytes} (hf : FileOk P reqs s.ver (fname v.hash i) ps) :
    ∃ blocks sh, Object.WF (blockSize P v.strategy v.ds v.ps v.size) blocks ∧
      blocks.flatten = (reqs p).content ∧ (ps = sh ∨ ps = [sh.flatten]) ∧
      sh = blocks.map fun b => if v.strategy = Api.multiReplication then b
        else (rsEnc P v.ds.toNat v.ps.toNat b).getD i [] := by
  obtain ⟨q, w, h1, h2, _, _, h3, h4, h5, h6, h7, h8⟩ := same_content2 hi hh hq hp hv hf
  have hbe : blockSize P w.strategy w.ds w.ps w.size = blockSize P v.strategy v.ds v.ps v.size := by
    unfold blockSize
    rw [h4]
    rcases h7 with h7 | ⟨h7, h7'⟩
    · rw [if_pos h7, if_pos h7]
    · rw [h7, h7', h6]
  obtain ⟨bl, b1, b2, b3⟩ := h8 hcomp (by rw [hbe]; exact hbs)
  refine ⟨bl, _, by rw [← hbe]; exact b1, by rw [b2, h3], b3, ?_⟩
  by_cases hm : v.strategy = Api.multiReplication
  · simp only [hm, if_true]
    have hwm : w.strategy = Api.multiReplication := by rw [h4, hm]
    simp only [nShards, if_pos hwm] at h2
    simp only [encode, if_pos hwm]
    rw [copy_map h2]; simp
  · simp only [if_neg hm]
    rcases h7 with h7 | ⟨h7, h7'⟩
    · exact absurd h7 hm
    · simp only [encode, h4, if_neg hm]
      rw [h7, h7']

theorem aligned_one {sh ps : List Bytes} (ha : Object.AlignedPieces sh) (h : ps = sh ∨ ps = [sh.flatten]) :
    Object.AlignedPieces ps ∧ ps.flatten = sh.flatten := by
  rcases h with rfl | rfl
  · exact ⟨ha, rfl⟩
  · exact ⟨trivial, by simp⟩

/-- The fields of the version recorded for an upload. -/
structure Recorded (reqs : Nat → Req) (s : Sys) (p : Nat) (mv : Meta.Version) (v : Api.Ver) : Prop where
  ver : s.ver p = some v
  hash : mv.hash = v.hash
  strategy : mv.storeStrategy = v.strategy
  ds : mv.dataShards = v.ds
  ps : mv.parityShards = v.ps
  compress : mv.compress = v.compress
  size : mv.size = v.size

theorem sinv_recorded {reqs : Nat → Req} {s : Sys} {sp : Spec} (h : SInv reqs s sp) {k : Str} {n p : Nat}
    (hsp : sp k n = some p) {mv : Meta.Version} (hmv : Meta.getVer s.store k n = .ok mv) :
    ∃ v, Recorded reqs s p mv v ∧ mv.sequence = n := by
  obtain ⟨p', v, l, uid, ts, g1, _, g3, g4⟩ := h.stored k n mv ((Meta.getVer_ok_iff _ _ _ _).1 hmv)
  rw [hsp] at g1; cases g1
  subst g4
  exact ⟨v, ⟨g3, rfl, rfl, rfl, rfl, rfl, rfl⟩, rfl⟩

/-- Copies: every file is a complete copy. -/
theorem copies_hold {P : Params} {reqs : Nat → Req} {s : Sys} (hi : FilesOk P reqs s)
    (hh : HashesOk P reqs s) (hq : ReqsOk reqs) {p : Nat} (hp : Honest P reqs p) {mv : Meta.Version} {v : Api.Ver}
    (hr : Recorded reqs s p mv v) (hcomp : mv.compress = false) (hal : Aligned P mv)
    (hm : mv.storeStrategy = Api.multiReplication) {i : Nat} {ps : List Bytes}
    (hf : FileOk P reqs s.ver (fname mv.hash i) ps) :
    Object.AlignedPieces ps ∧ ps.flatten = (reqs p).content := by
  have hm' : v.strategy = Api.multiReplication := by rw [← hr.strategy]; exact hm
  obtain ⟨c1, c2, _⟩ := Object.C38_block_size P.cpBlock (hal.1 hm)
  have hbs : blockSize P v.strategy v.ds v.ps v.size = Object.initBlockSize P.cpBlock := by
    unfold blockSize; rw [if_pos hm']
  rw [hr.hash] at hf
  obtain ⟨bl, sh, b1, b2, b3, b4⟩ := file_blocks2 hi hh hq hp hr.ver (by rw [← hr.compress]; exact hcomp)
    (by rw [hbs]; exact c1) hf
  simp only [if_pos hm'] at b4
  rw [List.map_id'] at b4
  subst b4
  rw [hbs] at b1
  have := Object.copy_aligned (i := 0) (n := 1) (by omega) c2 sh b1
  rw [copy_map (by omega)] at this
  obtain ⟨a1, a2⟩ := aligned_one this b3
  exact ⟨a1, by rw [a2, b2]⟩

/-- Erasure coding: what is read is what the upload would send, with shards missing. -/
theorem shards_hold {P : Params} {reqs : Nat → Req} {s : Sys} (hi : FilesOk P reqs s)
    (hh : HashesOk P reqs s) (hq : ReqsOk reqs) (hB : 0 < P.ioB) (hpB : Object.pageSize ∣ P.ioB)
    {p : Nat} (hp : Honest P reqs p) {mv : Meta.Version} {v : Api.Ver}
    (hr : Recorded reqs s p mv v) (hcomp : mv.compress = false) (hal : Aligned P mv)
    (hm : mv.storeStrategy ≠ Api.multiReplication) (r : Rd) (hlost : ∀ i, r.lost i < Object.pageSize)
    {c : Object.RsConfig} (hc : rsConf P mv.dataShards mv.parityShards mv.size = c) :
    mv.size.toNat = (reqs p).content.length ∧ 0 < c.dataShards ∧ 0 < c.blockPerShard ∧
    c.dataShards = mv.dataShards.toNat ∧ c.parityShards = mv.parityShards.toNat ∧
    c.allShards = nShards v.strategy v.ds v.ps ∧
    ∃ (cod : Object.Code c.dataShards c.parityShards) (blocks : List Bytes),
      P.code c.dataShards c.parityShards = some cod ∧
      Object.WF c.blockSize blocks ∧ blocks.flatten = (reqs p).content ∧
      Object.upload c cod (reqs p).body = some (Object.encOut cod blocks) ∧
      Object.ErasureOf (readersAt P s r mv) (Object.encOut cod blocks) ∧
      (∀ b, rsEnc P v.ds.toNat v.ps.toNat b = Object.encodeBlock cod b) ∧
      ∀ i < c.allShards, (readersAt P s r mv)[i]? = some (shardAt P s r.up r.lost mv (c.shardSize mv.size.toNat) i) ∧
        ((shardAt P s r.up r.lost mv (c.shardSize mv.size.toNat) i).isSome = true ↔
          r.up (serverOf mv i) = true ∧ (s.files (serverOf mv i) (fname mv.hash i)).isSome = true) := by
  have hm' : v.strategy ≠ Api.multiReplication := by rw [← hr.strategy]; exact hm
  have hsize : mv.size.toNat = (reqs p).content.length := by
    rw [hr.size, (hi.ver p v hr.ver).2, hp.size]; simp
  obtain ⟨a1, a0, a2, a3⟩ := hal.2 hm
  obtain ⟨d1, d2⟩ := rsConf_shards P mv.dataShards mv.parityShards mv.size
  have hbsz : blockSize P v.strategy v.ds v.ps v.size =
      (rsConf P mv.dataShards mv.parityShards mv.size).blockSize := by
    unfold blockSize; rw [if_neg hm', hr.ds, hr.ps, hr.size]
  have hcode : ∀ b, rsEnc P v.ds.toNat v.ps.toNat b =
      rsEnc P (rsConf P mv.dataShards mv.parityShards mv.size).dataShards
        (rsConf P mv.dataShards mv.parityShards mv.size).parityShards b := by
    intro b; rw [d1, d2, hr.ds, hr.ps]
  rw [← d1, ← d2] at a0
  have hall : (rsConf P mv.dataShards mv.parityShards mv.size).allShards =
      mv.dataShards.toNat + mv.parityShards.toNat := by
    unfold Object.RsConfig.allShards; rw [d1, d2]
  have hns : nShards v.strategy v.ds v.ps = mv.dataShards.toNat + mv.parityShards.toNat := by
    unfold nShards; rw [if_neg hm', hr.ds, hr.ps]
  have hrdef : readersAt P s r mv = (List.range c.allShards).map
      (shardAt P s r.up r.lost mv (c.shardSize mv.size.toNat)) := by
    unfold readersAt; rw [hc]
  rw [hc] at a0 a2 a3 d1 d2 hbsz hcode hall
  have hk : 0 < c.dataShards := by rw [d1]; omega
  have hbs : 0 < c.blockSize := Nat.mul_pos a2 hk
  obtain ⟨cod, hcod⟩ := Option.isSome_iff_exists.1 a0
  replace hcode : ∀ b, rsEnc P v.ds.toNat v.ps.toNat b = Object.encodeBlock cod b := by
    intro b; rw [hcode b, rsEnc_eq hcod]
  obtain ⟨blocks, u1, u2, u3⟩ := Object.upload_blocks c cod hk a2 (reqs p).body
  refine ⟨hsize, hk, a2, d1, d2, by rw [hall, hns], cod, blocks, hcod, u1, u2, u3, ?_, hcode, ?_⟩
  all_goals
    have hval : ∀ i < c.allShards, ∀ ps, s.files (serverOf mv i) (fname mv.hash i) = some ps →
        Object.getFile (r.lost i) (Object.storePieces P.ioB ps) 0 (c.shardSize mv.size.toNat) =
          some (Object.strm cod i blocks) := by
      intro i hin ps hps
      have hfo := hi.files _ _ _ hps
      rw [hr.hash] at hfo
      obtain ⟨bl, sh, b1, b2, b3, b4⟩ := file_blocks2 hi hh hq hp hr.ver (by rw [← hr.compress]; exact hcomp)
        (by rw [hbsz]; exact hbs) hfo
      rw [hbsz] at b1
      have hbb : bl = blocks := Object.wf_unique _ _ b1 u1 (by rw [b2, u2]; rfl)
      subst hbb
      simp only [if_neg hm', hcode] at b4
      obtain ⟨g1, g2⟩ := aligned_one (by rw [b4]; exact Object.aligned_shards hk cod hin a3 bl u1) b3
      have hl := Object.strm_length hk cod hin bl u1
      have hs' : ps.flatten = Object.strm cod i bl := by rw [g2, b4]; rfl
      have h48 := Object.C48_store_partial hB hpB (hlost i) ps g1 (by
          rw [hs', ← List.length_pos_iff, hl]
          apply Object.perShard_pos hk
          rw [u2]
          exact List.length_pos_iff.2 hp.nonempty)
      rw [hs', hl, u2] at h48
      have hsz : c.shardSize (reqs p).content.length =
        Object.perShard c.dataShards (reqs p).body.flatten.length := rfl
      rw [hsize, hsz, h48]
  · rw [hrdef]
    refine ⟨by simp [Object.encOut, Object.RsConfig.allShards], fun i x hx => ?_⟩
    have hin : i < c.allShards := by
      have := (List.getElem?_eq_some_iff.1 hx).1
      simpa using this
    rw [List.getElem?_map, List.getElem?_range hin] at hx
    simp only [Option.map_some, Option.some.injEq] at hx
    have hin' : i < c.dataShards + c.parityShards := hin
    simp only [Object.encOut, List.getElem?_map, List.getElem?_range hin', Option.map_some, Option.some.injEq]
    unfold shardAt at hx
    split at hx
    · split at hx
      · cases hx
      · rename_i ps hps
        rw [hval i hin ps hps] at hx
        exact Option.some.inj hx
    · cases hx
  · intro i hin
    refine ⟨by rw [hrdef, List.getElem?_map, List.getElem?_range hin]; rfl, ?_⟩
    unfold shardAt
    by_cases hu : r.up (serverOf mv i) = true
    · rw [if_pos hu]
      cases hps : s.files (serverOf mv i) (fname mv.hash i) with
      | none => simp
      | some ps => simp [hval i hin ps hps, hu]
    · rw [if_neg hu]; simp [hu]

/-! ## Complete reads repair completely -/

/-- A decoder that has failed stays failed. -/
theorem broken_no_eof {c : Object.RsConfig} {cod : Object.Code c.dataShards c.parityShards} {size : Nat}
    (reqs : List (Nat × (Nat → Bool))) (d : Object.Dec) (h : Object.Broken c size d) :
    .error .eof ∉ (Object.Dec.reads c cod size reqs d).1 := by
  induction reqs generalizing d with
  | nil => simp [Object.Dec.reads]
  | cons q reqs ih =>
    obtain ⟨⟨e, he⟩, hb⟩ := Object.broken_read (cod := cod) h q.1 q.2
    simp only [Object.Dec.reads, he, List.mem_cons, not_or]
    exact ⟨by simp, ih _ hb⟩

/-- When the end was reached, the writers have received the shards of all blocks. -/
theorem reads_complete {c : Object.RsConfig} {cod : Object.Code c.dataShards c.parityShards}
    (hk : 0 < c.dataShards) {data : Bytes} {rs0 : List (Option Bytes)} (reqs : List (Nat × (Nat → Bool)))
    (d : Object.Dec) (done : Bytes) (bs gone : List Bytes) (h : Object.DecInv c cod data done bs d)
    (hr : Object.RepairInv cod rs0 gone d.repair)
    (he : .error .eof ∈ (Object.Dec.reads c cod data.length reqs d).1) :
    Object.RepairInv cod rs0 (gone ++ bs) (Object.Dec.reads c cod data.length reqs d).2.repair := by
  induction reqs generalizing d done bs gone with
  | nil => simp [Object.Dec.reads] at he
  | cons q reqs ih =>
    by_cases hc : d.cache = []
    · cases bs with
      | nil =>
        have hstay : ∀ (l : List (Nat × (Nat → Bool))), (Object.Dec.reads c cod data.length l d).2 = d := by
          intro l
          induction l with
          | nil => rfl
          | cons q l ihl => simp only [Object.Dec.reads, (Object.read_eof h hc q.1 q.2).1]; exact ihl
        rw [hstay, List.append_nil]; exact hr
      | cons b rest =>
        by_cases hp : c.dataShards ≤ Object.presentCount (Object.killReaders q.2 d.readers)
        · obtain ⟨h1, h2, h3⟩ := Object.read_block hk h hc q.1 q.2 hp
          have hrep : (d.read c cod data.length q.1 q.2).2.repair =
              d.repair.mapIdx fun i w => w.map (· ++ (Object.encodeBlock cod b).getD i []) := by
            unfold Object.Dec.read
            rw [if_pos hc, Object.getData_ok hk h hc q.2 hp]
          simp only [Object.Dec.reads, h1, List.mem_cons] at he
          have he' : .error .eof ∈
              (Object.Dec.reads c cod data.length reqs (d.read c cod data.length q.1 q.2).2).1 := by
            rcases he with he | he
            · cases he
            · exact he
          have := ih _ _ rest (gone ++ [b]) h2 (by rw [hrep]; exact Object.repair_step cod hr b) he'
          simpa [Object.Dec.reads] using this
        · have hlt : d.total < data.length := by
            have h1 := h.total_eq
            have h2 := congrArg List.length h.data_eq
            have h3 : 0 < b.length := h.wf.1
            rw [hc] at h1 h2
            simp at h1 h2
            omega
          obtain ⟨⟨e, h1⟩, hb⟩ := Object.read_few (cod := cod) hc hlt q.1 q.2 (by omega)
          simp only [Object.Dec.reads, h1, List.mem_cons] at he
          rcases he with he | he
          · cases he
          · exact absurd he (broken_no_eof reqs _ hb)
    · obtain ⟨h1, h2, h3⟩ := Object.read_cached h hc data.length q.1 q.2
      have hrep : (d.read c cod data.length q.1 q.2).2.repair = d.repair := by
        unfold Object.Dec.read
        rw [if_neg hc]
      simp only [Object.Dec.reads, h1, List.mem_cons] at he
      have he' : .error .eof ∈
          (Object.Dec.reads c cod data.length reqs (d.read c cod data.length q.1 q.2).2).1 := by
        rcases he with he | he
        · cases he
        · exact he
      have := ih _ _ bs gone h2 (by rw [hrep]; exact hr) he'
      simpa [Object.Dec.reads] using this

theorem openCopies_fails (holds : Object.Cluster) (up : Nat → Bool) (pick : Nat → Nat) (loc : List Nat) (k : Nat) :
    ∀ i s, (Object.openCopies holds up pick k loc).chosen = some (i, s) →
      ∀ j ∈ (Object.openCopies holds up pick k loc).fails.map (·.1), j < i := by
  induction loc generalizing k with
  | nil => intro i s h; simp [Object.openCopies] at h
  | cons a rest ih =>
    intro i s h j hj
    unfold Object.openCopies at h hj
    split at h
    · rename_i hc
      simp [hc] at hj
    · rename_i hc
      rw [if_neg hc] at hj
      simp only [List.map_cons, List.mem_cons] at hj
      rcases hj with rfl | hj
      · have := Object.openCopies_chosen holds up pick rest (j + 1)
        simp only at h
        rw [h] at this
        simp only at this
        omega
      · exact ih _ i s h j hj

/-- What a complete read hands to the writers are shards of a verified upload. -/
theorem repairs_ok {P : Params} {reqs : Nat → Req} {s : Sys} (hi : FilesOk P reqs s)
    (hh : HashesOk P reqs s) (hq : ReqsOk reqs) (hB : 0 < P.ioB) (hpB : Object.pageSize ∣ P.ioB)
    {p : Nat} (hp : Honest P reqs p) {mv : Meta.Version} {v : Api.Ver}
    (hr : Recorded reqs s p mv v) (hcomp : mv.compress = false) (hal : Aligned P mv) (r : Rd)
    (hlost : ∀ i, r.lost i < Object.pageSize) (hcpl : Complete P s r mv) (i : Nat) (b : Bytes)
    (hb : (repairs P s r mv)[i]? = some (some b)) : FileOk P reqs s.ver (fname mv.hash i) [b] := by
  unfold repairs at hb
  have hsize : mv.size.toNat = (reqs p).content.length := by
    rw [hr.size, (hi.ver p v hr.ver).2, hp.size]; simp
  by_cases hm : mv.storeStrategy = Api.multiReplication
  · rw [if_pos hm] at hb
    dsimp only at hb
    split at hb
    · simp at hb
    · split at hb
      · simp at hb
      · rename_i data hd
        rw [List.getElem?_map] at hb
        by_cases hil : i < mv.locate.length
        · rw [List.getElem?_range hil] at hb
          simp only [Option.map_some, Option.some.injEq] at hb
          split at hb
          · rename_i hif
            simp only [Option.some.injEq] at hb
            unfold Object.copyRead at hd
            split at hd
            · cases hd
            · rename_i j srv hch
              split at hd
              · cases hd
              · rename_i f hf
                have hji := openCopies_fails _ _ _ _ _ j srv hch i hif
                unfold copiesAt at hf
                split at hf
                · rename_i hjs
                  subst hjs
                  rw [Option.map_eq_some_iff] at hf
                  obtain ⟨ps, f1, f2⟩ := hf
                  have hfo := hi.files _ _ _ f1
                  obtain ⟨g1, g2⟩ := copies_hold hi hh hq hp hr hcomp hal hm hfo
                  have h48 := Object.C48_store_partial hB hpB (hlost 0) ps g1 (by rw [g2]; exact hp.nonempty)
                  rw [← f2, hsize, ← g2, h48, g2] at hd
                  have hdata : data = (reqs p).content := (Option.some.inj hd).symm
                  have hbc : b = (reqs p).content := by
                    rw [← hb, hdata, List.take_of_length_le]
                    rw [← hsize]; exact hcpl.1 hm
                  rw [hr.hash] at hfo ⊢
                  obtain ⟨q, w, h1, h2, h2v, h2h, h3, h4, h5, h6, h7, h8⟩ := same_content2 hi hh hq hp hr.ver hfo
                  refine ⟨q, w, i, h1, by rw [h2h], by omega, h2v, fun hcw hbs => ?_⟩
                  obtain ⟨bl, b1, b2, _⟩ := h8 (by rw [← h5]; exact hcw) hbs
                  refine ⟨bl, b1, b2, Or.inr ?_⟩
                  have hwm : w.strategy = Api.multiReplication := by rw [h4, ← hr.strategy]; exact hm
                  have hiw : i < w.ds.toNat := by
                    simp only [nShards, if_pos hwm] at h2; omega
                  simp only [encode, if_pos hwm]
                  rw [copy_map hiw, b2, h3, hbc]
                · cases hf
          · cases hb
        · rw [List.getElem?_eq_none (by simpa using hil)] at hb
          cases hb
  · rw [if_neg hm] at hb
    dsimp only at hb
    obtain ⟨_, hk, hbp, _, _, hns, cod, blocks, hcod, w1, w2, w3, hera, hcode, hsh⟩ :=
      shards_hold hi hh hq hB hpB hp hr hcomp hal hm r hlost rfl
    rw [hcod] at hb
    have heof := hcpl.2 hm cod hcod
    rw [hsize] at hb heof
    simp only at hb
    generalize hc : rsConf P mv.dataShards mv.parityShards mv.size = c at *
    have hrep := reads_complete hk r.reads (.init (readersAt P s r mv)) [] blocks []
      (Object.decInv_init w1 hera) (Object.repair_init cod _) (by rw [w2]; exact heof)
    rw [w2, List.nil_append] at hrep
    have hlen : (readersAt P s r mv).length = c.allShards := by
      have := hera.1
      simpa [Object.encOut, Object.RsConfig.allShards] using this
    have hin : i < c.allShards := by
      rw [← hlen, ← hrep.1]
      exact (List.getElem?_eq_some_iff.1 hb).1
    -- the shard was missing, and what its writer received
    have hbv : b = Object.strm cod i blocks := by
      cases hx : shardAt P s r.up r.lost mv (c.shardSize mv.size.toNat) i with
      | none =>
        have h1 := (hsh i hin).1
        rw [hx] at h1
        have := (hrep.2 i).2 h1
        rw [hb] at this
        simpa using this
      | some x =>
        have h1 := (hsh i hin).1
        rw [hx] at h1
        have := (hrep.2 i).1 x h1
        rw [hb] at this
        simp at this
    -- some shard was read
    have hsome : ∃ (j : Nat) (x : Bytes), (readersAt P s r mv)[j]? = some (some x) := by
      by_cases hpc : Object.presentCount (readersAt P s r mv) < c.dataShards
      · exfalso
        have := Object.C34_too_many_lost c cod (reqs p).body hp.nonempty _ hpc r.reads _ heof
        obtain ⟨e, he⟩ := this
        cases he
      · have hpos : 0 < Object.presentCount (readersAt P s r mv) := by omega
        unfold Object.presentCount at hpos
        rw [List.countP_pos_iff] at hpos
        obtain ⟨x, hx, hx2⟩ := hpos
        obtain ⟨j, hj, hj2⟩ := List.getElem_of_mem hx
        cases x with
        | none => simp at hx2
        | some y => exact ⟨j, y, by rw [List.getElem?_eq_getElem hj, hj2]⟩
    obtain ⟨j, x, hj⟩ := hsome
    have hjn : j < c.allShards := by rw [← hlen]; exact (List.getElem?_eq_some_iff.1 hj).1
    have hjs := (hsh j hjn).1
    rw [hj] at hjs
    have hjf := ((hsh j hjn).2.1 (by rw [← Option.some.inj hjs]; rfl)).2
    obtain ⟨ps, hps⟩ := Option.isSome_iff_exists.1 hjf
    have hfo := hi.files _ _ _ hps
    rw [hr.hash] at hfo ⊢
    obtain ⟨q, w, h1, h2, h2v, h2h, h3, h4, h5, h6, h7, h8⟩ := same_content2 hi hh hq hp hr.ver hfo
    have hm' : v.strategy ≠ Api.multiReplication := by rw [← hr.strategy]; exact hm
    rcases h7 with h7 | ⟨h7, h7'⟩
    · exact absurd h7 hm'
    · refine ⟨q, w, i, h1, by rw [h2h], by rw [h4, h7, h7', ← hns]; exact hin, h2v, fun _ _ => ?_⟩
      have hbe : blockSize P w.strategy w.ds w.ps w.size = c.blockSize := by
        unfold blockSize
        rw [h4, if_neg hm', h7, h7', h6, ← hr.ds, ← hr.ps, ← hr.size, hc]
      refine ⟨blocks, by rw [hbe]; exact w1, by rw [w2, h3], Or.inr ?_⟩
      rw [hbv]
      simp only [encode, h4, if_neg hm', h7, h7', hcode]
      rfl

/-! ## Changing locations -/

/-- The index of a hash names version `n` of an object. -/
def Indexed (s : Meta.Store) (h k : Str) (n : Nat) : Prop :=
  ∃ key ∈ Meta.getIndex s.hashIdx h, ∃ t, cutLast '.' key = some (k, t) ∧ Meta.toUint64 t = n

/-- `UpdateLocateByHash` changes nothing but the given location, and the time, of the versions it finds. -/
theorem locate_loop {now : Int} {i : Nat} {val : Str} {s0 : Meta.Store} (N : Str → Nat → Prop) (keys : List Str)
    (hN : ∀ key ∈ keys, ∀ k t, cutLast '.' key = some (k, t) → N k (Meta.toUint64 t))
    {s : Meta.Store} {r : Except Meta.Err Unit} {s' : Meta.Store}
    (h : Meta.updateLocateLoop now i val keys s = some (r, s'))
    (hseq : ∀ k n mv, Meta.Stored s k n mv → mv.sequence = n)
    (hR : ∀ k n mv, Meta.Stored s k n mv → ∃ mv0, Meta.Stored s0 k n mv0 ∧
      (mv = mv0 ∨ N k n ∧ ∃ ts, mv = { mv0 with ts := ts, locate := mv0.locate.set i val }))
    (hK : ∀ k n mv, Meta.Stored s0 k n mv → ∃ mv', Meta.Stored s k n mv') :
    (∀ k n mv, Meta.Stored s' k n mv → ∃ mv0, Meta.Stored s0 k n mv0 ∧
      (mv = mv0 ∨ N k n ∧ ∃ ts, mv = { mv0 with ts := ts, locate := mv0.locate.set i val })) ∧
    (∀ k n mv, Meta.Stored s0 k n mv → ∃ mv', Meta.Stored s' k n mv') := by
  induction keys generalizing s with
  | nil => simp only [Meta.updateLocateLoop] at h; cases h; exact ⟨hR, hK⟩
  | cons key ks ih =>
    simp only [Meta.updateLocateLoop] at h
    split at h
    · cases h
    · rename_i name t hcut
      split at h
      · cases h; exact ⟨hR, hK⟩
      · rename_i v hv
        split at h
        · cases h
        · rename_i l hl
          have hl' : l = v.locate.set i val := by
            unfold Meta.setNth at hl
            split at hl
            · exact (Option.some.inj hl).symm
            · cases hl
          subst hl'
          split at h
          · rename_i e s1 hu
            cases h
            unfold Meta.updateVer at hu
            have : s' = s := by grind
            rw [this]; exact ⟨hR, hK⟩
          · rename_i s1 hu
            obtain ⟨b, o, h1, h2, h3, rfl⟩ := Meta.updateVer_ok hu
            have hst := (Meta.getVer_ok_iff _ _ _ _).1 hv
            have hvs := hseq _ _ _ hst
            have hov : o = v := by
              obtain ⟨b', hb', hi'⟩ := hst
              rw [h1] at hb'; cases hb'
              dsimp only at h2
              rw [hvs] at h2
              rw [h2] at hi'
              exact Option.some.inj hi'
            subst hov
            dsimp only at h2 h h3
            have hsto : ∀ k n mv, Meta.Stored { s with
                vers := s.vers.put name ⟨b.seq, b.items.put (Meta.verKey name o.sequence)
                  { o with ts := now, locate := o.locate.set i val }⟩ } k n mv ↔
                if k = name ∧ n = o.sequence then mv = { o with ts := now, locate := o.locate.set i val }
                else Meta.Stored s k n mv := by
              intro k n mv
              rw [Meta.stored_put (n := name) (s := s) rfl]
              by_cases hk : k = name
              · subst hk
                simp only [true_and, if_true]
                rw [KMap.get_put]
                by_cases hn : n = o.sequence
                · subst hn; simp [eq_comm]
                · rw [if_neg hn, if_neg (fun he => hn (Meta.verKey_inj he).2)]
                  unfold Meta.Stored
                  constructor
                  · intro hx; exact ⟨b, h1, hx⟩
                  · rintro ⟨b', hb', hx⟩
                    rw [h1] at hb'; cases hb'; exact hx
              · simp [hk]
            have hNk := hN key (by simp) name t hcut
            refine ih (fun key hk => hN key (List.mem_cons_of_mem _ hk)) h ?_ ?_ ?_
            · intro k n mv hmv
              rw [hsto] at hmv
              split at hmv
              · rename_i hkn
                rw [hmv, hkn.2]
              · exact hseq k n mv hmv
            · intro k n mv hmv
              rw [hsto] at hmv
              split at hmv
              · rename_i hkn
                rw [hvs] at hkn
                rw [hkn.1, hkn.2]
                obtain ⟨mv0, m1, m2⟩ := hR _ _ _ hst
                refine ⟨mv0, m1, Or.inr ⟨hNk, now, ?_⟩⟩
                rcases m2 with m2 | ⟨_, ts, m2⟩
                · rw [hmv, m2]
                · rw [hmv, m2]; simp
              · exact hR k n mv hmv
            · intro k n mv hmv
              obtain ⟨mv', h'⟩ := hK k n mv hmv
              by_cases hkn : k = name ∧ n = o.sequence
              · exact ⟨_, (hsto k n _).2 (by rw [if_pos hkn])⟩
              · exact ⟨mv', (hsto k n mv').2 (by rw [if_neg hkn]; exact h')⟩

theorem locate_step {now : Int} {h : Str} {i : Nat} {val : Str} {s : Meta.Store}
    (hseq : ∀ k n mv, Meta.Stored s k n mv → mv.sequence = n) :
    (∀ k n mv, Meta.Stored (Meta.step s (.updateLocate now h i val)).2 k n mv → ∃ mv0, Meta.Stored s k n mv0 ∧
      (mv = mv0 ∨ Indexed s h k n ∧ ∃ ts, mv = { mv0 with ts := ts, locate := mv0.locate.set i val })) ∧
    (∀ k n mv, Meta.Stored s k n mv → ∃ mv', Meta.Stored (Meta.step s (.updateLocate now h i val)).2 k n mv') := by
  simp only [Meta.step]
  have hid : (∀ k n mv, Meta.Stored s k n mv → ∃ mv0, Meta.Stored s k n mv0 ∧
      (mv = mv0 ∨ Indexed s h k n ∧ ∃ ts, mv = { mv0 with ts := ts, locate := mv0.locate.set i val })) ∧
      (∀ k n mv, Meta.Stored s k n mv → ∃ mv', Meta.Stored s k n mv') :=
    ⟨fun k n mv hm => ⟨mv, hm, Or.inl rfl⟩, fun k n mv hm => ⟨mv, hm⟩⟩
  split
  · exact hid
  · rename_i s' hu
    exact locate_loop (Indexed s h) _ (fun key hk k t hc => ⟨key, hk, t, hc, rfl⟩) hu hseq hid.1 hid.2
  · exact hid

/-! ## Every step keeps the invariants -/

theorem store1_get (files : Str → Str → Option (List Bytes)) (srv f : Str) (ps : List Bytes) (a b : Str) :
    store1 files srv f ps a b = if a = srv ∧ b = f then some ((files srv f).getD ps) else files a b :=
  commit_files files srv f ps a b

theorem drop1_get (files : Str → Str → Option (List Bytes)) (srv f a b : Str) :
    drop1 files srv f a b = if a = srv ∧ b = f then none else files a b := by
  unfold drop1
  by_cases ha : a = srv
  · subst ha
    rw [upd_same]
    by_cases hb : b = f
    · subst hb; rw [upd_same]; simp
    · rw [upd_ne _ _ hb]; simp [hb]
  · rw [upd_ne _ _ ha]; simp [ha]

theorem store1_some {files : Str → Str → Option (List Bytes)} {srv f : Str} {ps : List Bytes} {a b : Str}
    {x : List Bytes} (h : store1 files srv f ps a b = some x) : files a b = some x ∨ b = f ∧ x = ps := by
  rw [store1_get] at h
  split at h
  · rename_i hab
    obtain ⟨rfl, rfl⟩ := hab
    cases hx : files a b with
    | none => rw [hx] at h; simp only [Option.getD_none, Option.some.injEq] at h; exact Or.inr ⟨rfl, h.symm⟩
    | some y => rw [hx] at h; simp only [Option.getD_some] at h; exact Or.inl h
  · exact Or.inl h

theorem finv_init (P : Params) (reqs : Nat → Req) : FInv P reqs .init :=
  ⟨fun _ _ => rfl, ⟨fun _ _ h => by simp [Sys2.init, Sys.init] at h, fun _ _ _ h => by simp [Sys2.init, Sys.init] at h⟩,
    fun _ _ _ h => by simp [Sys2.init, Sys.init] at h, fun _ _ _ h => by simp [Sys2.init] at h⟩

theorem sinv_init (reqs : Nat → Req) : SInv reqs .init (fun _ _ => none) :=
  ⟨fun k n mv h => by
    obtain ⟨b, hb, _⟩ := h
    simp [Sys.init, Meta.Store.empty, KMap.get, KMap.empty, KMap.rawGet] at hb, fun _ _ _ h => by cases h⟩

/-- The versions of uploads are kept. -/
theorem ver_mono2 {P : Params} {reqs : Nat → Req} {s s' : Sys2} {e : Ev2}
    (hidle : ∀ p, s.sys.phase p = .idle → s.sys.ver p = none) (hst : Step2 P reqs s e s') :
    ∀ p v, s.sys.ver p = some v → s'.sys.ver p = some v := by
  cases e with
  | base e =>
    obtain ⟨t, hst, rfl⟩ := hst
    cases e with
    | prepare p =>
      obtain ⟨h1, mb, v, _, _, h4, rfl⟩ := hst
      intro q w hw
      simp only
      rw [upd_ne]
      · exact hw
      · rintro rfl; rw [hidle _ h1] at hw; cases hw
    | locate p evs => obtain ⟨_, v, l, _, _, _, _, rfl⟩ := hst; exact fun _ _ h => h
    | send p ds env => obtain ⟨_, _, v, temps, _, _, _, _, _, _, rfl⟩ := hst; exact fun _ _ h => h
    | commit p i r => obtain ⟨v, ds, temps, srv, t, _, _, _, _, _, rfl⟩ := hst; exact fun _ _ h => h
    | finish p sees => obtain ⟨_, v, ds, temps, _, _, _, rfl⟩ := hst; exact fun _ _ h => h
    | fail p => cases (show t = _ from hst); exact fun _ _ h => h
    | add p uid ts answered => obtain ⟨op, q, st, _, _, rfl⟩ := hst; exact fun _ _ h => h
    | other op => obtain ⟨_, rfl⟩ := hst; exact fun _ _ h => h
  | lose srv f => cases (show s' = _ from hst); exact fun _ _ h => h
  | move src dst f => obtain ⟨ps, _, rfl⟩ := hst; exact fun _ _ h => h
  | record now h i srv => cases (show s' = _ from hst); exact fun _ _ h => h
  | read g k n r => obtain ⟨_, mv, _, _, rfl⟩ := hst; exact fun _ _ h => h
  | mend g i srv => obtain ⟨mv, reps, b, _, _, rfl⟩ := hst; exact fun _ _ h => h
  | update now id body => cases (show s' = _ from hst); exact fun _ _ h => h

theorem idle_step2 {P : Params} {reqs : Nat → Req} {s s' : Sys2} {e : Ev2}
    (hidle : ∀ p, s.sys.phase p = .idle → s.sys.ver p = none) (hst : Step2 P reqs s e s') :
    ∀ p, s'.sys.phase p = .idle → s'.sys.ver p = none := by
  have hup : ∀ (p : Nat) (ph : Phase), ph ≠ .idle → ∀ q, upd s.sys.phase p ph q = .idle → s.sys.ver q = none := by
    intro p ph hph q hq
    by_cases hqp : q = p
    · subst hqp; rw [upd_same] at hq; exact absurd hq hph
    · rw [upd_ne _ _ hqp] at hq; exact hidle q hq
  cases e with
  | base e =>
    obtain ⟨t, hst, rfl⟩ := hst
    cases e with
    | prepare p =>
      obtain ⟨h1, mb, v, _, _, h4, rfl⟩ := hst
      intro q hq
      by_cases hqp : q = p
      · subst hqp; simp only [upd_same] at hq; cases hq
      · simp only [upd_ne _ _ hqp] at hq ⊢; exact hidle q hq
    | locate p evs => obtain ⟨_, v, l, _, _, _, _, rfl⟩ := hst; exact hup p _ (by simp)
    | send p ds env => obtain ⟨_, _, v, temps, _, _, _, _, _, _, rfl⟩ := hst; exact hidle
    | commit p i r => obtain ⟨v, ds, temps, srv, t, _, _, _, _, _, rfl⟩ := hst; exact hidle
    | finish p sees => obtain ⟨_, v, ds, temps, _, _, _, rfl⟩ := hst; exact hup p _ (by simp)
    | fail p => cases (show t = _ from hst); exact hup p _ (by simp)
    | add p uid ts answered =>
      obtain ⟨op, q, st, _, _, rfl⟩ := hst
      cases answered with
      | false => exact hidle
      | true => exact hup p _ (by simp)
    | other op => obtain ⟨_, rfl⟩ := hst; exact hidle
  | lose srv f => cases (show s' = _ from hst); exact hidle
  | move src dst f => obtain ⟨ps, _, rfl⟩ := hst; exact hidle
  | record now h i srv => cases (show s' = _ from hst); exact hidle
  | read g k n r => obtain ⟨_, mv, _, _, rfl⟩ := hst; exact hidle
  | mend g i srv => obtain ⟨mv, reps, b, _, _, rfl⟩ := hst; exact hidle
  | update now id body => cases (show s' = _ from hst); exact hidle

theorem hashes_mono {P : Params} {reqs : Nat → Req} {s s' : Sys} (h : ∀ p v, s.ver p = some v → s'.ver p = some v)
    (hh : HashesOk P reqs s') : HashesOk P reqs s :=
  ⟨hh.len, fun p q v w hp hq => hh.body p q v w (h p v hp) (h q w hq),
    fun p q v w hp hq => hh.name p q v w (h p v hp) (h q w hq), hh.chars⟩

theorem finv_step {P : Params} {reqs : Nat → Req} (hB : 0 < P.ioB) (hpB : Object.pageSize ∣ P.ioB)
    (hq : ReqsOk reqs) {s s' : Sys2} {sp : Spec} {e : Ev2} (hi : FInv P reqs s) (hs : SInv reqs s.sys sp)
    (hh : HashesOk P reqs s.sys) (hok : Sound P reqs s sp e) (hst : Step2 P reqs s e s') : FInv P reqs s' := by
  have hm := ver_mono2 hi.idle hst
  cases e with
  | base e =>
    obtain ⟨t, hst, rfl⟩ := hst
    cases e with
    | prepare p =>
      obtain ⟨h1, mb, v, _, _, h4, rfl⟩ := hst
      have hvh : v.hash = (reqs p).ver.hash ∧ v.size = (reqs p).ver.size :=
        ⟨makeVersion_hash h4, (Api.makeVersion_prescribed _ _ _ _ h4).size⟩
      refine ⟨fun q hq => ?_, ⟨fun q w hw => ?_, fun a f ps h => (hi.ok.files a f ps h).mono hm⟩, fun q ds t h => ?_,
        fun g mv reps hg i b hb => (hi.fix g mv reps hg i b hb).mono hm⟩
      · by_cases hqp : q = p
        · subst hqp; simp only [upd_same] at hq; cases hq
        · simp only [upd_ne _ _ hqp] at hq ⊢; exact hi.idle q hq
      · by_cases hqp : q = p
        · subst hqp
          simp only [upd_same, Option.some.injEq] at hw
          subst hw
          refine ⟨?_, hvh.2⟩
          simp only [Api.uniqueHash, nameText, hvh.1]
        · simp only [upd_ne _ _ hqp] at hw; exact hi.ok.ver q w hw
      · obtain ⟨w, h1, h2⟩ := hi.sent q ds t h
        exact ⟨w, hm q w h1, h2⟩
    | locate p evs =>
      obtain ⟨h1, v, l, _, _, _, _, rfl⟩ := hst
      refine ⟨fun q hq => ?_, ⟨hi.ok.ver, hi.ok.files⟩, hi.sent, hi.fix⟩
      by_cases hqp : q = p
      · subst hqp; simp only [upd_same] at hq; cases hq
      · simp only [upd_ne _ _ hqp] at hq; exact hi.idle q hq
    | send p ds env =>
      obtain ⟨_, h2, v, temps, h3, _, _, _, _, h7, rfl⟩ := hst
      obtain ⟨k1, k2, k3⟩ := sendAll_ok (hq.digest p) hok h7
      refine ⟨hi.idle, ⟨hi.ok.ver, hi.ok.files⟩, fun q ds' t h => ?_, hi.fix⟩
      by_cases hqp : q = p
      · subst hqp
        simp only [upd_same, Option.some.injEq, Prod.mk.injEq] at h
        obtain ⟨rfl, rfl⟩ := h
        refine ⟨v, h3, ⟨k1, k2⟩, fun i t _ hit hbs => ?_⟩
        obtain ⟨bl, w1, w2, w3⟩ := k3 hbs
        exact ⟨bl, w1, w2, w3 i t hit⟩
      · simp only [upd_ne _ _ hqp] at h; exact hi.sent q ds' t h
    | commit p i r =>
      obtain ⟨v, ds, temps, srv, t, h1, h2, h3, h4, h5, rfl⟩ := hst
      obtain ⟨v', e1, e2, e3⟩ := hi.sent p ds temps h2
      rw [h1] at e1; cases e1
      refine ⟨hi.idle, ⟨hi.ok.ver, fun a f ps hps => ?_⟩, hi.sent, hi.fix⟩
      dsimp only at hps ⊢
      split at hps
      · rcases store1_some hps with hps | ⟨rfl, rfl⟩
        · exact hi.ok.files a f ps hps
        · refine ⟨p, v, i, h1, rfl, h3, e2, fun hcomp hbs => ?_⟩
          simp only [hcomp, if_false, Bool.false_eq_true]
          obtain ⟨bl, b1, b2, b3⟩ := e3 i t h3 h5 hbs
          exact ⟨bl, b1, b2, Or.inl b3⟩
      · exact hi.ok.files a f ps hps
    | finish p sees =>
      obtain ⟨_, v, ds, temps, _, _, _, rfl⟩ := hst
      refine ⟨fun q hq => ?_, ⟨hi.ok.ver, hi.ok.files⟩, hi.sent, hi.fix⟩
      by_cases hqp : q = p
      · subst hqp; simp only [upd_same] at hq; cases hq
      · simp only [upd_ne _ _ hqp] at hq; exact hi.idle q hq
    | fail p =>
      cases (show t = _ from hst)
      refine ⟨fun q hq => ?_, ⟨hi.ok.ver, hi.ok.files⟩, hi.sent, hi.fix⟩
      by_cases hqp : q = p
      · subst hqp; simp only [upd_same] at hq; cases hq
      · simp only [upd_ne _ _ hqp] at hq; exact hi.idle q hq
    | add p uid ts answered =>
      obtain ⟨op, q, st, _, _, rfl⟩ := hst
      refine ⟨fun q hq => ?_, ⟨hi.ok.ver, hi.ok.files⟩, hi.sent, hi.fix⟩
      cases answered with
      | false => exact hi.idle q hq
      | true =>
        simp only [if_true] at hq
        by_cases hqp : q = p
        · subst hqp; simp only [upd_same] at hq; cases hq
        · simp only [upd_ne _ _ hqp] at hq; exact hi.idle q hq
    | other op =>
      obtain ⟨_, rfl⟩ := hst
      exact ⟨hi.idle, ⟨hi.ok.ver, hi.ok.files⟩, hi.sent, hi.fix⟩
  | lose srv f =>
    cases (show s' = _ from hst)
    refine ⟨hi.idle, ⟨hi.ok.ver, fun a b ps hps => ?_⟩, hi.sent, hi.fix⟩
    dsimp only at hps
    rw [drop1_get] at hps
    split at hps
    · cases hps
    · exact hi.ok.files a b ps hps
  | move src dst f =>
    obtain ⟨ps0, h0, rfl⟩ := hst
    refine ⟨hi.idle, ⟨hi.ok.ver, fun a b ps hps => ?_⟩, hi.sent, hi.fix⟩
    rcases store1_some hps with hps | ⟨rfl, rfl⟩
    · exact hi.ok.files a b ps hps
    · exact hi.ok.files _ _ _ h0
  | record now h i srv =>
    cases (show s' = _ from hst)
    exact ⟨hi.idle, ⟨hi.ok.ver, hi.ok.files⟩, hi.sent, hi.fix⟩
  | read g k n r =>
    obtain ⟨_, mv, h1, h2, rfl⟩ := hst
    refine ⟨hi.idle, ⟨hi.ok.ver, hi.ok.files⟩, hi.sent, fun g' mv' reps hg i b hb => ?_⟩
    by_cases hgg : g' = g
    · subst hgg
      simp only [upd_same, Option.some.injEq, Prod.mk.injEq] at hg
      obtain ⟨rfl, rfl⟩ := hg
      obtain ⟨p, v, l, uid, ts, g1, _, _, _⟩ := hs.stored k n mv ((Meta.getVer_ok_iff _ _ _ _).1 h1)
      obtain ⟨v, hrec, _⟩ := sinv_recorded hs g1 h1
      obtain ⟨o1, o2, o3, o4⟩ := hok mv p h1 g1
      exact repairs_ok hi.ok hh hq hB hpB o1 hrec h2 o2 r o4 o3 i b hb
    · simp only [upd_ne _ _ hgg] at hg
      exact hi.fix g' mv' reps hg i b hb
  | mend g i srv =>
    obtain ⟨mv, reps, b, h1, h2, rfl⟩ := hst
    refine ⟨hi.idle, ⟨hi.ok.ver, fun a f ps hps => ?_⟩, hi.sent, hi.fix⟩
    rcases store1_some hps with hps | ⟨rfl, rfl⟩
    · exact hi.ok.files a f ps hps
    · exact hi.fix g mv reps h1 i b h2
  | update now id body =>
    cases (show s' = _ from hst)
    exact ⟨hi.idle, ⟨hi.ok.ver, hi.ok.files⟩, hi.sent, hi.fix⟩

theorem sinv_seq {reqs : Nat → Req} {s : Sys} {sp : Spec} (h : SInv reqs s sp) :
    ∀ k n mv, Meta.Stored s.store k n mv → mv.sequence = n := by
  intro k n mv hm
  obtain ⟨p, v, l, uid, ts, _, _, _, rfl⟩ := h.stored k n mv hm
  rfl

theorem sinv_step {P : Params} {reqs : Nat → Req} {s s' : Sys2} {sp : Spec} {e : Ev2}
    (hidle : ∀ p, s.sys.phase p = .idle → s.sys.ver p = none) (hs : SInv reqs s.sys sp)
    (hst : Step2 P reqs s e s') : SInv reqs s'.sys (specNext2 reqs s e s' sp) := by
  have hm := ver_mono2 hidle hst
  have hkeep : s'.sys.store = s.sys.store → specNext2 reqs s e s' sp = sp →
      SInv reqs s'.sys (specNext2 reqs s e s' sp) := by
    intro h1 h2
    rw [h2]
    refine ⟨fun k n mv h => ?_, fun k n p h => ?_⟩
    · rw [h1] at h
      obtain ⟨p, v, l, uid, ts, g1, g2, g3, g4⟩ := hs.stored k n mv h
      exact ⟨p, v, l, uid, ts, g1, g2, hm p v g3, g4⟩
    · rw [h1]; exact hs.spec k n p h
  cases e with
  | base e =>
    obtain ⟨t, hst, rfl⟩ := hst
    by_cases hl : e.local_
    · obtain ⟨e1, e2⟩ := local_store hl hst
      exact hkeep e1 (e2 sp)
    · cases e with
      | add p uid ts answered =>
        obtain ⟨op, q, st, h1, h2, rfl⟩ := hst
        simp only [specNext2]
        rw [specNext_add h1 h2]
        obtain ⟨l, v, g1, g2, rfl⟩ := addOp_eq h1
        obtain ⟨c1, c2, _⟩ := Meta.C16_added_readable h2
        rw [Meta.getVer_ok_iff] at c1
        have hother : ∀ k n mv, ¬ (k = (reqs p).key ∧ n = q) →
            (Meta.Stored st k n mv ↔ Meta.Stored s.sys.store k n mv) := by
          intro k n mv hne
          rw [← Meta.getVer_ok_iff, ← Meta.getVer_ok_iff, c2 k n (by
            intro he; exact hne ⟨congrArg Prod.fst he, congrArg Prod.snd he⟩)]
        refine ⟨fun k n mv h => ?_, fun k n p' h => ?_⟩
        · by_cases hkn : k = (reqs p).key ∧ n = q
          · obtain ⟨rfl, rfl⟩ := hkn
            refine ⟨p, v, l, uid, ts, by simp, rfl, g2, ?_⟩
            have := (Meta.getVer_ok_iff _ _ _ _).2 h
            rw [(Meta.getVer_ok_iff _ _ _ _).2 c1] at this
            exact (Except.ok.inj this).symm
          · obtain ⟨p', v', l', uid', ts', h1, h2, h3, h4⟩ := hs.stored k n mv ((hother k n mv hkn).1 h)
            exact ⟨p', v', l', uid', ts', by rw [if_neg hkn]; exact h1, h2, h3, h4⟩
        · by_cases hkn : k = (reqs p).key ∧ n = q
          · obtain ⟨rfl, rfl⟩ := hkn
            exact ⟨_, c1⟩
          · rw [if_neg hkn] at h
            obtain ⟨mv, hmv⟩ := hs.spec k n p' h
            exact ⟨mv, (hother k n mv hkn).2 hmv⟩
      | other op =>
        obtain ⟨hp, rfl⟩ := hst
        refine ⟨fun k n mv h => ?_, fun k n p' h => ?_⟩
        · obtain ⟨p', v', l', uid', ts', h1, h2, h3, h4⟩ := hs.stored k n mv (plain_shrinks hp k n mv h)
          refine ⟨p', v', l', uid', ts', ?_, h2, h3, h4⟩
          simp only [specNext2, specNext, (Meta.getVer_ok_iff _ _ _ _).2 h]
          exact h1
        · simp only [specNext2, specNext] at h
          split at h
          · rename_i mv hmv
            exact ⟨mv, (Meta.getVer_ok_iff _ _ _ _).1 hmv⟩
          · cases h
      | _ => exact absurd trivial hl
  | lose srv f => cases (show s' = _ from hst); exact hkeep rfl rfl
  | move src dst f => obtain ⟨ps, _, rfl⟩ := hst; exact hkeep rfl rfl
  | record now h i srv =>
    cases (show s' = _ from hst)
    obtain ⟨r1, r2⟩ := locate_step (now := now) (h := h) (i := i) (val := srv) (sinv_seq hs)
    refine ⟨fun k n mv hmv => ?_, fun k n p hsp => ?_⟩
    · obtain ⟨mv0, m1, m2⟩ := r1 k n mv hmv
      obtain ⟨p, v, l, uid, ts, g1, g2, g3, rfl⟩ := hs.stored k n mv0 m1
      rcases m2 with rfl | ⟨_, ts', rfl⟩
      · exact ⟨p, v, l, uid, ts, g1, g2, g3, rfl⟩
      · exact ⟨p, v, l.set i srv, uid, ts', g1, g2, g3, rfl⟩
    · obtain ⟨mv, hmv⟩ := hs.spec k n p hsp
      exact r2 k n mv hmv
  | read g k n r => obtain ⟨_, mv, _, _, rfl⟩ := hst; exact hkeep rfl rfl
  | mend g i srv => obtain ⟨mv, reps, b, _, _, rfl⟩ := hst; exact hkeep rfl rfl
  | update now id body =>
    cases (show s' = _ from hst)
    refine hkeep ?_ rfl
    simp only [Api.MetaRpc.C75_update_always_refused]

theorem inv_run2 {P : Params} {reqs : Nat → Req} (hB : 0 < P.ioB) (hpB : Object.pageSize ∣ P.ioB)
    (hq : ReqsOk reqs) {ok : Sys2 → Spec → Ev2 → Prop} (hok : ∀ s sp e, ok s sp e → Sound P reqs s sp e)
    {es : List Ev2} {s : Sys2} {sp : Spec} (hr : Run2 P reqs ok es s sp) (hh : HashesOk P reqs s.sys) :
    FInv P reqs s ∧ SInv reqs s.sys sp := by
  have hidle : ∀ {es s sp}, Run2 P reqs ok es s sp → ∀ p, s.sys.phase p = .idle → s.sys.ver p = none := by
    intro es s sp hr
    induction hr with
    | nil => exact fun _ _ => rfl
    | snoc hr ho hst ih => exact idle_step2 ih hst
  induction hr with
  | nil => exact ⟨finv_init P reqs, sinv_init reqs⟩
  | snoc hr ho hst ih =>
    have hh' := hashes_mono (ver_mono2 (hidle hr) hst) hh
    obtain ⟨h1, h2⟩ := ih hh'
    exact ⟨finv_step hB hpB hq h1 h2 hh' (hok _ _ _ ho) hst, sinv_step h1.idle h2 hst⟩

end Verif.System
