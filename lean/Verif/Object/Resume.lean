import Verif.Object.Upload

/-!
# Resumable uploads: C40

`BigObjectsController.Patch` (src/apiserver/internal/controller/http/big_api.go:138-203) and
`RSResumablePutStream` (rs_resumable_stream.go).  Every PATCH request opens a fresh stream over the same
temp files, so the encoder's cache starts empty and what it still holds at the end is dropped.
-/

namespace Verif.Object

/-- A resumable upload between two requests: the servers, the number of request groups so far (selects
outcomes in `Env`), whether the temp upload on server 0 was removed by a commit or delete, and the number
of versions recorded for it. -/
structure Sess where
  srvs : List Srv
  k : Nat
  gone : Bool
  recorded : Nat
  deriving DecidableEq

inductive Answer
  /-- 206 with the number of bytes acknowledged -/
  | accepted (n : Nat)
  /-- 416, the message names the current size -/
  | mismatch (cur : Nat)
  /-- an error of a data server -/
  | failed
  /-- 403, longer than announced -/
  | exceeded
  /-- recording the version was refused -/
  | refused
  | done
  deriving DecidableEq

/-- `CurrentSize`, rs_resumable_stream.go:65-77, and `Head` of the data server, temp_rest.go:86-106, where
`ti.Size` is the shard size (rs_put_stream.go:29).  Simplified: the request itself does not fail. -/
def Sess.currentSize (B : Nat) (c : RsConfig) (size : Nat) (s : Sess) : Option Nat :=
  if s.gone then none
  else
    match s.srvs with
    | [] => none
    | s0 :: _ => some (min (min (storePieces B s0.temp).length (c.shardSize size) * c.dataShards) size)

/-- `Commit(false)`, rs_put_stream.go:48-68: flushes first; no delete request when that fails.  Second
component: server 0 removed the temp upload. -/
def Up.abort (enc : Bytes → List Bytes) (env : Env) (u : Up) : Up × Bool :=
  let r := u.flush enc env
  if r.1 then ((r.2.group env fun _ s _ => s).2, (env.resp r.2.k 0).performed) else (r.2, false)

/-- Whether server 0 performs the commit request of `Up.commit`. -/
def Up.commitGone (enc : Bytes → List Bytes) (env : Env) (u : Up) : Bool :=
  let r := u.flush enc env
  r.1 && (env.resp r.2.k 0).performed

/-- What follows the copy loop, big_api.go:166-203.  `recordOk`: `finishUpload` succeeds (it asks the
metadata service; with `Checksum` configured it compares with a hash of something else and never
succeeds). -/
def Sess.conclude (size : Nat) (enc : Bytes → List Bytes) (env : Env) (recordOk : Bool) (s : Sess) (tot : Nat)
    (u : Up) : Answer × Sess :=
  if tot < size then (.accepted tot, { s with srvs := u.srvs, k := u.k })
  else if size < tot then
    let r := u.abort enc env
    (.exceeded, { s with srvs := r.1.srvs, k := r.1.k, gone := r.2 })
  else if recordOk then
    let r := u.commit enc env
    (if r.1 then .done else .failed, ⟨r.2.srvs, r.2.k, u.commitGone enc env, s.recorded + 1⟩)
  else
    let r := u.abort enc env
    (.refused, { s with srvs := r.1.srvs, k := r.1.k, gone := r.2 })

/-- `Patch`, big_api.go:138-203.  A body whose reading breaks off is taken as it is (line 162), so `chunks`
are the pieces that arrived.  `none`: the copy loop never ends (block size 0). -/
def Sess.patch (B : Nat) (c : RsConfig) (size : Nat) (enc : Bytes → List Bytes) (env : Env) (recordOk : Bool)
    (s : Sess) (off : Nat) (chunks : List Bytes) : Option (Answer × Sess) :=
  match s.currentSize B c size with
  | none => some (.failed, s)
  | some cur =>
    if cur ≠ off then some (.mismatch cur, s)
    else
      match Up.body c.blockSize enc env ⟨[], s.srvs, s.k⟩ chunks with
      | none => none
      | some (false, u) => some (.failed, { s with srvs := u.srvs, k := u.k })
      | some (true, u) => some (s.conclude size enc env recordOk (cur + chunks.flatten.length) u)

/-- The upload after `Post`, big_api.go:41-113: every server has an empty temp file. -/
def Sess.start (c : RsConfig) : Sess := ⟨List.replicate c.allShards ⟨[], none⟩, 0, false, 0⟩

/-! ## Specification -/

/-- The upload as a client sees it: `opened d`: the bytes `d` have been kept; `closed x`: the temp upload
is gone, with content `x` committed or (`none`) deleted; `over`: more bytes than announced were sent. -/
inductive SpecSt
  | opened (d : Bytes)
  | closed (x : Option Bytes)
  | over

/-- What may happen to a request at offset `off` with body `b`; the Boolean says whether a version is
recorded. -/
inductive SpecStep (bs size : Nat) : SpecSt → Nat → Bytes → Answer → Bool → SpecSt → Prop
  | mismatch {d off b} : off ≠ d.length → SpecStep bs size (.opened d) off b (.mismatch d.length) false (.opened d)
  | accepted {d b} : d.length + b.length < size →
      SpecStep bs size (.opened d) d.length b (.accepted (d.length + b.length)) false
        (.opened (d ++ b.take (b.length / bs * bs)))
  /-- a server failed: some number of whole blocks was kept -/
  | failed {d b} (j : Nat) : j * bs ≤ b.length → d.length + j * bs ≤ size →
      SpecStep bs size (.opened d) d.length b .failed false (.opened (d ++ b.take (j * bs)))
  | failedOver {d b} : size < d.length + b.length → SpecStep bs size (.opened d) d.length b .failed false .over
  | exceeded {d b} : size < d.length + b.length → SpecStep bs size (.opened d) d.length b .exceeded false .over
  | done {d b} : d.length + b.length = size →
      SpecStep bs size (.opened d) d.length b .done true (.closed (some (d ++ b)))
  /-- all bytes arrived, the commit failed -/
  | uncommitted {d b} (n : Nat) : d.length + b.length = size → n = b.length ∨ n = b.length / bs * bs →
      SpecStep bs size (.opened d) d.length b .failed true (.opened (d ++ b.take n))
  /-- all bytes arrived, the commit was performed but its answers were lost -/
  | unheard {d b} : d.length + b.length = size →
      SpecStep bs size (.opened d) d.length b .failed true (.closed (some (d ++ b)))
  | refused {d b} (n : Nat) : d.length + b.length = size → n = b.length ∨ n = b.length / bs * bs →
      SpecStep bs size (.opened d) d.length b .refused false (.opened (d ++ b.take n))
  | deleted {d b} : d.length + b.length = size →
      SpecStep bs size (.opened d) d.length b .refused false (.closed none)
  | gone {x off b} : SpecStep bs size (.closed x) off b .failed false (.closed x)
  /-- nothing is promised to a client that sent too much -/
  | over {off b a r st} : SpecStep bs size .over off b a r st

/-- Requests of a parallel group are all performed or all not performed. -/
def Atomic (env : Env) : Prop :=
  ∀ k, (∀ i, (env.resp k i).performed = true) ∨ (∀ i, (env.resp k i).performed = false)

/-- `srvs` after the blocks `bl` were appended. -/
def extend (enc : Bytes → List Bytes) (bl : List Bytes) (srvs : List Srv) : List Srv :=
  srvs.mapIdx fun i s => { s with temp := s.temp ++ bl.map fun b => (enc b).getD i [] }

theorem extend_nil (enc : Bytes → List Bytes) (srvs : List Srv) : extend enc [] srvs = srvs := by
  apply List.ext_getElem?
  intro i
  simp [extend, List.getElem?_mapIdx]

theorem extend_append (enc : Bytes → List Bytes) (a b : List Bytes) (srvs : List Srv) :
    extend enc (a ++ b) srvs = extend enc b (extend enc a srvs) := by
  apply List.ext_getElem?
  intro i
  simp only [extend, List.getElem?_mapIdx, Option.map_map]
  congr 1
  funext s
  simp

/-- Flushing a nonempty cache under an atomic environment. -/
theorem flush_atomic {enc : Bytes → List Bytes} {env : Env} (hs : ∀ k, env.sees k = true) (ha : Atomic env)
    (u : Up) (hne : u.cache ≠ []) :
    (u.flush enc env).2.cache = [] ∧
    ((u.flush enc env).1 = true → (u.flush enc env).2.srvs = extend enc [u.cache] u.srvs) ∧
    ((u.flush enc env).2.srvs = extend enc [u.cache] u.srvs ∨ (u.flush enc env).2.srvs = u.srvs) := by
  simp only [Up.flush, hne, if_false]
  refine ⟨trivial, fun h => ?_, ?_⟩
  · rw [group_srvs hs h]
    rfl
  · rcases ha u.k with h | h
    · left
      apply List.ext_getElem?
      intro i
      simp only [Up.group, extend, List.getElem?_mapIdx, Srv.patch, h, if_true]
      rfl
    · right
      apply List.ext_getElem?
      intro i
      simp [Up.group, List.getElem?_mapIdx, Srv.patch, h]

theorem writeLoop_atomic {bs : Nat} {enc : Bytes → List Bytes} {env : Env} (hs : ∀ k, env.sees k = true)
    (ha : Atomic env) (fuel : Nat) (bt : Bytes) (u : Up) (hf : bt.length ≤ fuel) (hc : u.cache.length < bs) :
    ∃ ok u' bl rest, Up.writeLoop bs enc env fuel u bt = some (ok, u') ∧ Full bs bl ∧
      u'.srvs = extend enc bl u.srvs ∧ u.cache ++ bt = bl.flatten ++ rest ∧
      (ok = true → rest = u'.cache ∧ u'.cache.length < bs) := by
  induction fuel generalizing bt u with
  | zero =>
    cases bt with
    | nil => exact ⟨true, u, [], u.cache, by simp [Up.writeLoop], by simp [Full], (extend_nil _ _).symm, by simp,
        fun _ => ⟨rfl, hc⟩⟩
    | cons _ _ => simp at hf
  | succ fuel ih =>
    cases bt with
    | nil => exact ⟨true, u, [], u.cache, by simp [Up.writeLoop], by simp [Full], (extend_nil _ _).symm, by simp,
        fun _ => ⟨rfl, hc⟩⟩
    | cons x xs =>
      rw [Up.writeLoop]
      · generalize hn : min (bs - u.cache.length) (x :: xs).length = next
        have hpos : next ≠ 0 := by simp at hn; omega
        simp only [hpos, ↓reduceIte]
        have htl : ((x :: xs).take next).length = next := by rw [List.length_take]; omega
        have hdl : ((x :: xs).drop next).length ≤ fuel := by
          rw [List.length_drop]; omega
        have hsplit : u.cache ++ (x :: xs) = (u.cache ++ (x :: xs).take next) ++ (x :: xs).drop next := by
          rw [List.append_assoc, List.take_append_drop]
        by_cases hfull : bs ≤ (u.cache ++ (x :: xs).take next).length
        · have hp : u.push bs enc env ((x :: xs).take next) =
              Up.flush enc env ⟨u.cache ++ (x :: xs).take next, u.srvs, u.k⟩ := by
            simp only [Up.push, if_pos hfull]
          rw [hp]
          have hlen : (u.cache ++ (x :: xs).take next).length = bs := by
            rw [List.length_append, htl] at hfull ⊢; omega
          generalize hu1 : (⟨u.cache ++ (x :: xs).take next, u.srvs, u.k⟩ : Up) = u1
          have hc1 : u1.cache = u.cache ++ (x :: xs).take next := by rw [← hu1]
          have hs1 : u1.srvs = u.srvs := by rw [← hu1]
          rw [← hc1] at hlen
          have hne : u1.cache ≠ [] := by intro he; rw [he] at hlen; simp at hlen; omega
          obtain ⟨f1, f2, f3⟩ := flush_atomic hs ha u1 hne (enc := enc)
          cases hfl : u1.flush enc env with
          | mk b u2 =>
            rw [hfl] at f1 f2 f3
            simp only at f1 f2 f3
            cases b with
            | true =>
              simp only
              obtain ⟨ok, u', bl, rest, a1, a2, a3, a4, a5⟩ := ih ((x :: xs).drop next) u2 hdl
                (by rw [f1]; simp; omega)
              refine ⟨ok, u', u1.cache :: bl, rest, a1, ?_, ?_, ?_, a5⟩
              · intro b hb
                rcases List.mem_cons.1 hb with hb | hb
                · rw [hb]; exact hlen
                · exact a2 b hb
              · rw [a3, f2 rfl, hs1, ← extend_append]; rfl
              · rw [hsplit, ← hc1, List.flatten_cons, List.append_assoc, ← a4, f1]; simp
            | false =>
              simp only
              rcases f3 with f3 | f3
              · exact ⟨false, u2, [u1.cache], (x :: xs).drop next, rfl,
                  by intro b hb; rw [List.mem_singleton.1 hb]; exact hlen, by rw [f3, hs1],
                  by rw [hsplit, ← hc1]; simp, by intro h; cases h⟩
              · exact ⟨false, u2, [], u.cache ++ (x :: xs), rfl, by simp [Full], by rw [f3, hs1, extend_nil],
                  by simp, by intro h; cases h⟩
        · have hp : u.push bs enc env ((x :: xs).take next) =
              (true, ⟨u.cache ++ (x :: xs).take next, u.srvs, u.k⟩) := by
            simp only [Up.push, if_neg hfull]
          rw [hp]
          simp only
          obtain ⟨ok, u', bl, rest, a1, a2, a3, a4, a5⟩ := ih ((x :: xs).drop next)
            ⟨u.cache ++ (x :: xs).take next, u.srvs, u.k⟩ hdl (by simp only; omega)
          exact ⟨ok, u', bl, rest, a1, a2, a3, by rw [hsplit]; exact a4, a5⟩
      · intro hh; cases hh

theorem body_atomic {bs : Nat} {enc : Bytes → List Bytes} {env : Env} (hs : ∀ k, env.sees k = true)
    (ha : Atomic env) (chunks : List Bytes) (u : Up) (hc : u.cache.length < bs) :
    ∃ ok u' bl rest, Up.body bs enc env u chunks = some (ok, u') ∧ Full bs bl ∧
      u'.srvs = extend enc bl u.srvs ∧ u.cache ++ chunks.flatten = bl.flatten ++ rest ∧
      (ok = true → rest = u'.cache ∧ u'.cache.length < bs) := by
  induction chunks generalizing u with
  | nil => exact ⟨true, u, [], u.cache, by simp [Up.body], by simp [Full], (extend_nil _ _).symm, by simp,
        fun _ => ⟨rfl, hc⟩⟩
  | cons bt rest ih =>
    obtain ⟨ok, u1, bl, r1, a1, a2, a3, a4, a5⟩ := writeLoop_atomic hs ha bt.length bt u (Nat.le_refl _) hc (enc := enc)
    rw [Up.body, a1]
    cases ok with
    | false =>
      simp only
      exact ⟨false, u1, bl, r1 ++ rest.flatten, rfl, a2, a3, by
        rw [List.flatten_cons, ← List.append_assoc, a4, List.append_assoc], by intro h; cases h⟩
    | true =>
      simp only
      obtain ⟨e1, e2⟩ := a5 rfl
      obtain ⟨ok, u', bl', r', b1, b2, b3, b4, b5⟩ := ih u1 e2
      refine ⟨ok, u', bl ++ bl', r', b1, ?_, ?_, ?_, b5⟩
      · intro b hb
        rcases List.mem_append.1 hb with hb | hb
        · exact a2 b hb
        · exact b2 b hb
      · rw [b3, a3, extend_append]
      · rw [List.flatten_cons, ← List.append_assoc, a4, List.append_assoc, e1, b4, List.flatten_append,
          List.append_assoc]

/-! ## Relation between the model and the specification -/

/-- The shards of `d` on the servers `srvs`. -/
def Stored {k m : Nat} (cod : Code k m) (bs : Nat) (d : Bytes) (srvs : List Srv) : Prop :=
  ∃ blocks, WF bs blocks ∧ blocks.flatten = d ∧
    srvs = (List.range (k + m)).map fun i => ⟨blocks.map fun b => (encodeBlock cod b).getD i [], none⟩

/-- The shards of `d` are committed on the servers `srvs`. -/
def Committed {k m : Nat} (cod : Code k m) (bs : Nat) (d : Bytes) (srvs : List Srv) : Prop :=
  ∃ blocks, WF bs blocks ∧ blocks.flatten = d ∧
    srvs.map (·.final) = (List.range (k + m)).map fun i => some (blocks.map fun b => (encodeBlock cod b).getD i [])

def Rel (c : RsConfig) (cod : Code c.dataShards c.parityShards) (size : Nat) (s : Sess) : SpecSt → Prop
  | .opened d => s.gone = false ∧ d.length ≤ size ∧ (c.blockSize ∣ d.length ∨ d.length = size) ∧
      Stored cod c.blockSize d s.srvs
  | .closed (some x) => s.gone = true ∧ x.length = size ∧ Committed cod c.blockSize x s.srvs
  | .closed none => s.gone = true ∧ ∀ t ∈ s.srvs, t.final = none
  | .over => True

theorem full_of_dvd {bs : Nat} (hbs : 0 < bs) (blocks : List Bytes) (h : WF bs blocks)
    (hd : bs ∣ blocks.flatten.length) : Full bs blocks := by
  induction blocks with
  | nil => simp [Full]
  | cons b rest ih =>
    obtain ⟨h1, h2, h3, h4⟩ := h
    cases rest with
    | nil =>
      have hb : bs ∣ b.length := by simpa using hd
      have : bs ≤ b.length := Nat.le_of_dvd h1 hb
      intro x hx
      rw [List.mem_singleton.1 hx]; omega
    | cons y ys =>
      have hb := h3 (by simp)
      rw [List.flatten_cons, List.length_append, hb] at hd
      have := ih h4 ((Nat.dvd_add_right (Nat.dvd_refl bs)).1 hd)
      intro x hx
      rcases List.mem_cons.1 hx with hx | hx
      · rw [hx]; exact hb
      · exact this x hx

theorem full_dvd {bs : Nat} (blocks : List Bytes) (h : Full bs blocks) : bs ∣ blocks.flatten.length := by
  induction blocks with
  | nil => simp
  | cons b rest ih =>
    rw [List.flatten_cons, List.length_append, h b (by simp)]
    exact Nat.dvd_add (Nat.dvd_refl _) (ih fun x hx => h x (by simp [hx]))

theorem stored_extend {k m : Nat} {cod : Code k m} {bs : Nat} {d : Bytes} {srvs : List Srv} {bl : List Bytes}
    (h : ∃ blocks, blocks.flatten = d ∧ WF bs (blocks ++ bl) ∧
      srvs = (List.range (k + m)).map fun i => ⟨blocks.map fun b => (encodeBlock cod b).getD i [], none⟩) :
    Stored cod bs (d ++ bl.flatten) (extend (encodeBlock cod) bl srvs) := by
  obtain ⟨blocks, h2, h1, h3⟩ := h
  refine ⟨blocks ++ bl, h1, by simp [h2], ?_⟩
  rw [h3]
  apply List.ext_getElem?
  intro i
  simp only [extend, List.getElem?_mapIdx, List.getElem?_map]
  by_cases hi : i < k + m
  · rw [List.getElem?_range hi]; simp
  · rw [List.getElem?_eq_none (by simpa using hi)]; rfl

/-- **C40**, the acknowledged size: the servers' answer is the number of bytes kept. -/
theorem currentSize_eq {B : Nat} (hB : 0 < B) (hpB : pageSize ∣ B) {c : RsConfig}
    {cod : Code c.dataShards c.parityShards} (hk : 0 < c.dataShards) (hb : 0 < c.blockPerShard)
    (hp : pageSize ∣ c.blockPerShard) {size : Nat} {s : Sess} {d : Bytes} (h : Rel c cod size s (.opened d)) :
    s.currentSize B c size = some d.length := by
  obtain ⟨hg, hle, hcase, blocks, w1, w2, w3⟩ := h
  have hn : 0 < c.dataShards + c.parityShards := by omega
  obtain ⟨n, hn'⟩ : ∃ n, c.dataShards + c.parityShards = n + 1 := ⟨_, (Nat.sub_add_cancel hn).symm⟩
  have h0 : s.srvs = ⟨blocks.map fun b => (encodeBlock cod b).getD 0 [], none⟩ ::
      ((List.range n).map fun i => ⟨blocks.map fun b => (encodeBlock cod b).getD (i + 1) [], none⟩) := by
    rw [w3, hn', List.range_succ_eq_map]
    simp
  simp only [Sess.currentSize, hg, Bool.false_eq_true, if_false, h0]
  have hal := aligned_shards hk cod (i := 0) hn hp blocks w1
  have hlen := strm_length hk cod (i := 0) hn blocks w1
  rw [storePieces_eq hB hpB, alignedPieces_flatten _ hal, padded_length]
  have hfl : (blocks.map fun b => (encodeBlock cod b).getD 0 []).flatten.length = perShard c.dataShards d.length := by
    rw [← w2]; exact hlen
  rw [hfl]
  have hss : c.shardSize size = perShard c.dataShards size := rfl
  rw [hss]
  congr 1
  rcases hcase with hd | hd
  · obtain ⟨q, hq⟩ := hd
    have hq' : d.length = c.blockPerShard * q * c.dataShards := by
      rw [hq]; unfold RsConfig.blockSize; rw [Nat.mul_assoc, Nat.mul_comm c.dataShards, ← Nat.mul_assoc]
    rw [hq', perShard_block hk, alignedSize_of_dvd (Nat.dvd_mul_right_of_dvd hp q)]
    have : c.blockPerShard * q ≤ perShard c.dataShards size := by
      rw [← perShard_block hk (c.blockPerShard * q), ← hq']
      exact Nat.div_le_div_right (by omega)
    rw [Nat.min_eq_left this, ← hq', Nat.min_eq_left hle]
  · rw [hd]
    have h1 := le_alignedSize (perShard c.dataShards size)
    have h2 := perShard_mul_ge hk size
    rw [Nat.min_eq_right h1]
    omega

theorem abort_effect {enc : Bytes → List Bytes} {env : Env} (hs : ∀ k, env.sees k = true) (ha : Atomic env) (u : Up) :
    ((u.abort enc env).1.srvs = extend enc (if u.cache = [] then [] else [u.cache]) u.srvs ∨
      (u.abort enc env).1.srvs = u.srvs ∧ (u.abort enc env).2 = false) := by
  unfold Up.abort
  have hgrp : ∀ v : Up, (v.group env fun _ s _ => s).2.srvs = v.srvs := by
    intro v
    apply List.ext_getElem?
    intro i
    simp [Up.group, List.getElem?_mapIdx]
  by_cases hne : u.cache = []
  · have hfl : u.flush enc env = (true, u) := by simp [Up.flush, hne]
    left
    simp only [hfl, if_true, hne, hgrp, extend_nil]
  · obtain ⟨f1, f2, f3⟩ := flush_atomic hs ha u hne (enc := enc)
    simp only [hne, if_false]
    by_cases hf : (u.flush enc env).1 = true
    · left
      simp only [hf, if_true, hgrp]
      exact f2 hf
    · simp only [hf, if_false, Bool.false_eq_true]
      rcases f3 with f3 | f3
      · exact Or.inl f3
      · exact Or.inr ⟨f3, trivial⟩

/-- Outcomes of a commit: everything committed; or the last block stored but nothing committed; or nothing
changed. -/
theorem commit_effect {enc : Bytes → List Bytes} {env : Env} (hs : ∀ k, env.sees k = true) (ha : Atomic env)
    (u : Up) (hn : u.srvs ≠ []) :
    ((u.commit enc env).2.srvs = (extend enc (if u.cache = [] then [] else [u.cache]) u.srvs).map
        (fun s => s.put .ok) ∧ u.commitGone enc env = true) ∨
    ((u.commit enc env).1 = false ∧ u.commitGone enc env = false ∧
      ((u.commit enc env).2.srvs = extend enc (if u.cache = [] then [] else [u.cache]) u.srvs ∨
       (u.commit enc env).2.srvs = u.srvs)) := by
  have key : ∀ v : Up, v.srvs ≠ [] →
      ((v.group env fun _ s => s.put).2.srvs = v.srvs.map (fun s => s.put .ok) ∧ (env.resp v.k 0).performed = true) ∨
      ((v.group env fun _ s => s.put).1 = false ∧ (env.resp v.k 0).performed = false ∧
        (v.group env fun _ s => s.put).2.srvs = v.srvs) := by
    intro v hv
    rcases ha v.k with h | h
    · left
      refine ⟨?_, h 0⟩
      apply List.ext_getElem?
      intro i
      simp only [Up.group, List.getElem?_mapIdx, List.getElem?_map, Srv.put, h, if_true]
      rfl
    · right
      refine ⟨?_, h 0, ?_⟩
      · cases hg : (v.group env fun _ s => s.put).1 with
        | false => rfl
        | true =>
          have := group_ok hs hg (i := 0) (List.length_pos_iff.2 hv)
          have h0 := h 0
          rw [this] at h0
          cases h0
      · apply List.ext_getElem?
        intro i
        simp [Up.group, List.getElem?_mapIdx, Srv.put, h]
  unfold Up.commit Up.commitGone
  by_cases hne : u.cache = []
  · have hfl : u.flush enc env = (true, u) := by simp [Up.flush, hne]
    simp only [hfl, if_true, hne, extend_nil, Bool.true_and]
    rcases key u hn with h | h
    · exact Or.inl h
    · exact Or.inr ⟨h.1, h.2.1, Or.inl h.2.2⟩
  · obtain ⟨f1, f2, f3⟩ := flush_atomic hs ha u hne (enc := enc)
    simp only [hne, if_false]
    by_cases hf : (u.flush enc env).1 = true
    · simp only [hf, if_true, Bool.true_and]
      have hl : (u.flush enc env).2.srvs ≠ [] := by
        rw [f2 hf, ← List.length_pos_iff]
        simp only [extend, List.length_mapIdx]
        exact List.length_pos_iff.2 hn
      rcases key _ hl with h | h
      · rw [f2 hf] at h; exact Or.inl h
      · rw [f2 hf] at h; exact Or.inr ⟨h.1, h.2.1, Or.inl h.2.2⟩
    · simp only [hf, if_false, Bool.false_eq_true, Bool.false_and]
      exact Or.inr ⟨trivial, trivial, f3⟩

theorem full_flatten_length {bs : Nat} (bl : List Bytes) (h : Full bs bl) : bl.flatten.length = bl.length * bs := by
  induction bl with
  | nil => simp
  | cons b rest ih =>
    rw [List.flatten_cons, List.length_append, h b (by simp), ih fun x hx => h x (by simp [hx]), List.length_cons,
      Nat.succ_mul]
    omega

theorem full_append {bs : Nat} {a b : List Bytes} (ha : Full bs a) (hb : Full bs b) : Full bs (a ++ b) := by
  intro x hx
  rcases List.mem_append.1 hx with hx | hx
  · exact ha x hx
  · exact hb x hx

/-- Adding whole blocks. -/
theorem stored_blocks {k m : Nat} {cod : Code k m} {bs size : Nat} (hbs : 0 < bs) {d : Bytes} {srvs : List Srv}
    {bl : List Bytes} (hle : d.length + bl.flatten.length ≤ size) (hd : bs ∣ d.length ∨ d.length = size)
    (hst : Stored cod bs d srvs) (hf : Full bs bl) :
    Stored cod bs (d ++ bl.flatten) (extend (encodeBlock cod) bl srvs) ∧
    (bs ∣ (d ++ bl.flatten).length ∨ (d ++ bl.flatten).length = size) := by
  obtain ⟨blocks, w1, w2, w3⟩ := hst
  rcases hd with hd | hd
  · have hfb := full_of_dvd hbs blocks w1 (by rw [w2]; exact hd)
    refine ⟨stored_extend ⟨blocks, w2, wf_full hbs _ (full_append hfb hf), w3⟩, Or.inl ?_⟩
    rw [List.length_append]
    exact Nat.dvd_add hd (full_dvd bl hf)
  · have h0 : bl.flatten.length = 0 := by omega
    have hl := full_flatten_length bl hf
    rw [h0] at hl
    have hb : bl = [] := by
      rcases Nat.mul_eq_zero.1 hl.symm with h | h
      · exact List.length_eq_zero_iff.1 h
      · omega
    subst hb
    rw [extend_nil]
    simp only [List.flatten_nil, List.append_nil]
    exact ⟨⟨blocks, w1, w2, w3⟩, Or.inr hd⟩

/-- Adding whole blocks and the last, shorter one. -/
theorem stored_all {k m : Nat} {cod : Code k m} {bs size : Nat} (hbs : 0 < bs) {d : Bytes} {srvs : List Srv}
    {bl : List Bytes} {rest : Bytes} (heq : d.length + (bl.flatten ++ rest).length = size)
    (hd : bs ∣ d.length ∨ d.length = size) (hst : Stored cod bs d srvs) (hf : Full bs bl) (hr : rest.length < bs) :
    Stored cod bs (d ++ (bl.flatten ++ rest))
      (extend (encodeBlock cod) (if rest = [] then [] else [rest]) (extend (encodeBlock cod) bl srvs)) := by
  rw [List.length_append] at heq
  by_cases hne : rest = []
  · subst hne
    simp only [if_true, extend_nil, List.append_nil]
    exact (stored_blocks hbs (size := size) (by simp only [List.length_nil] at heq; omega) hd hst hf).1
  · simp only [hne, if_false]
    have hpos := List.length_pos_iff.2 hne
    obtain ⟨blocks, w1, w2, w3⟩ := hst
    have hd' : bs ∣ d.length := by
      rcases hd with hd | hd
      · exact hd
      · omega
    have hfb := full_of_dvd hbs blocks w1 (by rw [w2]; exact hd')
    rw [← extend_append]
    have := stored_extend (cod := cod) (bs := bs) (bl := bl ++ [rest]) ⟨blocks, w2, by
      rw [← List.append_assoc]
      exact wf_of_full hbs _ (full_append hfb hf) rest (by omega) hne, w3⟩
    simpa using this

theorem stored_committed {k m : Nat} {cod : Code k m} {bs : Nat} {d : Bytes} {srvs : List Srv}
    (h : Stored cod bs d srvs) : Committed cod bs d (srvs.map fun s => s.put .ok) := by
  obtain ⟨blocks, w1, w2, w3⟩ := h
  refine ⟨blocks, w1, w2, ?_⟩
  rw [w3]
  simp [Srv.put, Resp.performed]

theorem stored_uncommitted {k m : Nat} {cod : Code k m} {bs : Nat} {d : Bytes} {srvs : List Srv}
    (h : Stored cod bs d srvs) : ∀ t ∈ srvs, t.final = none := by
  obtain ⟨blocks, _, _, w3⟩ := h
  rw [w3]
  intro t ht
  obtain ⟨i, _, rfl⟩ := List.mem_map.1 ht
  rfl

theorem conclude_recorded (size : Nat) (enc : Bytes → List Bytes) (env : Env) (recordOk : Bool) (s : Sess)
    (tot : Nat) (u : Up) : (s.conclude size enc env recordOk tot u).2.recorded = s.recorded ∨
      (s.conclude size enc env recordOk tot u).2.recorded = s.recorded + 1 := by
  unfold Sess.conclude
  split
  · exact Or.inl rfl
  · split
    · exact Or.inl rfl
    · split
      · exact Or.inr rfl
      · exact Or.inl rfl

/-- One request: the servers' answer and state are among those the specification allows. -/
theorem patch_refines {B : Nat} (hB : 0 < B) (hpB : pageSize ∣ B) {c : RsConfig}
    {cod : Code c.dataShards c.parityShards} (hk : 0 < c.dataShards) (hb : 0 < c.blockPerShard)
    (hp : pageSize ∣ c.blockPerShard) {size : Nat} {env : Env} (hs : ∀ k, env.sees k = true) (ha : Atomic env)
    (recordOk : Bool) {s : Sess} {st : SpecSt} (h : Rel c cod size s st) (off : Nat) (chunks : List Bytes) :
    ∃ a s' st', s.patch B c size (encodeBlock cod) env recordOk off chunks = some (a, s') ∧
      SpecStep c.blockSize size st off chunks.flatten a (decide (s'.recorded = s.recorded + 1)) st' ∧
      Rel c cod size s' st' ∧ (s'.recorded = s.recorded ∨ s'.recorded = s.recorded + 1) := by
  have hbs : 0 < c.blockSize := Nat.mul_pos hb hk
  obtain ⟨ok, u, bl, rest, b1, b2, b3, b4, b5⟩ := body_atomic hs ha chunks ⟨[], s.srvs, s.k⟩
    (show ([] : Bytes).length < c.blockSize from hbs) (enc := encodeBlock cod)
  simp only [List.nil_append] at b3 b4
  cases st with
  | over =>
    have : ∃ a s', s.patch B c size (encodeBlock cod) env recordOk off chunks = some (a, s') ∧
        (s'.recorded = s.recorded ∨ s'.recorded = s.recorded + 1) := by
      unfold Sess.patch
      cases s.currentSize B c size with
      | none => exact ⟨_, _, rfl, Or.inl rfl⟩
      | some cur =>
        simp only
        split
        · exact ⟨_, _, rfl, Or.inl rfl⟩
        · rw [b1]
          cases ok with
          | false => exact ⟨_, _, rfl, Or.inl rfl⟩
          | true =>
            exact ⟨_, _, rfl, conclude_recorded size _ env recordOk s _ u⟩
    obtain ⟨a, s', h1, h2⟩ := this
    exact ⟨a, s', .over, h1, .over, trivial, h2⟩
  | closed x =>
    have hg : s.gone = true := by
      cases x with
      | none => exact h.1
      | some x => exact h.1
    refine ⟨.failed, s, .closed x, ?_, by simpa using SpecStep.gone, h, Or.inl rfl⟩
    simp [Sess.patch, Sess.currentSize, hg]
  | opened d =>
    have hcur := currentSize_eq hB hpB hk hb hp h
    obtain ⟨hg, hle, hcase, hst⟩ := h
    unfold Sess.patch
    rw [hcur]
    simp only
    by_cases hoff : d.length = off
    · subst hoff
      simp only [ne_eq, not_true, if_false, b1]
      have hfl := full_flatten_length bl b2
      have hblen : chunks.flatten.length = bl.length * c.blockSize + rest.length := by
        rw [b4, List.length_append, hfl]
      have htake : chunks.flatten.take (bl.length * c.blockSize) = bl.flatten := by
        rw [b4, ← hfl, List.take_left]
      cases ok with
      | false =>
        simp only
        by_cases hov : d.length + bl.flatten.length ≤ size
        · obtain ⟨q1, q2⟩ := stored_blocks hbs hov hcase hst b2
          refine ⟨_, _, .opened (d ++ chunks.flatten.take (bl.length * c.blockSize)), rfl, ?_, ?_, Or.inl rfl⟩
          · simpa using SpecStep.failed (bs := c.blockSize) (size := size) (d := d) (b := chunks.flatten) bl.length
              (by omega) (by omega)
          · rw [htake]
            exact ⟨hg, by rw [List.length_append]; exact hov, q2, by rw [b3]; exact q1⟩
        · refine ⟨_, _, .over, rfl, ?_, trivial, Or.inl rfl⟩
          simpa using SpecStep.failedOver (bs := c.blockSize) (size := size) (d := d) (b := chunks.flatten) (by omega)
      | true =>
        obtain ⟨e1, e2⟩ := b5 rfl
        rw [e1] at b4 hblen
        have hdiv : chunks.flatten.length / c.blockSize * c.blockSize = bl.length * c.blockSize := by
          rw [hblen, Nat.mul_comm bl.length, Nat.mul_add_div hbs, Nat.div_eq_of_lt e2, Nat.add_zero,
            Nat.mul_comm]
        simp only
        unfold Sess.conclude
        by_cases h1 : d.length + chunks.flatten.length < size
        · simp only [h1, if_true]
          obtain ⟨q1, q2⟩ := stored_blocks hbs (size := size) (by omega) hcase hst b2
          refine ⟨_, _, .opened (d ++ chunks.flatten.take (chunks.flatten.length / c.blockSize * c.blockSize)), rfl,
            ?_, ?_, Or.inl rfl⟩
          · simpa using SpecStep.accepted (bs := c.blockSize) (size := size) (d := d) (b := chunks.flatten) h1
          · rw [hdiv, htake]
            exact ⟨hg, by rw [List.length_append]; omega, q2, by rw [b3]; exact q1⟩
        · by_cases h2 : size < d.length + chunks.flatten.length
          · simp only [h1, h2, if_true, if_false]
            refine ⟨_, _, .over, rfl, ?_, trivial, Or.inl rfl⟩
            simpa using SpecStep.exceeded (bs := c.blockSize) (size := size) (d := d) (b := chunks.flatten) h2
          · have heq : d.length + chunks.flatten.length = size := by omega
            simp only [h1, h2, if_false]
            have hall := stored_all hbs (by rw [← b4]; exact heq) hcase hst b2 e2
            rw [← b4, ← b3] at hall
            obtain ⟨q1, q2⟩ := stored_blocks hbs (size := size) (by omega) hcase hst b2
            rw [← b3] at q1
            have hn0 : chunks.flatten.take (chunks.flatten.length) = chunks.flatten := List.take_length
            have relAll : ∀ (k r : Nat) (srvs : List Srv), Stored cod c.blockSize (d ++ chunks.flatten) srvs →
                Rel c cod size ⟨srvs, k, false, r⟩ (.opened (d ++ chunks.flatten.take chunks.flatten.length)) := by
              intro k r srvs h
              rw [hn0]
              exact ⟨rfl, by rw [List.length_append]; omega, Or.inr (by rw [List.length_append]; omega), h⟩
            have relBl : ∀ (k r : Nat) (srvs : List Srv), srvs = u.srvs →
                Rel c cod size ⟨srvs, k, false, r⟩
                  (.opened (d ++ chunks.flatten.take (chunks.flatten.length / c.blockSize * c.blockSize))) := by
              intro k r srvs h
              rw [hdiv, htake, h]
              exact ⟨rfl, by rw [List.length_append]; omega, q2, q1⟩
            cases recordOk with
            | true =>
              simp only [if_true]
              have hne : u.srvs ≠ [] := by
                rw [b3, ← List.length_pos_iff]
                obtain ⟨bb, _, _, w3⟩ := hst
                simp only [extend, List.length_mapIdx, w3, List.length_map, List.length_range]
                omega
              rcases commit_effect hs ha u hne (enc := encodeBlock cod) with ⟨c1, c2⟩ | ⟨c1, c2, c3⟩
              · refine ⟨_, _, .closed (some (d ++ chunks.flatten)), rfl, ?_, ?_, Or.inr rfl⟩
                · split
                  · simpa using SpecStep.done (bs := c.blockSize) (size := size) (d := d) (b := chunks.flatten) heq
                  · simpa using SpecStep.unheard (bs := c.blockSize) (size := size) (d := d) (b := chunks.flatten) heq
                · refine ⟨c2, by rw [List.length_append]; exact heq, ?_⟩
                  simp only [c1]
                  exact stored_committed hall
              · simp only [c1, Bool.false_eq_true, if_false, c2]
                rcases c3 with c3 | c3
                · refine ⟨_, _, _, rfl, ?_, relAll _ _ _ (by rw [c3]; exact hall), Or.inr rfl⟩
                  simpa using SpecStep.uncommitted (bs := c.blockSize) (size := size) (d := d) (b := chunks.flatten) _
                    heq (Or.inl rfl)
                · refine ⟨_, _, _, rfl, ?_, relBl _ _ _ c3, Or.inr rfl⟩
                  simpa using SpecStep.uncommitted (bs := c.blockSize) (size := size) (d := d) (b := chunks.flatten) _
                    heq (Or.inr rfl)
            | false =>
              simp only [Bool.false_eq_true, if_false]
              rcases abort_effect hs ha u (enc := encodeBlock cod) with c3 | ⟨c3, c4⟩
              · cases hgo : (u.abort (encodeBlock cod) env).2 with
                | true =>
                  refine ⟨_, _, .closed none, rfl, ?_, ⟨rfl, ?_⟩, Or.inl rfl⟩
                  · simpa using SpecStep.deleted (bs := c.blockSize) (size := size) (d := d) (b := chunks.flatten) heq
                  · simp only [c3]; exact stored_uncommitted hall
                | false =>
                  refine ⟨_, _, _, rfl, ?_, relAll _ _ _ (by rw [c3]; exact hall), Or.inl rfl⟩
                  simpa using SpecStep.refused (bs := c.blockSize) (size := size) (d := d) (b := chunks.flatten) _
                    heq (Or.inl rfl)
              · rw [c4]
                refine ⟨_, _, _, rfl, ?_, relBl _ _ _ c3, Or.inl rfl⟩
                simpa using SpecStep.refused (bs := c.blockSize) (size := size) (d := d) (b := chunks.flatten) _
                    heq (Or.inr rfl)
    · simp only [ne_eq, hoff, not_false_eq_true, if_true]
      refine ⟨_, s, .opened d, rfl, ?_, ⟨hg, hle, hcase, hst⟩, Or.inl rfl⟩
      simpa using SpecStep.mismatch (bs := c.blockSize) (size := size) (d := d) (b := chunks.flatten)
        (fun he => hoff he.symm)

/-! ## Histories of requests -/

/-- A PATCH request: offset, body in the pieces in which it arrives, and whether recording a version works
at that moment. -/
structure Patch where
  off : Nat
  chunks : List Bytes
  recordOk : Bool

def Patch.body (p : Patch) : Bytes := p.chunks.flatten

/-- A history of requests. -/
def Sess.run (B : Nat) (c : RsConfig) (size : Nat) (enc : Bytes → List Bytes) (env : Env) :
    Sess → List Patch → Option (List Answer × Sess)
  | s, [] => some ([], s)
  | s, p :: ps =>
    match s.patch B c size enc env p.recordOk p.off p.chunks with
    | none => none
    | some (a, s') => (Sess.run B c size enc env s' ps).map fun r => (a :: r.1, r.2)

/-- Histories of the specification: answers and number of versions recorded. -/
inductive SpecRun (bs size : Nat) : SpecSt → List Patch → List Answer → Nat → SpecSt → Prop
  | nil {st} : SpecRun bs size st [] [] 0 st
  | cons {st p ps a r st' as_ n st''} : SpecStep bs size st p.off p.body a r st' →
      SpecRun bs size st' ps as_ n st'' → SpecRun bs size st (p :: ps) (a :: as_) (r.toNat + n) st''

theorem rel_start (c : RsConfig) (cod : Code c.dataShards c.parityShards) (size : Nat) :
    Rel c cod size (.start c) (.opened []) := by
  refine ⟨rfl, by simp, Or.inl (by simp), [], trivial, rfl, ?_⟩
  apply List.ext_getElem?
  intro i
  simp only [Sess.start, List.getElem?_replicate, List.getElem?_map, RsConfig.allShards]
  split
  · rename_i h; rw [List.getElem?_range h]; rfl
  · rename_i h; rw [List.getElem?_eq_none (by simpa using h)]; rfl

theorem run_refines {B : Nat} (hB : 0 < B) (hpB : pageSize ∣ B) {c : RsConfig}
    {cod : Code c.dataShards c.parityShards} (hk : 0 < c.dataShards) (hb : 0 < c.blockPerShard)
    (hp : pageSize ∣ c.blockPerShard) {size : Nat} {env : Env} (hs : ∀ k, env.sees k = true) (ha : Atomic env)
    (ps : List Patch) {s : Sess} {st : SpecSt} (h : Rel c cod size s st) :
    ∃ answers s' st' n, s.run B c size (encodeBlock cod) env ps = some (answers, s') ∧
      SpecRun c.blockSize size st ps answers n st' ∧ Rel c cod size s' st' ∧ s'.recorded = s.recorded + n := by
  induction ps generalizing s st with
  | nil => exact ⟨[], s, st, 0, rfl, .nil, h, rfl⟩
  | cons p ps ih =>
    obtain ⟨a, s1, st1, h1, h2, h3, h4⟩ := patch_refines hB hpB hk hb hp hs ha p.recordOk h p.off p.chunks
    obtain ⟨as_, s2, st2, n, r1, r2, r3, r4⟩ := ih h3
    refine ⟨a :: as_, s2, st2, _, by simp [Sess.run, h1, r1], .cons h2 r2, r3, ?_⟩
    rcases h4 with h4 | h4
    · rw [r4, h4]; simp
    · rw [r4, h4]; simp; omega

/-- **C40**: every history of requests behaves as the specification says, for every block size that is a
multiple of 4096 per shard, every chunking and every failure pattern in which the parallel requests of a
group are performed by all servers or by none and errors are not lost by the wait.  Missing for the full
property: partly performed groups (`C40_shards_diverge`), other block sizes (`C40_padding_overstates`), and
the size acknowledged by 206 (`C40_ack_overstates`). -/
theorem C40_refines_partial {B : Nat} (hB : 0 < B) (hpB : pageSize ∣ B) (c : RsConfig)
    (cod : Code c.dataShards c.parityShards) (hk : 0 < c.dataShards) (hb : 0 < c.blockPerShard)
    (hp : pageSize ∣ c.blockPerShard) (size : Nat) (env : Env) (hs : ∀ k, env.sees k = true) (ha : Atomic env)
    (ps : List Patch) :
    ∃ answers s' st' n, (Sess.start c).run B c size (encodeBlock cod) env ps = some (answers, s') ∧
      SpecRun c.blockSize size (.opened []) ps answers n st' ∧ s'.recorded = n ∧
      -- what is kept, and what HEAD reports
      (∀ d, st' = .opened d → Stored cod c.blockSize d s'.srvs ∧ s'.currentSize B c size = some d.length) ∧
      (∀ x, st' = .closed (some x) → Committed cod c.blockSize x s'.srvs ∧ x.length = size) := by
  obtain ⟨as_, s', st', n, h1, h2, h3, h4⟩ := run_refines hB hpB hk hb hp hs ha ps (rel_start c cod size)
  refine ⟨as_, s', st', n, h1, h2, by rw [h4]; simp [Sess.start], ?_, ?_⟩
  · rintro d rfl
    exact ⟨h3.2.2.2, currentSize_eq hB hpB hk hb hp h3⟩
  · rintro x rfl
    exact ⟨h3.2.2, h3.2.1⟩

/-- States a client that sends parts of `X` can reach. -/
def Honest (X : Bytes) : SpecSt → Prop
  | .opened d => d <+: X
  | .closed (some x) => x = X
  | .closed none => True
  | .over => False

theorem prefix_append_take {X d b : Bytes} (hd : d <+: X) (hb : b <+: X.drop d.length) (n : Nat) :
    d ++ b.take n <+: X := by
  obtain ⟨t, rfl⟩ := hd
  rw [List.drop_left] at hb
  exact (List.prefix_append_right_inj d).2 ((List.take_prefix n b).trans hb)

theorem honest_step {bs : Nat} {X : Bytes} {st st' : SpecSt} {off : Nat} {b : Bytes} {a : Answer} {r : Bool}
    (hx : Honest X st) (hb : b <+: X.drop off) (h : SpecStep bs X.length st off b a r st') :
    Honest X st' ∧ a ≠ .exceeded ∧ (a = .done → st' = .closed (some X)) ∧
      (∀ x, st = .closed (some x) → st' = st) ∧ (r = true → b.length + off = X.length) := by
  have hlen : ∀ d : Bytes, d <+: X → b <+: X.drop d.length → d.length + b.length ≤ X.length := by
    intro d h1 h2
    have h1 := h1.length_le
    have h2 := h2.length_le
    rw [List.length_drop] at h2
    omega
  have hall : ∀ d : Bytes, d <+: X → b <+: X.drop d.length → d.length + b.length = X.length → d ++ b = X := by
    intro d h1 h2 h3
    have := prefix_append_take h1 h2 b.length
    rw [List.take_length] at this
    exact this.eq_of_length (by rw [List.length_append]; exact h3)
  cases h with
  | mismatch _ => exact ⟨hx, by simp, by simp, by simp, by simp⟩
  | accepted _ => exact ⟨prefix_append_take hx hb _, by simp, by simp, by simp, by simp⟩
  | failed j _ _ => exact ⟨prefix_append_take hx hb _, by simp, by simp, by simp, by simp⟩
  | failedOver h => have := hlen _ hx hb; omega
  | exceeded h => have := hlen _ hx hb; omega
  | done h => exact ⟨hall _ hx hb h, by simp, fun _ => by rw [hall _ hx hb h], by simp, fun _ => by omega⟩
  | uncommitted n h _ => exact ⟨prefix_append_take hx hb _, by simp, by simp, by simp, fun _ => by omega⟩
  | unheard h => exact ⟨hall _ hx hb h, by simp, by simp, by simp, fun _ => by omega⟩
  | refused n h _ => exact ⟨prefix_append_take hx hb _, by simp, by simp, by simp, by simp⟩
  | deleted h => exact ⟨trivial, by simp, by simp, by simp, by simp⟩
  | gone => exact ⟨hx, by simp, by simp, fun _ _ => rfl, by simp⟩
  | over => exact absurd hx id

theorem honest_run {bs : Nat} {X : Bytes} {st st' : SpecSt} {ps : List Patch} {as_ : List Answer} {n : Nat}
    (h : SpecRun bs X.length st ps as_ n st') (hx : Honest X st) (hb : ∀ p ∈ ps, p.body <+: X.drop p.off) :
    Honest X st' ∧ .exceeded ∉ as_ ∧ (.done ∈ as_ → st' = .closed (some X)) ∧
      (∀ x, st = .closed (some x) → st' = st) := by
  induction h with
  | nil => exact ⟨hx, by simp, by simp, fun _ _ => rfl⟩
  | @cons st p ps a r st1 as_ n st2 h1 h2 ih =>
    obtain ⟨a1, a2, a3, a4, _⟩ := honest_step hx (hb p (by simp)) h1
    obtain ⟨b1, b2, b3, b4⟩ := ih a1 (fun q hq => hb q (by simp [hq]))
    refine ⟨b1, ?_, ?_, ?_⟩
    · intro h
      rcases List.mem_cons.1 h with h | h
      · exact a2 h.symm
      · exact b2 h
    · intro h
      rcases List.mem_cons.1 h with h | h
      · have e := a3 h.symm
        rw [b4 X e, e]
      · exact b3 h
    · intro x hxx
      have e := a4 x hxx
      rw [b4 x (by rw [e]; exact hxx), e]

/-- **C40** for a client that uploads the object `X`: whatever requests it makes, at any offsets, with any
parts of `X` (also cut off), repeated as often as it likes, the kept bytes are always a prefix of `X` of
exactly the reported size, it is never told that it sent too much, and the answer that completes the upload
means that the shards of `X` are committed. -/
theorem C40_client_partial {B : Nat} (hB : 0 < B) (hpB : pageSize ∣ B) (c : RsConfig)
    (cod : Code c.dataShards c.parityShards) (hk : 0 < c.dataShards) (hb : 0 < c.blockPerShard)
    (hp : pageSize ∣ c.blockPerShard) (env : Env) (hs : ∀ k, env.sees k = true) (ha : Atomic env)
    (X : Bytes) (ps : List Patch) (hps : ∀ p ∈ ps, p.body <+: X.drop p.off) :
    ∃ answers s', (Sess.start c).run B c X.length (encodeBlock cod) env ps = some (answers, s') ∧
      .exceeded ∉ answers ∧
      (.done ∈ answers → Committed cod c.blockSize X s'.srvs) ∧
      (∀ n, s'.currentSize B c X.length = some n → Stored cod c.blockSize (X.take n) s'.srvs ∧ n ≤ X.length) ∧
      (s'.currentSize B c X.length = none → Committed cod c.blockSize X s'.srvs ∨ ∀ t ∈ s'.srvs, t.final = none) := by
  obtain ⟨as_, s', st', n, h1, h2, h3, h4⟩ := run_refines hB hpB hk hb hp hs ha ps (rel_start c cod X.length)
  obtain ⟨a1, a2, a3, _⟩ := honest_run h2 (List.nil_prefix) hps
  refine ⟨as_, s', h1, a2, ?_, ?_, ?_⟩
  · intro h
    have e := a3 h
    subst e
    exact h3.2.2
  · intro n hn
    cases st' with
    | opened d =>
      rw [currentSize_eq hB hpB hk hb hp h3] at hn
      cases hn
      have hd : d <+: X := a1
      rw [← List.prefix_iff_eq_take.1 hd]
      exact ⟨h3.2.2.2, hd.length_le⟩
    | closed x =>
      have hg : s'.gone = true := by
        cases x with
        | none => exact h3.1
        | some x => exact h3.1
      simp [Sess.currentSize, hg] at hn
    | over => exact absurd a1 id
  · intro hn
    cases st' with
    | opened d =>
      rw [currentSize_eq hB hpB hk hb hp h3] at hn
      cases hn
    | closed x =>
      cases x with
      | none => exact Or.inr h3.2
      | some x =>
        left
        have : x = X := a1
        rw [← this]
        exact h3.2.2
    | over => exact absurd a1 id

/-- Whether an upload of too many bytes is gone depends on the first server, which is asked for its size: here only
this one, or only the others, remove their temporary files. -/
example : let u : Up := ⟨[], [⟨[], none⟩, ⟨[], none⟩, ⟨[], none⟩], 0⟩
    (u.abort (fun _ => []) ⟨fun _ i => if i = 0 then .ok else .failed false, fun _ => true⟩).2 = true ∧
    (u.abort (fun _ => []) ⟨fun _ i => if i = 0 then .failed false else .ok, fun _ => true⟩).2 = false := by
  decide

/-- A client that resends a part after a failure, in a configuration with the defaults of the service. -/
example : pageSize ∣ (⟨4, 2, 16384⟩ : RsConfig).blockPerShard ∧
    (∀ p ∈ [(⟨0, [[1, 2], [3]], true⟩ : Patch), ⟨3, [[4]], true⟩, ⟨0, [[1, 2, 3, 4], [5]], true⟩],
      p.body <+: [1, 2, 3, 4, 5].drop p.off) ∧
    (∀ k i, ((⟨fun k _ => if k = 1 then .failed true else .ok, fun _ => true⟩ : Env).resp k i).performed = true) := by
  refine ⟨by decide, by decide, fun k i => ?_⟩
  simp only
  split <;> rfl

theorem flush_allok {enc : Bytes → List Bytes} {env : Env} (ho : ∀ k i, env.resp k i = .ok) (u : Up) :
    (u.flush enc env).1 = true := by
  unfold Up.flush
  split
  · rfl
  · simp [Up.group, ho]

theorem writeLoop_allok {bs : Nat} {enc : Bytes → List Bytes} {env : Env} (ho : ∀ k i, env.resp k i = .ok)
    (fuel : Nat) (u : Up) (bt : Bytes) (ok : Bool) (u' : Up)
    (h : Up.writeLoop bs enc env fuel u bt = some (ok, u')) : ok = true := by
  induction fuel generalizing u bt with
  | zero =>
    cases bt with
    | nil => simp [Up.writeLoop] at h; exact h.1
    | cons _ _ => simp [Up.writeLoop] at h
  | succ fuel ih =>
    cases bt with
    | nil => simp [Up.writeLoop] at h; exact h.1
    | cons x xs =>
      rw [Up.writeLoop] at h
      · split at h
        · cases h
        · split at h
          · exact ih _ _ h
          · rename_i hp
            have : ∀ v bt, (Up.push bs enc env v bt).1 = true := by
              intro v bt
              unfold Up.push
              simp only
              split
              · exact flush_allok ho _
              · rfl
            have := this u (List.take (min (bs - u.cache.length) (x :: xs).length) (x :: xs))
            rw [hp] at this
            cases this
      · intro hh; cases hh

theorem body_allok {bs : Nat} {enc : Bytes → List Bytes} {env : Env} (ho : ∀ k i, env.resp k i = .ok)
    (chunks : List Bytes) (u : Up) (ok : Bool) (u' : Up) (h : Up.body bs enc env u chunks = some (ok, u')) :
    ok = true := by
  induction chunks generalizing u with
  | nil => simp [Up.body] at h; exact h.1
  | cons bt rest ih =>
    rw [Up.body] at h
    split at h
    · cases h
    · exact ih _ h
    · rename_i hw
      exact absurd (writeLoop_allok ho _ _ _ _ _ hw) (by simp)

/-- **C40**, completion: when the servers answer, a request is answered as completed exactly when it starts
at the reported size and brings exactly the missing number of bytes. -/
theorem C40_completes_iff {B : Nat} (hB : 0 < B) (hpB : pageSize ∣ B) (c : RsConfig)
    (cod : Code c.dataShards c.parityShards) (hk : 0 < c.dataShards) (hb : 0 < c.blockPerShard)
    (hp : pageSize ∣ c.blockPerShard) (size : Nat) (env : Env) (hs : ∀ k, env.sees k = true)
    (ho : ∀ k i, env.resp k i = .ok) (s : Sess) (d : Bytes) (h : Rel c cod size s (.opened d)) (off : Nat)
    (chunks : List Bytes) :
    ∃ a s', s.patch B c size (encodeBlock cod) env true off chunks = some (a, s') ∧
      (a = .done ↔ s.currentSize B c size = some off ∧ off + chunks.flatten.length = size) ∧
      (a = .done → Committed cod c.blockSize (d ++ chunks.flatten) s'.srvs) := by
  have ha : Atomic env := fun k => Or.inl fun i => by rw [ho]; rfl
  obtain ⟨a, s', st', h1, h2, h3, _⟩ := patch_refines hB hpB hk hb hp hs ha true h off chunks
  have hcur := currentSize_eq hB hpB hk hb hp h
  generalize decide (s'.recorded = s.recorded + 1) = r at h2
  refine ⟨a, s', h1, ⟨fun hd => ?_, fun hd => ?_⟩, fun hd => ?_⟩
  · subst hd
    cases h2 with
    | done heq => exact ⟨hcur, heq⟩
  · rw [hcur] at hd
    obtain ⟨e1, e2⟩ := hd
    cases e1
    unfold Sess.patch at h1
    rw [hcur] at h1
    simp only [ne_eq, not_true, if_false] at h1
    split at h1
    · cases h1
    · rename_i hw
      exact absurd (body_allok ho _ _ _ _ hw) (by simp)
    · rename_i u hw
      simp only [Option.some.injEq] at h1
      unfold Sess.conclude at h1
      rw [if_neg (by omega), if_neg (by omega), if_pos rfl] at h1
      simp only [Prod.mk.injEq] at h1
      rw [← h1.1]
      have : (u.commit (encodeBlock cod) env).1 = true := by
        unfold Up.commit
        simp [flush_allok ho, Up.group, ho]
      rw [this]; rfl
  · subst hd
    cases h2 with
    | done heq => exact h3.2.2

example : Rel ⟨2, 1, 4096⟩ xorCode 5 (.start ⟨2, 1, 4096⟩) (.opened []) := rel_start _ _ _

/-- **C40**, the size acknowledged by 206 is the reported size after parts of whole blocks (`Min-Part-Size`,
big_api.go:111): the next request may start there. -/
theorem C40_ack_partial {B : Nat} (hB : 0 < B) (hpB : pageSize ∣ B) (c : RsConfig)
    (cod : Code c.dataShards c.parityShards) (hk : 0 < c.dataShards) (hb : 0 < c.blockPerShard)
    (hp : pageSize ∣ c.blockPerShard) (size : Nat) (env : Env) (hs : ∀ k, env.sees k = true) (ha : Atomic env)
    (recordOk : Bool) (s : Sess) (d : Bytes) (h : Rel c cod size s (.opened d)) (off : Nat) (chunks : List Bytes)
    (hd : c.blockSize ∣ chunks.flatten.length) (n : Nat) (s' : Sess)
    (hr : s.patch B c size (encodeBlock cod) env recordOk off chunks = some (.accepted n, s')) :
    s'.currentSize B c size = some n ∧ n = d.length + chunks.flatten.length := by
  obtain ⟨a, s1, st', h1, h2, h3, _⟩ := patch_refines hB hpB hk hb hp hs ha recordOk h off chunks
  rw [hr] at h1
  cases h1
  generalize hrr : decide (s'.recorded = s.recorded + 1) = r at h2
  cases h2 with
  | accepted hlt =>
    rw [currentSize_eq hB hpB hk hb hp h3]
    rw [Nat.div_mul_cancel hd, List.take_length, List.length_append]
    exact ⟨rfl, rfl⟩

/-- The full statement: what 206 acknowledges is kept. -/
def AckKept (B : Nat) (c : RsConfig) (cod : Code c.dataShards c.parityShards) (size : Nat) : Prop :=
  ∀ off chunks n s', (Sess.start c).patch B c size (encodeBlock cod) okEnv true off chunks = some (.accepted n, s') →
    s'.currentSize B c size = some n

/-- **C40 fails**: a part that is not a multiple of the block size is acknowledged in full although the rest
of it is dropped; with the service's defaults a client that sends 3 of 5 bytes is told 3, but nothing was
kept, and its next request at offset 3 is refused. -/
theorem C40_ack_overstates (cod : Code 4 2) : ¬ AckKept 32768 ⟨4, 2, 16384⟩ cod 5 ∧
    ((Sess.start ⟨4, 2, 16384⟩).run 32768 ⟨4, 2, 16384⟩ 5 (encodeBlock cod) okEnv
      [⟨0, [[1, 2, 3]], true⟩, ⟨3, [[4, 5]], true⟩]).map (·.1) = some [.accepted 3, .mismatch 0] := by
  constructor
  · intro h
    have := h 0 [[1, 2, 3]] 3 ⟨List.replicate 6 ⟨[], none⟩, 0, false, 0⟩ rfl
    revert this
    decide
  · rfl

/-- Server 0 does not get the first request, the others perform it. -/
def splitEnv : Env := ⟨fun k i => if k = 0 then .failed (i != 0) else .ok, fun _ => true⟩

/-- **C40 fails** when a group of requests is performed by some servers only: HEAD asks server 0, which does
not have the block, the client resends it as it is told to, and the other servers then have the block
twice; the upload completes.  For every code and every two blocks. -/
theorem C40_shards_diverge (B : Nat) (c : RsConfig) (cod : Code c.dataShards c.parityShards)
    (hk : 1 < c.dataShards) (hb : 0 < c.blockPerShard) (b₁ b₂ : Bytes) (h₁ : b₁.length = c.blockSize)
    (h₂ : b₂.length = c.blockSize) :
    ∃ s', (Sess.start c).run B c (c.blockSize + c.blockSize) (encodeBlock cod) splitEnv
        [⟨0, [b₁, b₂], true⟩, ⟨0, [b₁, b₂], true⟩] = some ([.failed, .done], s') ∧
      (s'.srvs[1]?).bind (·.final) = some [(encodeBlock cod b₁).getD 1 [], (encodeBlock cod b₁).getD 1 [],
        (encodeBlock cod b₂).getD 1 []] := by
  have hbs : 0 < c.blockSize := Nat.mul_pos hb (by omega)
  have one : ∀ (env : Env) (b : Bytes) (u : Up), b.length = c.blockSize → u.cache = [] →
      Up.writeLoop c.blockSize (encodeBlock cod) env b.length u b =
        some ((Up.flush (encodeBlock cod) env ⟨b, u.srvs, u.k⟩)) := by
    intro env b u hl hu
    cases hbb : b with
    | nil => subst hbb; simp at hl; omega
    | cons x xs =>
      rw [← hbb]
      obtain ⟨f, hf⟩ : ∃ f, b.length = f + 1 := ⟨xs.length, by rw [hbb]; rfl⟩
      rw [hf]
      have : Up.writeLoop c.blockSize (encodeBlock cod) env (f + 1) u b =
          (let next := min (c.blockSize - u.cache.length) b.length
          if next = 0 then none
          else
            match u.push c.blockSize (encodeBlock cod) env (b.take next) with
            | (true, u') => Up.writeLoop c.blockSize (encodeBlock cod) env f u' (b.drop next)
            | (false, u') => some (false, u')) := by
        subst hbb
        rfl
      rw [this]
      have hnext : min (c.blockSize - u.cache.length) b.length = b.length := by
        rw [hu, hl]; simp
      simp only [hnext]
      rw [if_neg (by omega), List.take_length]
      have hp : u.push c.blockSize (encodeBlock cod) env b = Up.flush (encodeBlock cod) env ⟨b, u.srvs, u.k⟩ := by
        simp only [Up.push, hu, List.nil_append]
        rw [if_pos (by omega)]
      rw [hp]
      cases hfl : Up.flush (encodeBlock cod) env ⟨b, u.srvs, u.k⟩ with
      | mk ok u' =>
        cases ok with
        | true => simp [List.drop_length, Up.writeLoop]
        | false => rfl
  have one' : ∀ (env : Env) (b : Bytes), b.length = c.blockSize → ∀ (srvs : List Srv) (k : Nat),
      Up.writeLoop c.blockSize (encodeBlock cod) env b.length ⟨[], srvs, k⟩ b =
        some (Up.flush (encodeBlock cod) env ⟨b, srvs, k⟩) := fun env b hl srvs k => one env b ⟨[], srvs, k⟩ hl rfl
  have hne₁ : b₁ ≠ [] := by intro h; rw [h] at h₁; simp at h₁; omega
  have hne₂ : b₂ ≠ [] := by intro h; rw [h] at h₂; simp at h₂; omega
  obtain ⟨n, hn⟩ : ∃ n, c.allShards = n + 2 := ⟨c.dataShards + c.parityShards - 2, by
    simp only [RsConfig.allShards]; omega⟩
  have hfl : ∀ (b : Bytes) (srvs : List Srv) (k : Nat), b ≠ [] → Up.flush (encodeBlock cod) splitEnv ⟨b, srvs, k + 1⟩ =
      (true, ⟨[], srvs.mapIdx fun i s => { s with temp := s.temp ++ [(encodeBlock cod b).getD i []] }, k + 2⟩) := by
    intro b srvs k hne
    simp [Up.flush, hne, Up.group, splitEnv, Srv.patch, Resp.performed]
  have hfl0 : ∀ (b : Bytes) (s0 : Srv) (srvs : List Srv), b ≠ [] →
      Up.flush (encodeBlock cod) splitEnv ⟨b, s0 :: srvs, 0⟩ =
      (false, ⟨[], s0 :: srvs.mapIdx fun i s => { s with temp := s.temp ++ [(encodeBlock cod b).getD (i + 1) []] }, 1⟩) := by
    intro b s0 srvs hne
    simp [Up.flush, hne, Up.group, splitEnv, Srv.patch, Resp.performed, List.mapIdx_cons]
    exact ⟨0, by omega⟩
  have hst : Sess.start c = ⟨⟨[], none⟩ :: ⟨[], none⟩ :: List.replicate n ⟨[], none⟩, 0, false, 0⟩ := by
    simp [Sess.start, hn, List.replicate_succ]
  have hp0 : ∀ (srvs : List Srv) (k r : Nat), Sess.currentSize B c (c.blockSize + c.blockSize) ⟨⟨[], none⟩ :: srvs, k, false, r⟩ = some 0 := by
    intro srvs k r
    simp [Sess.currentSize, storePieces]
  have r1 : (Sess.start c).patch B c (c.blockSize + c.blockSize) (encodeBlock cod) splitEnv true 0 [b₁, b₂] =
      some (.failed, ⟨⟨[], none⟩ :: ⟨[(encodeBlock cod b₁).getD 1 []], none⟩ ::
        (List.replicate n (⟨[], none⟩ : Srv)).mapIdx fun i s => { s with temp := s.temp ++ [(encodeBlock cod b₁).getD (i + 2) []] },
        1, false, 0⟩) := by
    unfold Sess.patch
    rw [hst, hp0]
    simp only [ne_eq, not_true, if_false, Up.body, one' splitEnv b₁ h₁, hfl0 b₁ _ _ hne₁]
    simp [List.mapIdx_cons]
  have r2 : ∀ srvs : List Srv, ∃ s', Sess.patch B c (c.blockSize + c.blockSize) (encodeBlock cod) splitEnv true
      ⟨⟨[], none⟩ :: ⟨[(encodeBlock cod b₁).getD 1 []], none⟩ :: srvs, 1, false, 0⟩ 0 [b₁, b₂] = some (.done, s') ∧
      (s'.srvs[1]?).bind (·.final) = some [(encodeBlock cod b₁).getD 1 [], (encodeBlock cod b₁).getD 1 [],
        (encodeBlock cod b₂).getD 1 []] := by
    intro srvs
    unfold Sess.patch
    rw [hp0]
    simp only [ne_eq, not_true, if_false, Up.body, one' splitEnv b₁ h₁, hfl b₁ _ _ hne₁]
    rw [one' splitEnv b₂ h₂]
    simp only [hfl b₂ _ _ hne₂]
    have htot : 0 + [b₁, b₂].flatten.length = c.blockSize + c.blockSize := by simp [h₁, h₂]
    unfold Sess.conclude
    rw [htot, if_neg (by omega), if_neg (by omega), if_pos rfl]
    simp only [Up.commit, Up.flush, if_true, Up.group]
    refine ⟨_, congrArg some (Prod.ext (if_pos (by simp [splitEnv])) rfl), ?_⟩
    simp [splitEnv, Srv.put, Resp.performed, List.mapIdx_cons]
  obtain ⟨s', e1, e2⟩ := r2 ((List.replicate n (⟨[], none⟩ : Srv)).mapIdx fun i s =>
    { s with temp := s.temp ++ [(encodeBlock cod b₁).getD (i + 2) []] })
  exact ⟨s', by simp only [Sess.run, r1, e1]; rfl, e2⟩

/-- Blocks meeting the hypotheses. -/
example : (List.replicate 8192 1 : Bytes).length = (⟨2, 1, 4096⟩ : RsConfig).blockSize := by
  rw [List.length_replicate]; decide

/-- **C40 fails** for block sizes that are not a multiple of 4096 per shard: two data shards, blocks of one
byte per shard, three bytes announced.  After two bytes the padded file makes HEAD report all three, and an
empty request completes the upload without the third byte. -/
theorem C40_padding_overstates (B : Nat) (hB : 0 < B) (hpB : pageSize ∣ B) :
    ∃ s', (Sess.start ⟨2, 1, 1⟩).run B ⟨2, 1, 1⟩ 3 (encodeBlock xorCode) okEnv
        [⟨0, [[1, 2]], true⟩, ⟨3, [], true⟩] = some ([.accepted 2, .done], s') ∧
      s'.srvs.map (·.final) = [some [[1]], some [[2]], some [[3]]] := by
  have r1 : (Sess.start ⟨2, 1, 1⟩).patch B ⟨2, 1, 1⟩ 3 (encodeBlock xorCode) okEnv true 0 [[1, 2]] =
      some (.accepted 2, ⟨[⟨[[1]], none⟩, ⟨[[2]], none⟩, ⟨[[3]], none⟩], 1, false, 0⟩) := by rfl
  have hcur : Sess.currentSize B ⟨2, 1, 1⟩ 3 ⟨[⟨[[1]], none⟩, ⟨[[2]], none⟩, ⟨[[3]], none⟩], 1, false, 0⟩ = some 3 := by
    simp only [Sess.currentSize, Bool.false_eq_true, if_false]
    have : (storePieces B [[1]]).length = 4096 := by
      rw [storePieces_eq hB hpB]
      simp [padded_length, alignedSize, pageSize]
    rw [this]
    rfl
  have r2 : Sess.patch B ⟨2, 1, 1⟩ 3 (encodeBlock xorCode) okEnv true
      ⟨[⟨[[1]], none⟩, ⟨[[2]], none⟩, ⟨[[3]], none⟩], 1, false, 0⟩ 3 [] =
      some (.done, ⟨[⟨[[1]], some [[1]]⟩, ⟨[[2]], some [[2]]⟩, ⟨[[3]], some [[3]]⟩], 2, true, 1⟩) := by
    unfold Sess.patch
    rw [hcur]
    rfl
  exact ⟨_, by simp only [Sess.run, r1, r2]; rfl, rfl⟩

/-- **C39/C40 fail**: the version is recorded before the commit; when the commit fails it stays recorded
although no server has the object. -/
theorem C40_recorded_uncommitted (B : Nat) : (Sess.start ⟨2, 1, 1⟩).run B ⟨2, 1, 1⟩ 2 (encodeBlock xorCode)
    ⟨fun k _ => if k = 0 then .ok else .failed false, fun _ => true⟩ [⟨0, [[1, 2]], true⟩] =
    some ([.failed], ⟨[⟨[[1]], none⟩, ⟨[[2]], none⟩, ⟨[[3]], none⟩], 2, false, 1⟩) := by rfl

end Verif.Object
