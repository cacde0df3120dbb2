import Verif.Object.EndToEnd
import Verif.Conc.DoneGroup

/-!
# Uploads with failing servers: C38, C39

`Verif.Object.RS` describes what the encoder sends when nothing fails.  Here every request to a data server
has an outcome, and the result of a group of parallel requests is what `util.DoneGroup` makes of it
(`Verif.Conc.DoneGroup`).  One model serves both kinds of streams: `enc` turns a block into the pieces for
the servers, by erasure coding (`encodeBlock`) or by copying.
-/

namespace Verif.Object

/-! ## One shard: `PutStream` -/

/-- Requests a `PutStream` sends to its data server. -/
inductive Req
  | patch (b : Bytes)
  | put
  | del
  deriving DecidableEq

/-- Calls on a `PutStream`, split into their atomic parts. -/
inductive PutOp
  /-- the check at the start of `Write`, put_stream.go:43-45 -/
  | load
  /-- the request of `Write`, lines 46-49; possible after a check that passed -/
  | send (b : Bytes)
  /-- `Commit(ok)`, lines 53-67 -/
  | commit (ok : Bool)
  /-- `Close`, lines 37-40 -/
  | close
  deriving DecidableEq

/-- A `PutStream` (put_stream.go:12-19): the flag, the number of `Write`s past their check, and the
requests sent so far. -/
structure PutS where
  committed : Bool
  writing : Nat
  sent : List Req
  deriving DecidableEq

/-- put_stream.go:37-68.  `none`: the action is not possible. -/
def PutS.step (s : PutS) : PutOp → Option PutS
  | .load => if s.committed then some s else some { s with writing := s.writing + 1 }
  | .send b =>
    if 0 < s.writing then some { s with writing := s.writing - 1, sent := s.sent ++ [.patch b] } else none
  | .commit ok =>
    if s.committed then some s
    else some { s with committed := true, sent := s.sent ++ [if ok then .put else .del] }
  | .close => some { s with committed := true }

def PutS.run (s : PutS) : List PutOp → Option PutS
  | [] => some s
  | a :: l =>
    match s.step a with
    | none => none
    | some s' => s'.run l

/-- A request that ends the upload. -/
def Req.final : Req → Bool
  | .patch _ => false
  | _ => true

theorem puts_inv (l : List PutOp) (s s' : PutS)
    (h : s.sent.countP Req.final ≤ 1 ∧ (s.committed = false → s.sent.countP Req.final = 0))
    (hs : s.run l = some s') :
    s'.sent.countP Req.final ≤ 1 ∧ (s'.committed = false → s'.sent.countP Req.final = 0) := by
  induction l generalizing s with
  | nil => cases hs; exact h
  | cons a l ih =>
    simp only [PutS.run] at hs
    cases ha : s.step a with
    | none => simp [ha] at hs
    | some s1 =>
      rw [ha] at hs
      refine ih s1 ?_ hs
      cases a with
      | load => simp only [PutS.step] at ha; split at ha <;> cases ha <;> exact h
      | send b =>
        simp only [PutS.step] at ha
        split at ha <;> cases ha
        simpa [List.countP_append, Req.final] using h
      | close => simp only [PutS.step] at ha; cases ha; simpa using h.1
      | commit ok =>
        simp only [PutS.step] at ha
        split at ha <;> cases ha
        · exact h
        · rename_i hc
          have h0 := h.2 (by simpa using hc)
          cases ok <;> simp [List.countP_append, Req.final, h0]

/-- **C39**, last part: for every interleaving of any number of `Write`, `Commit` and `Close` calls at most
one commit or abort request is sent for a temp upload, and none before the first `Commit`. -/
theorem C39_commit_once (l : List PutOp) (s : PutS) (h : PutS.run ⟨false, 0, []⟩ l = some s) :
    s.sent.countP Req.final ≤ 1 ∧ (s.committed = false → ∀ r ∈ s.sent, r.final = false) := by
  have := puts_inv l ⟨false, 0, []⟩ s (by simp) h
  refine ⟨this.1, fun hc => ?_⟩
  have h0 := this.2 hc
  rw [List.countP_eq_zero] at h0
  intro r hr
  simpa using h0 r hr

example : PutS.run ⟨false, 0, []⟩ [.load, .send [1], .commit true, .commit true, .load, .close, .commit false] =
    some ⟨true, 0, [.patch [1], .put]⟩ := by decide

/-- Calls made one after another: each `Write` is a check directly followed by its request. -/
def sequential : List PutOp → Bool
  | [] => true
  | .load :: .send _ :: l => sequential l
  | .load :: l => sequential l
  | .send _ :: _ => false
  | .commit _ :: l => sequential l
  | .close :: l => sequential l

theorem no_patch_after (l : List PutOp) (hl : sequential l = true) (s s' : PutS) (hc : s.committed = true)
    (hw : s.writing = 0) (h : s.run l = some s') : s'.sent = s.sent := by
  induction l using sequential.induct generalizing s with
  | case1 => cases h; rfl
  | case2 b l ih =>
    simp [PutS.run, PutS.step, hc, hw] at h
  | case3 l _ ih =>
    simp only [PutS.run, PutS.step, hc, if_true] at h
    exact ih (by rw [sequential.eq_3] at hl <;> assumption) s hc hw h
  | case4 b l => simp [sequential] at hl
  | case5 ok l ih =>
    simp only [PutS.run, PutS.step, hc, if_true] at h
    exact ih (by simpa [sequential] using hl) s hc hw h
  | case6 l ih =>
    simp only [PutS.run, PutS.step] at h
    have := ih (by simpa [sequential] using hl) { s with committed := true } rfl hw h
    simpa using this

/-- For calls made one after another nothing is sent after the commit or abort request. -/
theorem C39_nothing_after_commit (l₁ l₂ : List PutOp) (ok : Bool) (hl : sequential l₂ = true) (s s' : PutS)
    (h : PutS.run ⟨false, 0, []⟩ l₁ = some s) (hw : s.writing = 0)
    (h' : s.run (.commit ok :: l₂) = some s') : (s.run [.commit ok]).map (·.sent) = some s'.sent := by
  simp only [PutS.run, PutS.step] at h' ⊢
  by_cases hc : s.committed = true
  · simp only [hc, if_true] at h' ⊢
    rw [no_patch_after l₂ hl s s' hc hw h']; rfl
  · simp only [hc, if_false, Bool.false_eq_true] at h' ⊢
    have := no_patch_after l₂ hl ⟨true, s.writing, s.sent ++ [if ok = true then Req.put else Req.del]⟩ s' rfl hw h'
    rw [this]; rfl

example : PutS.run ⟨false, 0, []⟩ [.load, .send [1]] = some ⟨false, 0, [.patch [1]]⟩ := by decide

/-- With a concurrent `Write` a piece can arrive after the commit (so the committed file misses it). -/
theorem C39_write_after_commit :
    PutS.run ⟨false, 0, []⟩ [.load, .commit true, .send [1]] = some ⟨true, 0, [.put, .patch [1]]⟩ := by decide

/-! ## All shards -/

/-- Outcome of a request: answered with success, or not; in the latter case the server may still have
performed it (a lost answer). -/
inductive Resp
  | ok
  | failed (performed : Bool)
  deriving DecidableEq

def Resp.performed : Resp → Bool
  | .ok => true
  | .failed p => p

/-- The part of a data server that concerns one shard of one upload: the pieces of the temp file, and the
pieces of the file stored under the final name.  (The bytes of a file are `storePieces` of its pieces.) -/
structure Srv where
  temp : List Bytes
  final : Option (List Bytes)
  deriving DecidableEq

/-- temp_rest.go:19-34, objects_service.go:230-237. -/
def Srv.patch (s : Srv) (p : Bytes) (r : Resp) : Srv :=
  if r.performed then { s with temp := s.temp ++ [p] } else s

/-- temp_rest.go:63-83, `CommitFile` objects_service.go:286-326 without compression: an existing file is
kept, otherwise the temp file is renamed. -/
def Srv.put (s : Srv) (r : Resp) : Srv :=
  if r.performed then { s with final := some (s.final.getD s.temp) } else s

/-- What the environment decides: the outcome of the request to server `i` in the `k`-th group of parallel
requests, and whether the wait for the group returns an error when one was reported.  By
`Conc.C54_outcomes` both are possible. -/
structure Env where
  resp : Nat → Nat → Resp
  sees : Nat → Bool

/-- State of an upload stream: rs_encoder.go:12-17, copy_put_stream.go:13-17. -/
structure Up where
  cache : Bytes
  srvs : List Srv
  k : Nat
  deriving DecidableEq

/-- A group of parallel requests, one per server: rs_encoder.go:71-111, rs_put_stream.go:53-67,
copy_put_stream.go:50-61, 99-112.  Simplified: parity shards are sent like the others although their
goroutine starts later; the order does not matter since each server gets one request.  The result is
`true` for a nil error. -/
def Up.group (env : Env) (f : Nat → Srv → Resp → Srv) (u : Up) : Bool × Up :=
  (!(((List.range u.srvs.length).any fun i => env.resp u.k i ≠ .ok) && env.sees u.k),
    ⟨u.cache, u.srvs.mapIdx fun i s => f i s (env.resp u.k i), u.k + 1⟩)

/-- `Flush`: rs_encoder.go:59-112, copy_put_stream.go:45-62. -/
def Up.flush (enc : Bytes → List Bytes) (env : Env) (u : Up) : Bool × Up :=
  if u.cache = [] then (true, u)
  else
    let r := u.group env fun i s => s.patch ((enc u.cache).getD i [])
    (r.1, { r.2 with cache := [] })

/-- One round of the loop of `Write`: rs_encoder.go:47-52, copy_put_stream.go:72-78. -/
def Up.push (bs : Nat) (enc : Bytes → List Bytes) (env : Env) (u : Up) (bt : Bytes) : Bool × Up :=
  let u1 : Up := ⟨u.cache ++ bt, u.srvs, u.k⟩
  if bs ≤ u1.cache.length then u1.flush enc env else (true, u1)

/-- `Write`: rs_encoder.go:39-57, copy_put_stream.go:64-83.  `none`: the loop never ends (block size 0). -/
def Up.writeLoop (bs : Nat) (enc : Bytes → List Bytes) (env : Env) : Nat → Up → Bytes → Option (Bool × Up)
  | _, u, [] => some (true, u)
  | 0, _, _ :: _ => none
  | fuel + 1, u, bt =>
    let next := min (bs - u.cache.length) bt.length
    if next = 0 then none
    else
      match u.push bs enc env (bt.take next) with
      | (true, u') => Up.writeLoop bs enc env fuel u' (bt.drop next)
      | (false, u') => some (false, u')

/-- The copy loop over the request body (`io.CopyBuffer`): stops at the first error. -/
def Up.body (bs : Nat) (enc : Bytes → List Bytes) (env : Env) (u : Up) : List Bytes → Option (Bool × Up)
  | [] => some (true, u)
  | bt :: rest =>
    match Up.writeLoop bs enc env bt.length u bt with
    | none => none
    | some (true, u') => Up.body bs enc env u' rest
    | some (false, u') => some (false, u')

/-- `Commit(true)`: rs_put_stream.go:48-68, copy_put_stream.go:95-113. -/
def Up.commit (enc : Bytes → List Bytes) (env : Env) (u : Up) : Bool × Up :=
  let r := u.flush enc env
  if r.1 then r.2.group env fun _ s => s.put else (false, r.2)

/-- `streamToDataServer`, object_service.go:196-232, after the stream was opened: `chunks` are the pieces in
which the request body arrives, `bodyOk` is false when reading it fails at the end; `announced` is the
digest of the request.  Result `some (true, _)` when the upload is reported as successful.  `Commit(false)`
only removes temp files, later and in the background, and is left out. -/
def streamTo (checksum : Bool) (sha : Bytes → Str) (announced : Str) (bs : Nat)
    (enc : Bytes → List Bytes) (env : Env) (chunks : List Bytes) (bodyOk : Bool) (u : Up) :
    Option (Bool × Up) :=
  match Up.body bs enc env u chunks with
  | none => none
  | some (w, u1) =>
    let good := w && bodyOk
    if checksum then
      -- crypto.SHA256IO returns "" on any error, crypto.go:13-20
      if (if good then sha chunks.flatten else []) ≠ announced then some (false, u1)
      else some (u1.commit enc env)
    else if good then some (u1.commit enc env)
    else some (false, u1)

/-- Invariant of a stream whose writes have all been reported as successful. -/
structure UpInv (bs : Nat) (enc : Bytes → List Bytes) (old : List (Option (List Bytes))) (blocks : List Bytes)
    (data : Bytes) (u : Up) : Prop where
  full : Full bs blocks
  data_ : data = blocks.flatten ++ u.cache
  temp : ∀ (i : Nat) (s : Srv), u.srvs[i]? = some s → s.temp = blocks.map fun b => (enc b).getD i []
  old_ : u.srvs.map (·.final) = old

theorem group_ok {env : Env} (hs : ∀ k, env.sees k = true) {u : Up} {f : Nat → Srv → Resp → Srv}
    (h : (u.group env f).1 = true) {i : Nat} (hi : i < u.srvs.length) : env.resp u.k i = .ok := by
  simp only [Up.group, hs, Bool.and_true, Bool.not_eq_true', List.any_eq_false, List.mem_range,
    decide_eq_true_eq, Decidable.not_not] at h
  exact h i hi

theorem group_srvs {env : Env} (hs : ∀ k, env.sees k = true) {u : Up} {f : Nat → Srv → Resp → Srv}
    (h : (u.group env f).1 = true) : (u.group env f).2.srvs = u.srvs.mapIdx fun i s => f i s .ok := by
  apply List.ext_getElem?
  intro i
  simp only [Up.group, List.getElem?_mapIdx]
  cases hx : u.srvs[i]? with
  | none => rfl
  | some s =>
    have hi : i < u.srvs.length := by
      rw [List.getElem?_eq_some_iff] at hx; exact hx.1
    rw [Option.map_some, group_ok hs h hi, Option.map_some]

theorem flush_inv {bs : Nat} {enc : Bytes → List Bytes} {old blocks data} {env : Env}
    (hs : ∀ k, env.sees k = true) {u : Up} (h : UpInv bs enc old blocks data u) (hr : (u.flush enc env).1 = true)
    (hne : u.cache ≠ []) :
    (u.flush enc env).2.cache = [] ∧
    (∀ (i : Nat) (s : Srv), (u.flush enc env).2.srvs[i]? = some s →
      s.temp = (blocks ++ [u.cache]).map fun b => (enc b).getD i []) ∧
    (u.flush enc env).2.srvs.map (·.final) = old := by
  simp only [Up.flush, hne, if_false] at hr ⊢
  refine ⟨trivial, ?_, ?_⟩
  · intro i s hi
    rw [group_srvs hs hr, List.getElem?_mapIdx] at hi
    cases hx : u.srvs[i]? with
    | none => simp [hx] at hi
    | some s0 =>
      simp only [hx, Option.map_some, Option.some.injEq] at hi
      subst hi
      simp [Srv.patch, Resp.performed, h.temp i s0 hx]
  · rw [group_srvs hs hr]
    rw [← h.old_]
    apply List.ext_getElem?
    intro i
    simp only [List.getElem?_map, List.getElem?_mapIdx, Option.map_map]
    congr 1

theorem writeLoop_up {bs : Nat} {enc : Bytes → List Bytes} {old} {env : Env} (hs : ∀ k, env.sees k = true)
    (fuel : Nat) (bt : Bytes) (u : Up) (blocks : List Bytes) (data : Bytes)
    (h : UpInv bs enc old blocks data u) (hc : u.cache.length < bs) (u' : Up)
    (hr : Up.writeLoop bs enc env fuel u bt = some (true, u')) :
    ∃ blocks', UpInv bs enc old blocks' (data ++ bt) u' ∧ u'.cache.length < bs := by
  induction fuel generalizing bt u blocks data with
  | zero =>
    cases bt with
    | nil => simp only [Up.writeLoop, Option.some.injEq, Prod.mk.injEq, true_and] at hr
             subst hr; exact ⟨blocks, by simpa using h, hc⟩
    | cons _ _ => simp [Up.writeLoop] at hr
  | succ fuel ih =>
    cases bt with
    | nil => simp only [Up.writeLoop, Option.some.injEq, Prod.mk.injEq, true_and] at hr
             subst hr; exact ⟨blocks, by simpa using h, hc⟩
    | cons x xs =>
      rw [Up.writeLoop] at hr
      · generalize hn : min (bs - u.cache.length) (x :: xs).length = next at hr
        have hpos : next ≠ 0 := by simp at hn; omega
        simp only [hpos, ↓reduceIte] at hr
        have hsplit : data ++ (x :: xs) = (data ++ (x :: xs).take next) ++ (x :: xs).drop next := by
          rw [List.append_assoc, List.take_append_drop]
        rw [hsplit]
        have htl : ((x :: xs).take next).length = next := by
          rw [List.length_take]; omega
        have hi1 : UpInv bs enc old blocks (data ++ (x :: xs).take next)
            ⟨u.cache ++ (x :: xs).take next, u.srvs, u.k⟩ :=
          ⟨h.full, by simp [h.data_], h.temp, h.old_⟩
        by_cases hfull : bs ≤ (u.cache ++ (x :: xs).take next).length
        · have hp : u.push bs enc env ((x :: xs).take next) =
              Up.flush enc env ⟨u.cache ++ (x :: xs).take next, u.srvs, u.k⟩ := by
            simp only [Up.push, if_pos hfull]
          rw [hp] at hr
          have hlen : (u.cache ++ (x :: xs).take next).length = bs := by
            rw [List.length_append, htl] at hfull ⊢; omega
          generalize hu1 : (⟨u.cache ++ (x :: xs).take next, u.srvs, u.k⟩ : Up) = u1 at hr hi1
          have hc1 : u1.cache = u.cache ++ (x :: xs).take next := by rw [← hu1]
          rw [← hc1] at hlen
          have hne : u1.cache ≠ [] := by intro he; rw [he] at hlen; simp at hlen; omega
          cases hf : u1.flush enc env with
          | mk b u2 =>
            rw [hf] at hr
            cases b with
            | false => simp at hr
            | true =>
              obtain ⟨f1, f2, f3⟩ := flush_inv hs hi1 (by rw [hf]) hne
              rw [hf] at f1 f2 f3
              refine ih _ _ (blocks ++ [u1.cache]) _ ⟨?_, ?_, f2, f3⟩ (by rw [f1]; simp; omega) hr
              · intro b hb
                rcases List.mem_append.1 hb with hb | hb
                · exact h.full b hb
                · rw [List.mem_singleton.1 hb]; exact hlen
              · rw [f1, hi1.data_]; simp
        · have hp : u.push bs enc env ((x :: xs).take next) =
              (true, ⟨u.cache ++ (x :: xs).take next, u.srvs, u.k⟩) := by
            simp only [Up.push, if_neg hfull]
          rw [hp] at hr
          exact ih _ _ blocks _ hi1 (by simp only; omega) hr
      · intro hh; cases hh

theorem body_up {bs : Nat} {enc : Bytes → List Bytes} {old} {env : Env} (hs : ∀ k, env.sees k = true)
    (chunks : List Bytes) (u : Up) (blocks : List Bytes) (data : Bytes)
    (h : UpInv bs enc old blocks data u) (hc : u.cache.length < bs) (u' : Up)
    (hr : Up.body bs enc env u chunks = some (true, u')) :
    ∃ blocks', UpInv bs enc old blocks' (data ++ chunks.flatten) u' ∧ u'.cache.length < bs := by
  induction chunks generalizing u blocks data with
  | nil => simp only [Up.body, Option.some.injEq, Prod.mk.injEq, true_and] at hr
           subst hr; exact ⟨blocks, by simpa using h, hc⟩
  | cons bt rest ih =>
    rw [Up.body] at hr
    cases hw : Up.writeLoop bs enc env bt.length u bt with
    | none => simp [hw] at hr
    | some r =>
      obtain ⟨b, u1⟩ := r
      cases b with
      | false => simp [hw] at hr
      | true =>
        simp only [hw] at hr
        obtain ⟨bl, i1, i2⟩ := writeLoop_up hs bt.length bt u blocks data h hc u1 hw
        obtain ⟨bl', j1, j2⟩ := ih u1 bl _ i1 i2 hr
        exact ⟨bl', by simpa using j1, j2⟩

theorem commit_up {bs : Nat} (hbs : 0 < bs) {enc : Bytes → List Bytes} {old} {env : Env}
    (hs : ∀ k, env.sees k = true) (u : Up) (blocks : List Bytes) (data : Bytes)
    (h : UpInv bs enc old blocks data u) (hc : u.cache.length < bs) (hr : (u.commit enc env).1 = true) :
    ∃ blocks', WF bs blocks' ∧ blocks'.flatten = data ∧
      ∀ (i : Nat) (s : Srv), (u.commit enc env).2.srvs[i]? = some s →
        ∃ o, old[i]? = some o ∧ s.final = some (o.getD (blocks'.map fun b => (enc b).getD i [])) := by
  have key : ∀ (bl : List Bytes) (v : Up), WF bs bl → bl.flatten = data →
      (∀ (i : Nat) (s : Srv), v.srvs[i]? = some s → s.temp = bl.map fun b => (enc b).getD i []) →
      v.srvs.map (·.final) = old → (v.group env fun _ s => s.put).1 = true →
      ∃ blocks', WF bs blocks' ∧ blocks'.flatten = data ∧
      ∀ (i : Nat) (s : Srv), (v.group env fun _ s => s.put).2.srvs[i]? = some s →
        ∃ o, old[i]? = some o ∧ s.final = some (o.getD (blocks'.map fun b => (enc b).getD i [])) := by
    intro bl v h1 h2 h3 h4 h5
    refine ⟨bl, h1, h2, fun i s hi => ?_⟩
    rw [group_srvs hs h5, List.getElem?_mapIdx] at hi
    cases hx : v.srvs[i]? with
    | none => simp [hx] at hi
    | some s0 =>
      simp only [hx, Option.map_some, Option.some.injEq] at hi
      subst hi
      refine ⟨s0.final, by rw [← h4, List.getElem?_map, hx]; rfl, ?_⟩
      simp [Srv.put, Resp.performed, h3 i s0 hx]
  unfold Up.commit at hr ⊢
  by_cases hf : (u.flush enc env).1 = true
  · simp only [hf, if_true] at hr ⊢
    by_cases hne : u.cache = []
    · have hfl : u.flush enc env = (true, u) := by simp [Up.flush, hne]
      rw [hfl] at hr ⊢
      exact key blocks u (wf_full hbs _ h.full) (by rw [h.data_, hne]; simp) h.temp h.old_ hr
    · obtain ⟨f1, f2, f3⟩ := flush_inv hs h hf hne
      exact key (blocks ++ [u.cache]) _ (wf_of_full hbs _ h.full _ (by omega) hne) (by rw [h.data_]; simp)
        f2 f3 hr
  · simp [hf] at hr

/-! ## C39 -/

/-- **C39**: an upload that is reported as successful had a readable body; with checksums enabled the body
has the announced digest; every server committed, and each file that did not exist before now has exactly
the pieces of the blocks of the body.  For every chunking of the body and every pattern of failures, when
waits return the errors reported to them.  Missing for the full property: waits that lose errors
(`C39_lost_error`), checksums disabled and files that existed before. -/
theorem C39_success_partial (checksum : Bool) (sha : Bytes → Str) (announced : Str) (ha : announced ≠ [])
    {bs : Nat} (hbs : 0 < bs) (enc : Bytes → List Bytes) (env : Env) (hs : ∀ k, env.sees k = true)
    (chunks : List Bytes) (bodyOk : Bool) (olds : List (Option (List Bytes))) (k : Nat) (u' : Up)
    (h : streamTo checksum sha announced bs enc env chunks bodyOk
      ⟨[], olds.map fun o => ⟨[], o⟩, k⟩ = some (true, u')) :
    bodyOk = true ∧ (checksum = true → sha chunks.flatten = announced) ∧
    ∃ blocks, WF bs blocks ∧ blocks.flatten = chunks.flatten ∧
      ∀ (i : Nat) (s : Srv), u'.srvs[i]? = some s →
        ∃ o, olds[i]? = some o ∧ s.final = some (o.getD (blocks.map fun b => (enc b).getD i [])) := by
  have h0 : UpInv bs enc olds [] [] ⟨[], olds.map fun o => ⟨[], o⟩, k⟩ := by
    refine ⟨by simp [Full], by simp, ?_, by simp [List.map_map, Function.comp_def]⟩
    intro i s hi
    rw [List.getElem?_map] at hi
    cases hx : olds[i]? with
    | none => simp [hx] at hi
    | some o => simp only [hx, Option.map_some, Option.some.injEq] at hi; subst hi; rfl
  unfold streamTo at h
  cases hb : Up.body bs enc env ⟨[], olds.map fun o => ⟨[], o⟩, k⟩ chunks with
  | none => simp [hb] at h
  | some r =>
    obtain ⟨w, u1⟩ := r
    simp only [hb] at h
    have hgood : (w && bodyOk) = true ∧ (checksum = true → sha chunks.flatten = announced) ∧
        u1.commit enc env = (true, u') := by
      cases hg : (w && bodyOk) <;> cases checksum <;> simp only [hg] at h <;> simp at h
      · rw [if_neg ha] at h; simp at h
      · exact ⟨rfl, by simp, h⟩
      · split at h
        · rename_i he
          exact ⟨rfl, fun _ => he, by simpa using h⟩
        · simp at h
    obtain ⟨g1, g2, g3⟩ := hgood
    simp only [Bool.and_eq_true] at g1
    obtain ⟨w1, g1⟩ := g1
    subst w1
    obtain ⟨bl, i1, i2⟩ := body_up hs chunks _ [] [] h0 (by simpa using hbs) u1 hb
    refine ⟨g1, g2, ?_⟩
    have hc := commit_up hbs hs u1 bl _ i1 i2 (by rw [g3])
    rw [g3] at hc
    simpa using hc

/-- A run meeting the hypotheses: two servers, erasure coding replaced by copying, a body in two chunks. -/
def okEnv : Env := ⟨fun _ _ => .ok, fun _ => true⟩

def copyEnc (n : Nat) (b : Bytes) : List Bytes := List.replicate n b

def sumSha (b : Bytes) : Str := 'x' :: (toString b).toList

example : streamTo true sumSha (sumSha [1, 2, 3, 4, 5]) 2 (copyEnc 2) okEnv [[1, 2, 3], [4, 5]] true
    ⟨[], [none, none].map fun o => ⟨[], o⟩, 0⟩ =
    some (true, ⟨[], [⟨[[1, 2], [3, 4], [5]], some [[1, 2], [3, 4], [5]]⟩,
      ⟨[[1, 2], [3, 4], [5]], some [[1, 2], [3, 4], [5]]⟩], 4⟩) := by rfl

theorem group_final {env : Env} {u : Up} (p : Nat → Bytes) :
    (u.group env fun i s => s.patch (p i)).2.srvs.map (·.final) = u.srvs.map (·.final) := by
  apply List.ext_getElem?
  intro i
  simp only [Up.group, List.getElem?_map, List.getElem?_mapIdx, Option.map_map]
  congr 1
  funext s
  simp only [Function.comp_apply, Srv.patch]
  split <;> rfl

theorem flush_final (enc : Bytes → List Bytes) (env : Env) (u : Up) :
    (u.flush enc env).2.srvs.map (·.final) = u.srvs.map (·.final) := by
  unfold Up.flush
  split
  · rfl
  · exact group_final _

theorem writeLoop_final (bs : Nat) (enc : Bytes → List Bytes) (env : Env) (fuel : Nat) (u : Up) (bt : Bytes)
    (b : Bool) (u' : Up) (h : Up.writeLoop bs enc env fuel u bt = some (b, u')) :
    u'.srvs.map (·.final) = u.srvs.map (·.final) := by
  induction fuel generalizing u bt with
  | zero =>
    cases bt with
    | nil => simp only [Up.writeLoop, Option.some.injEq, Prod.mk.injEq] at h; rw [h.2]
    | cons _ _ => simp [Up.writeLoop] at h
  | succ fuel ih =>
    cases bt with
    | nil => simp only [Up.writeLoop, Option.some.injEq, Prod.mk.injEq] at h; rw [h.2]
    | cons x xs =>
      rw [Up.writeLoop] at h
      · generalize min (bs - u.cache.length) (x :: xs).length = next at h
        split at h
        · cases h
        · have hp : (u.push bs enc env ((x :: xs).take next)).2.srvs.map (·.final) = u.srvs.map (·.final) := by
            unfold Up.push
            dsimp only
            split
            · exact flush_final _ _ _
            · rfl
          cases hf : u.push bs enc env ((x :: xs).take next) with
          | mk b1 u2 =>
            rw [hf] at h hp
            cases b1 with
            | true => exact (ih _ _ h).trans hp
            | false =>
              simp only [Option.some.injEq, Prod.mk.injEq] at h
              rw [← h.2]; exact hp
      · intro hh; cases hh

theorem body_final (bs : Nat) (enc : Bytes → List Bytes) (env : Env) (chunks : List Bytes) (u : Up)
    (b : Bool) (u' : Up) (h : Up.body bs enc env u chunks = some (b, u')) :
    u'.srvs.map (·.final) = u.srvs.map (·.final) := by
  induction chunks generalizing u with
  | nil => simp only [Up.body, Option.some.injEq, Prod.mk.injEq] at h; rw [h.2]
  | cons bt rest ih =>
    rw [Up.body] at h
    cases hw : Up.writeLoop bs enc env bt.length u bt with
    | none => simp [hw] at h
    | some r =>
      obtain ⟨b1, u1⟩ := r
      have h1 := writeLoop_final bs enc env bt.length u bt b1 u1 hw
      cases b1 with
      | false => simp only [hw, Option.some.injEq, Prod.mk.injEq] at h; rw [← h.2, h1]
      | true => simp only [hw] at h; rw [ih u1 h, h1]

/-- **C39**, rejection: with checksums enabled, content whose digest is not the announced one is rejected
and no file appears under a final name, whatever the servers answer and whichever errors are lost. -/
theorem C39_mismatch_rejected (sha : Bytes → Str) (announced : Str) (bs : Nat)
    (enc : Bytes → List Bytes) (env : Env) (chunks : List Bytes) (bodyOk : Bool) (u : Up) (ha : announced ≠ [])
    (hm : sha chunks.flatten ≠ announced) (r : Bool × Up)
    (h : streamTo true sha announced bs enc env chunks bodyOk u = some r) :
    r.1 = false ∧ r.2.srvs.map (·.final) = u.srvs.map (·.final) := by
  unfold streamTo at h
  cases hb : Up.body bs enc env u chunks with
  | none => simp [hb] at h
  | some p =>
    obtain ⟨w, u1⟩ := p
    simp only [hb, if_true] at h
    have hne : (if (w && bodyOk) = true then sha chunks.flatten else []) ≠ announced := by
      split
      · exact hm
      · exact ha.symm
    rw [if_pos hne] at h
    cases h
    exact ⟨rfl, body_final bs enc env chunks u w u1 hb⟩

example : streamTo true sumSha (sumSha [9]) 2 (copyEnc 2) okEnv [[1, 2, 3]] true
    ⟨[], [none, none].map fun o => ⟨[], o⟩, 0⟩ =
    some (false, ⟨[3], [⟨[[1, 2]], none⟩, ⟨[[1, 2]], none⟩], 1⟩) := by rfl

/-- A body that breaks off is rejected as well, with and without checksums. -/
theorem C39_broken_body_rejected (checksum : Bool) (sha : Bytes → Str) (announced : Str) (bs : Nat)
    (enc : Bytes → List Bytes) (env : Env) (chunks : List Bytes) (u : Up) (ha : announced ≠ []) (r : Bool × Up)
    (h : streamTo checksum sha announced bs enc env chunks false u = some r) :
    r.1 = false ∧ r.2.srvs.map (·.final) = u.srvs.map (·.final) := by
  unfold streamTo at h
  cases hb : Up.body bs enc env u chunks with
  | none => simp [hb] at h
  | some p =>
    obtain ⟨w, u1⟩ := p
    have hf := body_final bs enc env chunks u w u1 hb
    simp only [hb, Bool.and_false, Bool.false_eq_true, if_false] at h
    split at h
    · rw [if_pos ha.symm] at h; cases h; exact ⟨rfl, hf⟩
    · cases h; exact ⟨rfl, hf⟩

example : streamTo false sumSha ['d'] 2 (copyEnc 2) okEnv [[1, 2, 3]] false
    ⟨[], [none, none].map fun o => ⟨[], o⟩, 0⟩ =
    some (false, ⟨[3], [⟨[[1, 2]], none⟩, ⟨[[1, 2]], none⟩], 1⟩) := by rfl

/-- Why the digest must not be empty (the request validation requires one, dto.go:28): the digest of a
failed body is reported as the empty string. -/
theorem C39_empty_digest : streamTo true sumSha [] 2 (copyEnc 2) okEnv [[1, 2, 3]] false
    ⟨[], [none, none].map fun o => ⟨[], o⟩, 0⟩ =
    some (true, ⟨[], [⟨[[1, 2], [3]], some [[1, 2], [3]]⟩, ⟨[[1, 2], [3]], some [[1, 2], [3]]⟩], 3⟩) := by rfl

/-- Without checksums the announced digest is not looked at: any content is stored under any digest. -/
theorem C39_unchecked (sha : Bytes → Str) (announced announced' : Str) (bs : Nat)
    (enc : Bytes → List Bytes) (env : Env) (chunks : List Bytes) (bodyOk : Bool) (u : Up) :
    streamTo false sha announced bs enc env chunks bodyOk u =
    streamTo false sha announced' bs enc env chunks bodyOk u := rfl

/-- The full statement of the success half of C39 for new files. -/
def VerifiedAndCommitted : Prop :=
  ∀ (checksum : Bool) (sha : Bytes → Str) (announced : Str) (bs : Nat) (enc : Bytes → List Bytes) (env : Env)
    (chunks : List Bytes) (n : Nat) (u' : Up), announced ≠ [] → 0 < bs →
    streamTo checksum sha announced bs enc env chunks true ⟨[], List.replicate n ⟨[], none⟩, 0⟩ = some (true, u') →
    sha chunks.flatten = announced ∧
      ∀ (i : Nat) (s : Srv), u'.srvs[i]? = some s →
        ∃ blocks : List Bytes, blocks.flatten = chunks.flatten ∧ s.final = some (blocks.map fun b => (enc b).getD i [])

/-- An environment in which server 1 refuses the commit and the wait loses the error. -/
def lossyEnv : Env := ⟨fun k i => if k = 2 ∧ i = 1 then .failed false else .ok, fun _ => false⟩

/-- **C39 fails**: a commit that failed is reported as success when the wait loses the error
(`Conc.C54_error_lost`); the version is then recorded although a shard was never committed. -/
theorem C39_lost_error : streamTo true sumSha (sumSha [1, 2, 3]) 2 (copyEnc 2) lossyEnv [[1, 2, 3]] true
    ⟨[], List.replicate 2 ⟨[], none⟩, 0⟩ =
    some (true, ⟨[], [⟨[[1, 2], [3]], some [[1, 2], [3]]⟩, ⟨[[1, 2], [3]], none⟩], 3⟩) := by rfl

theorem C39_statement_fails : ¬ VerifiedAndCommitted := by
  intro h
  have h1 := (h true sumSha (sumSha [1, 2, 3]) 2 (copyEnc 2) lossyEnv [[1, 2, 3]] 2 _ (by simp [sumSha]) (by decide)
    C39_lost_error).2 1 ⟨[[1, 2], [3]], none⟩ rfl
  obtain ⟨_, _, h2⟩ := h1
  cases h2

/-! ## C38: replicated objects -/

/-- `Replication.BlockSize` after `initialize`, config.go:41-44. -/
def initBlockSize (b : Nat) : Nat := if 0 < b % 65536 then b - b % 65536 + 65536 else b

theorem C38_block_size (b : Nat) (hb : 0 < b) :
    0 < initBlockSize b ∧ pageSize ∣ initBlockSize b ∧ b ≤ initBlockSize b := by
  unfold initBlockSize
  have h : (65536 : Nat) ∣ b - b % 65536 := Nat.dvd_sub_mod b
  have hp : pageSize ∣ 65536 := ⟨16, rfl⟩
  split
  · refine ⟨by omega, ?_, ?_⟩
    · exact Nat.dvd_add (Nat.dvd_trans hp h) hp
    · have := Nat.mod_lt b (y := 65536) (by decide); omega
  · rename_i hz
    exact ⟨hb, Nat.dvd_trans hp (Nat.dvd_of_mod_eq_zero (by omega)), Nat.le_refl _⟩

example : initBlockSize 32768 = 65536 := by decide

theorem copy_aligned {bs n i : Nat} (hi : i < n) (hd : pageSize ∣ bs) (blocks : List Bytes) (h : WF bs blocks) :
    AlignedPieces (blocks.map fun b => (copyEnc n b).getD i []) := by
  have hid : (blocks.map fun b => (copyEnc n b).getD i []) = blocks := by
    conv => rhs; rw [← List.map_id blocks]
    apply List.map_congr_left
    intro b _
    simp [copyEnc, List.getD_eq_getElem?_getD, hi]
  rw [hid]
  induction blocks with
  | nil => trivial
  | cons b bs ih =>
    obtain ⟨_, _, h3, h4⟩ := h
    cases bs with
    | nil => trivial
    | cons b' bs =>
      refine ⟨?_, ih h4 ?_⟩
      · rw [h3 (by simp)]; exact hd
      · simp [copyEnc, hi]

/-- The bytes a data server delivers for a request of the whole object. -/
def Srv.content (B lost size : Nat) (s : Srv) : Option Bytes :=
  match s.final with
  | none => none
  | some ps => getFile lost (storePieces B ps) 0 size

/-- **C38**: a replicated upload of new files that is reported as successful left the same complete content
on every copy server: each of them alone delivers exactly the body.  The block size is the one `initialize`
produces.  Missing for the full property: waits that lose errors (`C38_lost_error`). -/
theorem C38_every_copy_partial (checksum : Bool) (sha : Bytes → Str) (announced : Str) (ha : announced ≠ [])
    (b : Nat) (hb : 0 < b) (n : Nat) (env : Env) (hs : ∀ k, env.sees k = true) (chunks : List Bytes)
    (hne : chunks.flatten ≠ []) (bodyOk : Bool) (u' : Up)
    (h : streamTo checksum sha announced (initBlockSize b) (copyEnc n) env chunks bodyOk
      ⟨[], List.replicate n ⟨[], none⟩, 0⟩ = some (true, u'))
    {B : Nat} (hB : 0 < B) (hpB : pageSize ∣ B) (lost : Nat) (hl : lost < pageSize)
    (s : Srv) (hmem : s ∈ u'.srvs) :
    s.content B lost chunks.flatten.length = some chunks.flatten := by
  obtain ⟨c1, c2, _⟩ := C38_block_size b hb
  have hrep : List.replicate n (⟨[], none⟩ : Srv) = (List.replicate n none).map fun o => ⟨[], o⟩ := by simp
  rw [hrep] at h
  obtain ⟨_, _, blocks, w1, w2, w3⟩ := C39_success_partial checksum sha announced ha c1 (copyEnc n) env hs
    chunks bodyOk _ 0 u' h
  obtain ⟨i, hi⟩ := List.mem_iff_getElem?.1 hmem
  obtain ⟨o, ho, hf⟩ := w3 i s hi
  rw [List.getElem?_replicate] at ho
  split at ho
  · rename_i hin
    simp only [Option.some.injEq] at ho
    subst ho
    simp only [Srv.content, hf, Option.getD_none]
    have hid : (blocks.map fun b => (copyEnc n b).getD i []).flatten = chunks.flatten := by
      rw [← w2]
      congr 1
      conv => rhs; rw [← List.map_id blocks]
      apply List.map_congr_left
      intro b _
      simp [copyEnc, List.getD_eq_getElem?_getD, hin]
    have := C48_store_partial hB hpB hl _ (copy_aligned hin c2 blocks w1) (by rw [hid]; exact hne)
    rw [hid] at this
    exact this
  · cases ho

/-- A run meeting the hypotheses, with a failing server that makes the upload fail, and one without. -/
example : (streamTo true sumSha (sumSha [1, 2, 3]) (initBlockSize 32768) (copyEnc 3) okEnv [[1], [2, 3]] true
    ⟨[], List.replicate 3 ⟨[], none⟩, 0⟩).map (·.1) = some true ∧
    (streamTo true sumSha (sumSha [1, 2, 3]) (initBlockSize 32768) (copyEnc 3)
      ⟨fun _ i => if i = 2 then .failed false else .ok, fun _ => true⟩ [[1], [2, 3]] true
      ⟨[], List.replicate 3 ⟨[], none⟩, 0⟩).map (·.1) = some false := by decide

/-- **C38 fails** when a wait loses an error: the second copy misses the first block and the upload
succeeds. -/
theorem C38_lost_error : streamTo true sumSha (sumSha [1, 2, 3]) 2 (copyEnc 2)
    ⟨fun k i => if k = 0 ∧ i = 1 then .failed false else .ok, fun _ => false⟩ [[1, 2, 3]] true
    ⟨[], List.replicate 2 ⟨[], none⟩, 0⟩ =
    some (true, ⟨[], [⟨[[1, 2], [3]], some [[1, 2], [3]]⟩, ⟨[[3]], some [[3]]⟩], 3⟩) := by rfl

end Verif.Object
