import Verif.System.Model
import Verif.Meta.Props
import Verif.Api.Dedup

/-!
# Invariants of the whole system (for C72)
-/

namespace Verif.System

open Verif

/-! ## Conditions on a run -/

/-- The text that is hashed to get the name under which upload `p` stores its content. -/
def nameText (reqs : Nat → Req) (p : Nat) (v : Api.Ver) : Str :=
  Api.uniquePre (reqs p).ver.hash v.strategy v.ds v.ps v.compress

/-- The hash functions have values of a fixed length, without the separators of the protocols, and no two of
the contents and texts hashed in the run collide. -/
structure HashesOk (P : Params) (reqs : Nat → Req) (s : Sys) : Prop where
  len : ∀ a b, (P.sha a).length = (P.sha b).length
  body : ∀ p q v w, s.ver p = some v → s.ver q = some w →
    P.sha (reqs p).content = P.sha (reqs q).content → (reqs p).content = (reqs q).content
  name : ∀ p q v w, s.ver p = some v → s.ver q = some w →
    P.shaS (nameText reqs p v) = P.shaS (nameText reqs q w) → nameText reqs p v = nameText reqs q w
  chars : ∀ a, '#' ∉ P.shaS a ∧ '.' ∉ P.shaS a

/-- What the HTTP server checks: a body that ends without an error has the announced length; and a digest is
announced. -/
structure ReqsOk (reqs : Nat → Req) : Prop where
  size : ∀ p, (reqs p).bodyOk = true → (reqs p).ver.size = (reqs p).content.length
  digest : ∀ p, (reqs p).ver.hash ≠ []

/-! ## Invariants -/

/-- The content is verified, and the pieces of shard `i` are those of its blocks. -/
def ShardIs (P : Params) (reqs : Nat → Req) (q : Nat) (v : Api.Ver) (i : Nat) (ps : List Bytes) : Prop :=
  0 < blockSize P v.strategy v.ds v.ps v.size →
    ∃ blocks, Object.WF (blockSize P v.strategy v.ds v.ps v.size) blocks ∧
      blocks.flatten = (reqs q).content ∧
      ps = blocks.map fun b => (encode P v.strategy v.ds v.ps b).getD i []

def Verified (P : Params) (reqs : Nat → Req) (q : Nat) : Prop :=
  (reqs q).bodyOk = true ∧ P.sha (reqs q).content = (reqs q).ver.hash

/-- The servers of `l` hold their shards. -/
def Present (files : Str → Str → Option (List Bytes)) (v : Api.Ver) (l : List Str) : Prop :=
  ∀ (i : Nat) (a : Str), i < nShards v.strategy v.ds v.ps → l[i]? = some a → a ≠ [] →
    (files a (fname v.hash i)).isSome = true

structure SysInv (P : Params) (reqs : Nat → Req) (s : Sys) : Prop where
  idle : ∀ p, s.phase p = .idle → s.ver p = none
  ver : ∀ p v, s.ver p = some v →
    v.hash = P.shaS (nameText reqs p v) ∧ v.size = (reqs p).ver.size
  sent : ∀ p ds temps, s.sent p = some (ds, temps) → ∃ v, s.ver p = some v ∧ Verified P reqs p ∧
    ∀ (i : Nat) (t : List Bytes), i < nShards v.strategy v.ds v.ps → temps[i]? = some t → ShardIs P reqs p v i t
  acks : ∀ p i, i ∈ s.acks p → ∃ v ds temps srv, s.ver p = some v ∧ s.sent p = some (ds, temps) ∧
    ds[i]? = some srv ∧ (s.files srv (fname v.hash i)).isSome = true
  files : ∀ srv f ps, s.files srv f = some ps → ∃ q v i, s.ver q = some v ∧ f = fname v.hash i ∧
    i < nShards v.strategy v.ds v.ps ∧ Verified P reqs q ∧ (v.compress = false → ShardIs P reqs q v i ps)
  ready : ∀ p l, s.phase p = .ready l → ∃ v, s.ver p = some v ∧ Present s.files v l

/-- The stored versions are those of the specification. -/
structure StoreInv (reqs : Nat → Req) (s : Sys) (sp : Spec) : Prop where
  stored : ∀ k n mv, Meta.Stored s.store k n mv → ∃ p v l uid ts, sp k n = some p ∧ k = (reqs p).key ∧
    s.ver p = some v ∧ mv = { toVersion v l uid ts with sequence := n } ∧ Present s.files v l
  spec : ∀ k n p, sp k n = some p → ∃ mv, Meta.Stored s.store k n mv

/-! ## Helper lemmas -/

theorem fname_inj {h h' : Str} {i i' : Nat} (he : fname h i = fname h' i') : h = h' ∧ i = i' :=
  Meta.verKey_inj he

theorem upd_same {α β : Type} [DecidableEq α] (f : α → β) (a : α) (b : β) : upd f a b a = b := by simp [upd]

theorem upd_ne {α β : Type} [DecidableEq α] (f : α → β) {a x : α} (b : β) (h : x ≠ a) : upd f a b x = f x := by
  simp [upd, h]

theorem sendAll_ok {sha : Bytes → Str} {announced : Str} (ha : announced ≠ []) {bs : Nat}
    {enc : Bytes → List Bytes} {env : Object.Env} (hs : ∀ k, env.sees k = true) {chunks : List Bytes}
    {bodyOk : Bool} {n : Nat} {temps : List (List Bytes)}
    (h : sendAll sha announced bs enc env chunks bodyOk n = some temps) :
    bodyOk = true ∧ sha chunks.flatten = announced ∧
    (0 < bs → ∃ blocks, Object.WF bs blocks ∧ blocks.flatten = chunks.flatten ∧
      ∀ (i : Nat) (t : List Bytes), temps[i]? = some t → t = blocks.map fun b => (enc b).getD i []) := by
  unfold sendAll at h
  cases hb : Object.Up.body bs enc env ⟨[], List.replicate n ⟨[], none⟩, 0⟩ chunks with
  | none => simp [hb] at h
  | some r =>
    obtain ⟨w, u1⟩ := r
    simp only [hb] at h
    by_cases hdig : (if w && bodyOk then sha chunks.flatten else []) = announced
    · rw [if_neg (by simpa using hdig)] at h
      split at h
      · rename_i hfl
        simp only [Option.some.injEq] at h
        cases hw : (w && bodyOk) with
        | false => rw [hw] at hdig; simp at hdig; exact absurd hdig ha
        | true =>
          rw [hw] at hdig
          simp only [Bool.and_eq_true] at hw
          obtain ⟨hw, hbo⟩ := hw
          subst hw
          refine ⟨hbo, by simpa using hdig, fun hbs => ?_⟩
          have h0 : Object.UpInv bs enc (List.replicate n none) [] []
              ⟨[], List.replicate n ⟨[], none⟩, 0⟩ := by
            refine ⟨by simp [Object.Full], by simp, ?_, by simp⟩
            intro i s hi
            rw [List.getElem?_replicate] at hi
            split at hi
            · cases hi; rfl
            · cases hi
          obtain ⟨bl, i1, i2⟩ := Object.body_up hs chunks _ [] [] h0 (by simpa using hbs) u1 hb
          by_cases hc : u1.cache = []
          · have hfe : u1.flush enc env = (true, u1) := by simp [Object.Up.flush, hc]
            rw [hfe] at h
            refine ⟨bl, Object.wf_full hbs _ i1.full, ?_, ?_⟩
            · have := i1.data_; rw [hc] at this; simpa using this.symm
            · intro i t hi
              rw [← h, List.getElem?_map] at hi
              cases hx : u1.srvs[i]? with
              | none => simp [hx] at hi
              | some s0 =>
                simp only [hx, Option.map_some, Option.some.injEq] at hi
                rw [← hi]; exact i1.temp i s0 hx
          · obtain ⟨_, f2, _⟩ := Object.flush_inv hs i1 hfl hc
            refine ⟨bl ++ [u1.cache], Object.wf_of_full hbs _ i1.full _ (by omega) hc, ?_, ?_⟩
            · have := i1.data_; simpa using this.symm
            · intro i t hi
              rw [← h, List.getElem?_map] at hi
              cases hx : (u1.flush enc env).2.srvs[i]? with
              | none => simp [hx] at hi
              | some s0 =>
                simp only [hx, Option.map_some, Option.some.injEq] at hi
                rw [← hi]; exact f2 i s0 hx
      · cases h
    · rw [if_pos hdig] at h; cases h

/-- Requests other than those that write versions only remove versions. -/
theorem plain_shrinks {st : Meta.Store} {op : Meta.Op} (hp : plainOp op = true) (n : Str) (q : Nat)
    (v : Meta.Version) (h : Meta.Stored (Meta.step st op).2 n q v) : Meta.Stored st n q v := by
  have := Meta.step_induct (fun t => ∀ n q v, Meta.Stored t n q v → Meta.Stored st n q v) st op
    (fun _ _ _ h => h) (by
      intro op' t t' ho he ih n q v hst
      have ho : op' = op := by
        rcases ho with ho | ⟨hl, _⟩
        · exact ho
        · cases op <;> simp [Meta.Op.isLocate, plainOp] at hl hp
      subst ho
      apply ih
      cases he with
      | addMeta id d h1 h2 h3 =>
        rw [Meta.stored_put rfl] at hst
        split at hst
        · simp [KMap.get, KMap.empty, KMap.rawGet] at hst
        · exact hst
      | removeMeta n' hn => exact ((Meta.stored_del rfl _ _ _).1 hst).2
      | updateMeta => exact hst
      | addVer => simp [plainOp] at hp
      | migrateVer => simp [plainOp] at hp
      | updateVer => simp [plainOp] at hp
      | removeVer n' q' b w h1 h2 =>
        rw [Meta.stored_put rfl] at hst
        split at hst
        · rename_i hn
          subst hn
          rw [KMap.get_del] at hst
          split at hst
          · cases hst
          · exact ⟨b, h1, hst⟩
        · exact hst
      | removeAllVersion n' b h1 h2 =>
        rw [Meta.stored_put rfl] at hst
        split at hst
        · simp [KMap.get, KMap.empty, KMap.rawGet] at hst
        · exact hst
      | findByHash hh => exact (Meta.stored_findByHash _ _ _ _ _).1 hst
      | bucketCreate => exact hst
      | bucketUpdate => exact hst
      | bucketDelete => exact hst
      | applyIndex => exact hst)
  exact this n q v h

/-- The requests that remove version `n` of an object. -/
def Removes (k : Str) (n : Nat) (op : Meta.Op) : Prop :=
  op = .removeMeta k ∨ op = .removeVer k n ∨ op = .removeAllVersion k

/-- All others keep it. -/
theorem plain_keeps {st : Meta.Store} {op : Meta.Op} (hp : plainOp op = true) {k : Str} {n : Nat}
    (hr : ¬ Removes k n op) {v : Meta.Version} (h : Meta.Stored st k n v) :
    Meta.Stored (Meta.step st op).2 k n v := by
  refine Meta.step_induct (fun t => Meta.Stored t k n v) st op h ?_
  intro op' t t' ho he hst
  have ho : op' = op := by
    rcases ho with ho | ⟨hl, _⟩
    · exact ho
    · cases op <;> simp [Meta.Op.isLocate, plainOp] at hl hp
  subst ho
  cases he with
  | addMeta id d h1 h2 h3 =>
    rw [Meta.stored_put rfl]
    split
    · rename_i hk
      subst hk
      obtain ⟨b, hb, _⟩ := hst
      rw [h3] at hb; cases hb
    · exact hst
  | removeMeta n' hn =>
    refine (Meta.stored_del rfl _ _ _).2 ⟨?_, hst⟩
    rintro rfl
    exact hr (Or.inl rfl)
  | updateMeta => exact hst
  | addVer => simp [plainOp] at hp
  | migrateVer => simp [plainOp] at hp
  | updateVer => simp [plainOp] at hp
  | removeVer n' q' b w h1 h2 =>
    rw [Meta.stored_put rfl]
    split
    · rename_i hk
      subst hk
      obtain ⟨b', hb, hi⟩ := hst
      rw [h1] at hb; cases hb
      rw [KMap.get_del, if_neg]
      · exact hi
      · intro he
        rw [(Meta.verKey_inj he).2] at hr
        exact hr (Or.inr (Or.inl rfl))
    · exact hst
  | removeAllVersion n' b h1 h2 =>
    rw [Meta.stored_put rfl]
    split
    · rename_i hk
      subst hk
      exact absurd (Or.inr (Or.inr rfl)) hr
    · exact hst
  | findByHash hh => exact (Meta.stored_findByHash _ _ _ _ _).2 hst
  | bucketCreate => exact hst
  | bucketUpdate => exact hst
  | bucketDelete => exact hst
  | applyIndex => exact hst

theorem present_mono {f f' : Str → Str → Option (List Bytes)} (hf : ∀ a b, (f a b).isSome = true →
    (f' a b).isSome = true) {v : Api.Ver} {l : List Str} (h : Present f v l) : Present f' v l :=
  fun i a hi hl ha => hf _ _ (h i a hi hl ha)

/-- Commits keep files. -/
theorem commit_files (f : Str → Str → Option (List Bytes)) (srv name : Str) (c : List Bytes) (a b : Str) :
    (upd f srv (upd (f srv) name (some ((f srv name).getD c)))) a b =
      if a = srv ∧ b = name then some ((f srv name).getD c) else f a b := by
  by_cases ha : a = srv
  · subst ha
    rw [upd_same]
    by_cases hb : b = name
    · subst hb; rw [upd_same]; simp
    · rw [upd_ne _ _ hb]; simp [hb]
  · rw [upd_ne _ _ ha]; simp [ha]

theorem sysInv_init (P : Params) (reqs : Nat → Req) : SysInv P reqs .init :=
  ⟨fun _ _ => rfl, fun _ _ h => by simp [Sys.init] at h, fun _ _ _ h => by simp [Sys.init] at h,
    fun _ _ h => by simp [Sys.init] at h, fun _ _ _ h => by simp [Sys.init] at h,
    fun _ _ h => by simp [Sys.init] at h⟩

/-- Changes of the phase of one upload. -/
theorem sysInv_phase {P : Params} {reqs : Nat → Req} {s : Sys} (h : SysInv P reqs s) (p : Nat) (ph : Phase)
    (h1 : ph ≠ .idle) (h2 : ∀ l, ph = .ready l → ∃ v, s.ver p = some v ∧ Present s.files v l) :
    SysInv P reqs { s with phase := upd s.phase p ph } := by
  refine ⟨fun q hq => ?_, h.ver, h.sent, h.acks, h.files, fun q l hq => ?_⟩
  · by_cases hqp : q = p
    · subst hqp; simp only [upd_same] at hq; exact absurd hq h1
    · simp only [upd_ne _ _ hqp] at hq; exact h.idle q hq
  · by_cases hqp : q = p
    · subst hqp; simp only [upd_same] at hq; exact h2 l hq
    · simp only [upd_ne _ _ hqp] at hq; exact h.ready q l hq

theorem makeVersion_hash {b : Api.Bucket} {cfg : Api.Cfg} {v v1 : Api.Ver} (h : b.makeVersion cfg v = some v1) :
    v1.hash = v.hash := by
  unfold Api.Bucket.makeVersion at h
  simp only at h
  by_cases hs : b.strategy > 0
  · simp only [if_pos hs] at h
    by_cases hm : b.strategy = Api.multiReplication
    · rw [if_pos hm] at h; cases h; rfl
    · rw [if_neg hm] at h
      cases hq : Api.shardSize b.ds v.size with
      | none => rw [hq] at h; cases h
      | some s => rw [hq] at h; cases h; rfl
  · simp only [if_neg hs] at h
    by_cases hm : v.strategy = Api.multiReplication
    · rw [if_pos hm] at h; cases h; rfl
    · rw [if_neg hm] at h
      cases hq : Api.shardSize cfg.rsDs v.size with
      | none => rw [hq] at h; cases h
      | some s => rw [hq] at h; cases h; rfl

theorem sysInv_step {P : Params} {reqs : Nat → Req} (hc : ∀ a, '#' ∉ P.shaS a ∧ '.' ∉ P.shaS a)
    (hq : ReqsOk reqs) {s s' : Sys} {e : Ev} (hrel : e.Reliable) (hi : SysInv P reqs s)
    (hst : Step P reqs s e s') : SysInv P reqs s' := by
  cases e with
  | prepare p =>
    obtain ⟨h1, mb, v, _, _, h4, rfl⟩ := hst
    have hnone := hi.idle p h1
    have hkeep : ∀ q w, s.ver q = some w → upd s.ver p (some { v with
        hash := Api.uniqueHash P.shaS v.hash v.strategy v.ds v.ps v.compress }) q = some w := by
      intro q w hw
      rw [upd_ne]
      · exact hw
      · rintro rfl; rw [hnone] at hw; cases hw
    have hh : v.hash = (reqs p).ver.hash ∧ v.size = (reqs p).ver.size := by
      refine ⟨?_, (Api.makeVersion_prescribed _ _ _ _ h4).size⟩
      exact makeVersion_hash h4
    refine ⟨fun q hq => ?_, fun q w hw => ?_, fun q ds t h => ?_, fun q i h => ?_, fun a f ps h => ?_,
      fun q l h => ?_⟩
    · by_cases hqp : q = p
      · subst hqp; simp only [upd_same] at hq; cases hq
      · simp only [upd_ne _ _ hqp] at hq ⊢; exact hi.idle q hq
    · by_cases hqp : q = p
      · subst hqp
        simp only [upd_same, Option.some.injEq] at hw
        subst hw
        refine ⟨?_, hh.2⟩
        simp only [Api.uniqueHash, nameText, hh.1]
      · simp only [upd_ne _ _ hqp] at hw; exact hi.ver q w hw
    · obtain ⟨w, h1, h2⟩ := hi.sent q ds t h
      exact ⟨w, hkeep q w h1, h2⟩
    · obtain ⟨w, ds, t, srv, h1, h2⟩ := hi.acks q i h
      exact ⟨w, ds, t, srv, hkeep q w h1, h2⟩
    · obtain ⟨q, w, i, h1, h2⟩ := hi.files a f ps h
      exact ⟨q, w, i, hkeep q w h1, h2⟩
    · by_cases hqp : q = p
      · subst hqp; simp only [upd_same] at h; cases h
      · simp only [upd_ne _ _ hqp] at h
        obtain ⟨w, h1, h2⟩ := hi.ready q l h
        exact ⟨w, hkeep q w h1, h2⟩
  | locate p evs =>
    obtain ⟨_, v, l, h2, h3, h4, h5, rfl⟩ := hst
    refine sysInv_phase hi p _ (by simp) ?_
    rintro l' hl
    cases hl
    refine ⟨v, h2, ?_⟩
    intro i a hin hl ha
    obtain ⟨e1, used, rest, e2, _, e3⟩ := Api.C41_entries _ _ _ h5
    have hin' : i < (v.ds + v.ps).toNat := by
      rw [← e1]
      exact (List.getElem?_eq_some_iff.1 hl).1
    rcases e3 i hin' with ⟨ip, f1, r, f2, f3⟩ | ⟨f1, _⟩
    · rw [hl] at f1; cases f1
      obtain ⟨ip, key, j, g1, g2, g3, g4⟩ := h3 r (by rw [e2]; exact List.mem_append_left _ f2)
      have hv := hc (nameText reqs p v)
      rw [← (hi.ver p v h2).1] at hv
      have := Api.C41_answer (fun f => (s.files ip f).isSome) ip v.hash key j g3 g1 hv.1 hv.2 g2
      rw [g4, Option.map_some, f3] at this
      split at this
      · rename_i hh
        simp only [Option.some.injEq, Prod.mk.injEq, Int.natCast_inj] at this
        obtain ⟨t1, t2⟩ := this
        subst t1
        have : i = j := by omega
        subst this
        simpa [fname] using hh
      · cases this
    · rw [hl] at f1; cases f1; exact absurd rfl ha
  | send p ds env =>
    obtain ⟨_, h2, v, temps, h3, _, _, _, _, h7, rfl⟩ := hst
    obtain ⟨k1, k2, k3⟩ := sendAll_ok (hq.digest p) hrel h7
    have hkeep : ∀ q x, s.sent q = some x → upd s.sent p (some (ds, temps)) q = some x := by
      intro q w hw
      rw [upd_ne]
      · exact hw
      · rintro rfl; rw [h2] at hw; cases hw
    refine ⟨hi.idle, hi.ver, fun q ds' t h => ?_, fun q i h => ?_, hi.files, hi.ready⟩
    · by_cases hqp : q = p
      · subst hqp
        simp only [upd_same, Option.some.injEq, Prod.mk.injEq] at h
        obtain ⟨rfl, rfl⟩ := h
        refine ⟨v, h3, ⟨k1, k2⟩, fun i t _ hit hbs => ?_⟩
        obtain ⟨bl, w1, w2, w3⟩ := k3 hbs
        exact ⟨bl, w1, w2, w3 i t hit⟩
      · simp only [upd_ne _ _ hqp] at h; exact hi.sent q ds' t h
    · obtain ⟨w, ds', t, srv, h1, h2, h3⟩ := hi.acks q i h
      exact ⟨w, ds', t, srv, h1, hkeep q _ h2, h3⟩
  | commit p i r =>
    obtain ⟨v, ds, temps, srv, t, h1, h2, h3, h4, h5, rfl⟩ := hst
    obtain ⟨v', e1, e2, e3⟩ := hi.sent p ds temps h2
    rw [h1] at e1; cases e1
    generalize hcont : (if v.compress then P.gz t else t) = c
    generalize hfs : (if r.performed then
            upd s.files srv (upd (s.files srv) (fname v.hash i)
              (some ((s.files srv (fname v.hash i)).getD c)))
          else s.files) = fs
    have hval : ∀ a f ps, fs a f = some ps → s.files a f = some ps ∨
        (f = fname v.hash i ∧ ps = c) := by
      intro a f ps hps
      rw [← hfs] at hps
      split at hps
      · rw [commit_files] at hps
        split at hps
        · rename_i hh
          obtain ⟨rfl, rfl⟩ := hh
          cases hx : s.files a (fname v.hash i) with
          | none => rw [hx] at hps; simp only [Option.getD_none, Option.some.injEq] at hps
                    exact Or.inr ⟨rfl, hps.symm⟩
          | some y => rw [hx] at hps; simp only [Option.getD_some] at hps; exact Or.inl hps
        · exact Or.inl hps
      · exact Or.inl hps
    have hmono : ∀ a b, (s.files a b).isSome = true → (fs a b).isSome = true := by
      intro a b hab
      rw [← hfs]
      split
      · rw [commit_files]; split
        · rfl
        · exact hab
      · exact hab
    refine ⟨hi.idle, hi.ver, hi.sent, fun q j hj => ?_, fun a f ps hps => ?_, fun q l hl => ?_⟩
    · have hold : j ∈ s.acks q → ∃ v ds temps srv, s.ver q = some v ∧ s.sent q = some (ds, temps) ∧
          ds[j]? = some srv ∧ (fs srv (fname v.hash j)).isSome = true := by
        intro hj
        obtain ⟨w, ds', t', srv', g1, g2, g3, g4⟩ := hi.acks q j hj
        exact ⟨w, ds', t', srv', g1, g2, g3, hmono _ _ g4⟩
      simp only at hj
      split at hj
      · rename_i hok
        by_cases hqp : q = p
        · subst hqp
          rw [upd_same] at hj
          rcases List.mem_cons.1 hj with rfl | hj
          · refine ⟨v, ds, temps, srv, h1, h2, h4, ?_⟩
            show (fs srv (fname v.hash j)).isSome = true
            rw [← hfs, hok, if_pos (by rfl), commit_files]; simp
          · exact hold hj
        · rw [upd_ne _ _ hqp] at hj; exact hold hj
      · exact hold hj
    · rcases hval a f ps hps with hps | ⟨rfl, rfl⟩
      · exact hi.files a f ps hps
      · refine ⟨p, v, i, h1, rfl, h3, e2, fun hcomp => ?_⟩
        rw [← hcont, hcomp]
        exact e3 i t h3 h5
    · obtain ⟨w, g1, g2⟩ := hi.ready q l hl
      exact ⟨w, g1, present_mono hmono g2⟩
  | finish p sees =>
    obtain ⟨_, v, ds, temps, h2, h3, h4, rfl⟩ := hst
    refine sysInv_phase hi p _ (by simp) ?_
    rintro l' hl
    cases hl
    refine ⟨v, h2, ?_⟩
    intro i a hin hl ha
    have hs : sees = true := hrel
    rcases h4 with h4 | h4
    · obtain ⟨w, ds', t, srv, g1, g2, g3, g4⟩ := hi.acks p i (h4 i hin)
      rw [h2] at g1; cases g1
      rw [h3] at g2; cases g2
      rw [hl] at g3; cases g3
      exact g4
    · rw [hs] at h4; cases h4
  | fail p =>
    cases (show s' = _ from hst)
    exact sysInv_phase hi p _ (by simp) (by intro l h; cases h)
  | add p uid ts answered =>
    obtain ⟨op, q, st, h1, h2, rfl⟩ := hst
    cases answered with
    | false => exact ⟨hi.idle, hi.ver, hi.sent, hi.acks, hi.files, hi.ready⟩
    | true =>
      have := sysInv_phase hi p (.ok q) (by simp) (by intro l h; cases h)
      exact ⟨this.idle, this.ver, this.sent, this.acks, this.files, this.ready⟩
  | other op =>
    obtain ⟨_, rfl⟩ := hst
    exact ⟨hi.idle, hi.ver, hi.sent, hi.acks, hi.files, hi.ready⟩

/-! ## The stored versions -/

/-- Versions of uploads and files are kept by steps that leave the store alone. -/
theorem ver_files_mono {P : Params} {reqs : Nat → Req} {s s' : Sys} {e : Ev} (hi : SysInv P reqs s)
    (hst : Step P reqs s e s') : (∀ p v, s.ver p = some v → s'.ver p = some v) ∧
      (∀ a b, (s.files a b).isSome = true → (s'.files a b).isSome = true) := by
  cases e with
  | prepare p =>
    obtain ⟨h1, mb, v, _, _, h4, rfl⟩ := hst
    refine ⟨fun q w hw => ?_, fun _ _ h => h⟩
    simp only
    rw [upd_ne]
    · exact hw
    · rintro rfl; rw [hi.idle _ h1] at hw; cases hw
  | locate p evs => obtain ⟨_, v, l, _, _, _, _, rfl⟩ := hst; exact ⟨fun _ _ h => h, fun _ _ h => h⟩
  | send p ds env => obtain ⟨_, _, v, temps, _, _, _, _, _, _, rfl⟩ := hst; exact ⟨fun _ _ h => h, fun _ _ h => h⟩
  | commit p i r =>
    obtain ⟨v, ds, temps, srv, t, h1, h2, h3, h4, h5, rfl⟩ := hst
    refine ⟨fun _ _ h => h, fun a b hab => ?_⟩
    simp only
    split
    · rw [commit_files]; split
      · rfl
      · exact hab
    · exact hab
  | finish p sees => obtain ⟨_, v, ds, temps, _, _, _, rfl⟩ := hst; exact ⟨fun _ _ h => h, fun _ _ h => h⟩
  | fail p => cases (show s' = _ from hst); exact ⟨fun _ _ h => h, fun _ _ h => h⟩
  | add p uid ts answered => obtain ⟨op, q, st, _, _, rfl⟩ := hst; exact ⟨fun _ _ h => h, fun _ _ h => h⟩
  | other op => obtain ⟨_, rfl⟩ := hst; exact ⟨fun _ _ h => h, fun _ _ h => h⟩

/-- Steps that do not write to the metadata server. -/
def Ev.local_ : Ev → Prop
  | .add .. => False
  | .other _ => False
  | _ => True

theorem local_store {P : Params} {reqs : Nat → Req} {s s' : Sys} {e : Ev} (hl : e.local_)
    (hst : Step P reqs s e s') : s'.store = s.store ∧ ∀ sp, specNext reqs s e s' sp = sp := by
  cases e with
  | prepare p => obtain ⟨h1, mb, v, _, _, h4, rfl⟩ := hst; exact ⟨rfl, fun _ => rfl⟩
  | locate p evs => obtain ⟨_, v, l, _, _, _, _, rfl⟩ := hst; exact ⟨rfl, fun _ => rfl⟩
  | send p ds env => obtain ⟨_, _, v, temps, _, _, _, _, _, _, rfl⟩ := hst; exact ⟨rfl, fun _ => rfl⟩
  | commit p i r => obtain ⟨v, ds, temps, srv, t, h1, h2, h3, h4, h5, rfl⟩ := hst; exact ⟨rfl, fun _ => rfl⟩
  | finish p sees => obtain ⟨_, v, ds, temps, _, _, _, rfl⟩ := hst; exact ⟨rfl, fun _ => rfl⟩
  | fail p => cases (show s' = _ from hst); exact ⟨rfl, fun _ => rfl⟩
  | add => cases hl
  | other => cases hl

theorem addOp_eq {reqs : Nat → Req} {s : Sys} {p : Nat} {uid : Str} {ts : Int} {op : Meta.Op}
    (h : addOp reqs s p uid ts = some op) : ∃ l v, s.phase p = .ready l ∧ s.ver p = some v ∧
      op = .addVer (reqs p).key (toVersion v l uid ts) := by
  unfold addOp at h
  split at h
  · rename_i l v h1 h2
    exact ⟨l, v, h1, h2, (Option.some.inj h).symm⟩
  · cases h

theorem specNext_add {reqs : Nat → Req} {s s' : Sys} {p : Nat} {uid : Str} {ts : Int} {a : Bool} {op : Meta.Op}
    {q : Nat} {st : Meta.Store} (h1 : addOp reqs s p uid ts = some op)
    (h2 : Meta.step s.store op = (.seq q, st)) (sp : Spec) :
    specNext reqs s (.add p uid ts a) s' sp =
      fun k n => if k = (reqs p).key ∧ n = q then some p else sp k n := by
  simp only [specNext, h1, Option.map_some, h2]

theorem storeInv_step {P : Params} {reqs : Nat → Req} {s s' : Sys} {e : Ev} {sp : Spec}
    (hi : SysInv P reqs s) (hs : StoreInv reqs s sp) (hst : Step P reqs s e s') :
    StoreInv reqs s' (specNext reqs s e s' sp) := by
  obtain ⟨m1, m2⟩ := ver_files_mono hi hst
  by_cases hl : e.local_
  · obtain ⟨e1, e2⟩ := local_store hl hst
    rw [e2]
    refine ⟨fun k n mv h => ?_, fun k n p h => ?_⟩
    · rw [e1] at h
      obtain ⟨p, v, l, uid, ts, h1, h2, h3, h4, h5⟩ := hs.stored k n mv h
      exact ⟨p, v, l, uid, ts, h1, h2, m1 p v h3, h4, present_mono m2 h5⟩
    · rw [e1]; exact hs.spec k n p h
  · cases e with
    | add p uid ts answered =>
      obtain ⟨op, q, st, h1, h2, rfl⟩ := hst
      rw [specNext_add h1 h2]
      obtain ⟨l, v, g1, g2, rfl⟩ := addOp_eq h1
      obtain ⟨c1, c2, _⟩ := Meta.C16_added_readable h2
      rw [Meta.getVer_ok_iff] at c1
      have hother : ∀ k n mv, ¬ (k = (reqs p).key ∧ n = q) →
          (Meta.Stored st k n mv ↔ Meta.Stored s.store k n mv) := by
        intro k n mv hne
        rw [← Meta.getVer_ok_iff, ← Meta.getVer_ok_iff, c2 k n (by
          intro he; exact hne ⟨congrArg Prod.fst he, congrArg Prod.snd he⟩)]
      refine ⟨fun k n mv h => ?_, fun k n p' h => ?_⟩
      · by_cases hkn : k = (reqs p).key ∧ n = q
        · obtain ⟨rfl, rfl⟩ := hkn
          obtain ⟨v', r1, r2⟩ := hi.ready p l g1
          rw [g2] at r1; cases r1
          refine ⟨p, v, l, uid, ts, by simp, rfl, g2, ?_, r2⟩
          have := (Meta.getVer_ok_iff _ _ _ _).2 h
          rw [(Meta.getVer_ok_iff _ _ _ _).2 c1] at this
          exact (Except.ok.inj this).symm
        · obtain ⟨p', v', l', uid', ts', h1, h2, h3, h4, h5⟩ := hs.stored k n mv ((hother k n mv hkn).1 h)
          exact ⟨p', v', l', uid', ts', by rw [if_neg hkn]; exact h1, h2, h3, h4, h5⟩
      · by_cases hkn : k = (reqs p).key ∧ n = q
        · obtain ⟨rfl, rfl⟩ := hkn
          exact ⟨_, c1⟩
        · rw [if_neg hkn] at h
          obtain ⟨mv, hmv⟩ := hs.spec k n p' h
          exact ⟨mv, (hother k n mv hkn).2 hmv⟩
    | other op =>
      obtain ⟨hp, rfl⟩ := hst
      refine ⟨fun k n mv h => ?_, fun k n p' h => ?_⟩
      · obtain ⟨p', v', l', uid', ts', h1, h2, h3, h4, h5⟩ := hs.stored k n mv (plain_shrinks hp k n mv h)
        refine ⟨p', v', l', uid', ts', ?_, h2, h3, h4, h5⟩
        simp only [specNext, (Meta.getVer_ok_iff _ _ _ _).2 h]
        exact h1
      · simp only [specNext] at h
        split at h
        · rename_i mv hmv
          exact ⟨mv, (Meta.getVer_ok_iff _ _ _ _).1 hmv⟩
        · cases h
    | _ => exact absurd trivial hl

theorem storeInv_init (reqs : Nat → Req) : StoreInv reqs .init (fun _ _ => none) :=
  ⟨fun k n mv h => by
    obtain ⟨b, hb, _⟩ := h
    simp [Sys.init, Meta.Store.empty, KMap.get, KMap.empty, KMap.rawGet] at hb, fun _ _ _ h => by cases h⟩

theorem inv_run {P : Params} {reqs : Nat → Req} (hc : ∀ a, '#' ∉ P.shaS a ∧ '.' ∉ P.shaS a)
    (hq : ReqsOk reqs) {es : List Ev} {s : Sys} {sp : Spec} (hr : Run P reqs es s sp)
    (hrel : ∀ e ∈ es, e.Reliable) : SysInv P reqs s ∧ StoreInv reqs s sp := by
  induction hr with
  | nil => exact ⟨sysInv_init P reqs, storeInv_init reqs⟩
  | snoc hr hst ih =>
    obtain ⟨h1, h2⟩ := ih (fun e he => hrel e (List.mem_append_left _ he))
    exact ⟨sysInv_step hc hq (hrel _ (by simp)) h1 hst, storeInv_step h1 h2 hst⟩

end Verif.System
