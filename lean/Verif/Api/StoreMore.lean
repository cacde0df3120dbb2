import Verif.Api.Store

/-!
# Storing an object: acceptable uploads are accepted (C60)

`Verif.Api.Store` says what is *not* stored; here: what is asked for in order is done, with the
prescribed layout.
-/

namespace Verif.Api

open Verif

/-- **C60** What `Put` asks `StoreObject` for: refused exactly when no content is announced; a
strategy that is asked for is kept, without one contents above 64 KiB are erasure coded and others copied. -/
theorem C60_put_request (n strategy : Int) (compress : Bool) (digest : Str) :
    (putVersion n strategy compress digest = none ↔ n ≤ 0) ∧
    ∀ v, putVersion n strategy compress digest = some v →
      v.size = n ∧ v.hash = digest ∧ v.compress = compress ∧ v.locate = [] ∧
      (strategy ≠ 0 → v.strategy = strategy) ∧
      (strategy = 0 → 65536 < n → v.strategy = ecReedSolomon) ∧
      (strategy = 0 → n ≤ 65536 → v.strategy = multiReplication) := by
  unfold putVersion
  by_cases h : n ≤ 0
  · rw [if_pos h]
    exact ⟨⟨fun _ => h, fun _ => rfl⟩, fun v hv => (nomatch hv)⟩
  · rw [if_neg h]
    dsimp only
    refine ⟨⟨fun hn => (nomatch hn), fun hn => absurd hn h⟩, fun v hv => ?_⟩
    cases hv
    refine ⟨rfl, rfl, rfl, rfl, fun hs => if_neg hs, fun hs hn => ?_, fun hs hn => ?_⟩
    · show (if strategy = 0 then _ else _) = _
      rw [if_pos hs, if_pos hn]
    · show (if strategy = 0 then _ else _) = _
      rw [if_pos hs, if_neg (by omega)]

example : (putVersion 65536 0 false ['h']).map (·.strategy) = some multiReplication ∧
    (putVersion 65537 0 false ['h']).map (·.strategy) = some ecReedSolomon ∧
    (putVersion 1 0 false ['h']).isSome ∧ putVersion 0 0 false ['h'] = none := by decide

/-- **C60** The size of a shard: the data shards hold the contents, and one byte less in each would
not. -/
theorem C60_shard_size (ds size : Int) (hd : 0 < ds) (hs : 0 ≤ size) :
    ∃ n, shardSize ds size = some n ∧ size ≤ ds * n ∧ ds * (n - 1) < size ∧ 0 ≤ n := by
  unfold shardSize
  rw [if_neg (by omega)]
  refine ⟨_, rfl, ?_⟩
  rw [Int.tdiv_eq_ediv_of_nonneg (by omega)]
  have h1 := Int.mul_ediv_add_emod (size + ds - 1) ds
  have h2 := Int.emod_nonneg (size + ds - 1) (b := ds) (by omega)
  have h3 := Int.emod_lt_of_pos (size + ds - 1) hd
  have h4 := Int.ediv_nonneg (a := size + ds - 1) (b := ds) (by omega) (by omega)
  rw [Int.mul_sub]
  omega

example : shardSize 4 9 = some 3 ∧ shardSize 1 9 = some 9 ∧ shardSize 4 0 = some 0 := by decide

/-- The numbers of data and parity shards (or copies) an upload gets. -/
def prescribedNumbers (cfg : Cfg) (b : Bucket) (asked : Int) : Int × Int :=
  if 0 < b.strategy then
    if b.strategy = multiReplication then (b.ds, 0) else (b.ds, b.ps)
  else if asked = multiReplication then (cfg.copies, 0) else (cfg.rsDs, cfg.rsPs)

theorem makeVersion_some (b : Bucket) (cfg : Cfg) (v : Ver) (hp : v.ps = 0)
    (hd : 0 < (prescribedNumbers cfg b v.strategy).1) (hs : 0 ≤ v.size) :
    ∃ w, b.makeVersion cfg v = some w ∧ w.hash = v.hash ∧ (w.ds, w.ps) = prescribedNumbers cfg b v.strategy ∧
      (w.strategy = multiReplication → w.shardSize = v.size) ∧
      (w.strategy ≠ multiReplication → v.size ≤ w.ds * w.shardSize ∧ w.ds * (w.shardSize - 1) < v.size) := by
  unfold Bucket.makeVersion
  unfold prescribedNumbers at hd ⊢
  by_cases h1 : b.strategy > 0
  · rw [if_pos h1] at hd ⊢
    rw [if_pos h1]
    dsimp only
    by_cases h2 : b.strategy = multiReplication
    · rw [if_pos h2] at hd ⊢
      rw [if_pos h2]
      exact ⟨_, rfl, rfl, by simp [hp], fun _ => rfl, fun hn => absurd h2 hn⟩
    · rw [if_neg h2] at hd ⊢
      rw [if_neg h2]
      obtain ⟨n, hn, h3, h4, _⟩ := C60_shard_size b.ds v.size hd hs
      rw [hn]
      exact ⟨_, rfl, rfl, rfl, fun hm => absurd hm h2, fun _ => ⟨h3, h4⟩⟩
  · rw [if_neg h1] at hd ⊢
    rw [if_neg h1]
    dsimp only
    by_cases h2 : v.strategy = multiReplication
    · rw [if_pos h2] at hd ⊢
      rw [if_pos h2]
      exact ⟨_, rfl, rfl, by simp [hp], fun _ => rfl, fun hn => absurd h2 hn⟩
    · rw [if_neg h2] at hd ⊢
      rw [if_neg h2]
      obtain ⟨n, hn, h3, h4, _⟩ := C60_shard_size cfg.rsDs v.size hd hs
      rw [hn]
      exact ⟨_, rfl, rfl, rfl, fun hm => absurd hm h2, fun _ => ⟨h3, h4⟩⟩

/-- What the metadata server answers to a new object, or to a further version of one. -/
def recorded (env : StoreEnv) (vn : Int) : Prop :=
  (env.getMeta = .notFound ∧ env.save = .ok vn) ∨ (∃ e, env.getMeta = .found e ∧ env.add = some vn)

/-- **C60** An upload is accepted: when the bucket exists and is writable, its layout is usable, no
stored object is found for the hash and all servers answer, the bytes are sent once, then the version is
recorded once — with the prescribed layout, the locations of the upload and a hash that stands for contents
and layout — and the answer is its number. -/
theorem C60_accepted (cfg : Cfg) (sha : Str → Str) (env : StoreEnv) (req : Ver) (b : Bucket) (vn : Int)
    (hb : env.bucket = some b) (hro : b.readonly = false) (hps : req.ps = 0) (hsz : 0 ≤ req.size)
    (hd : 0 < (prescribedNumbers cfg b req.strategy).1)
    (hp : 0 ≤ (prescribedNumbers cfg b req.strategy).1 + (prescribedNumbers cfg b req.strategy).2)
    (hloc : ∀ h n, locateObject n (env.evs h n) = .notFound)
    (hup : ∀ v, env.upload v ≠ none) (hrec : recorded env vn) :
    ∃ v l, Prescribed cfg b req v ∧ (v.ds, v.ps) = prescribedNumbers cfg b req.strategy ∧
      (v.strategy = multiReplication → v.shardSize = v.size) ∧
      (v.strategy ≠ multiReplication → v.size ≤ v.ds * v.shardSize ∧ v.ds * (v.shardSize - 1) < v.size) ∧
      v.hash = uniqueHash sha req.hash v.strategy v.ds v.ps v.compress ∧
      env.upload v = some l ∧ (storeObject cfg sha env req).1 = .ok vn ∧
      (∃ f, (storeObject cfg sha env req).2.take 2 = [.upload v, f] ∧ f.ver? = some { v with locate := l }) ∧
      ∀ f ∈ (storeObject cfg sha env req).2.drop 2, ∃ n, f = .remove n := by
  obtain ⟨w, hw, hhash, hnum, hs1, hs2⟩ := makeVersion_some b cfg req hps hd hsz
  have hpre := makeVersion_prescribed b cfg req w hw
  have hnn : ¬ w.ds + w.ps < 0 := by
    have := congrArg (fun x : Int × Int => x.1 + x.2) hnum
    dsimp only at this
    omega
  unfold storeObject
  rw [hb]
  dsimp only
  rw [hro, hw]
  dsimp only
  generalize hv : ({ w with hash := uniqueHash sha w.hash w.strategy w.ds w.ps w.compress } : Ver) = v
  have hdd : dedup cfg env v = .notFound := by
    unfold dedup
    split
    · rw [if_neg (by rw [← hv]; exact hnn)]; exact hloc _ _
    · rfl
  cases hu : env.upload v with
  | none => exact absurd hu (hup v)
  | some l =>
    refine ⟨v, l, ?_, by rw [← hv]; exact hnum, ?_, ?_, by rw [← hv, ← hhash], hu, ?_⟩
    · rw [← hv]; exact ⟨hpre.forced, hpre.free, hpre.compress, hpre.size⟩
    · rw [← hv]; intro h; exact (hs1 h).trans hpre.size.symm
    · rw [← hv]; intro h; show w.size ≤ _ ∧ _ < w.size; rw [hpre.size]; exact hs2 h
    · subst hv
      rw [if_neg (by decide), hdd]
      simp only [hu]
      unfold record
      rcases hrec with ⟨hg, hs⟩ | ⟨e, hg, ha⟩
      · rw [hg, hs]
        exact ⟨rfl, ⟨_, rfl, rfl⟩, fun f hf => (nomatch hf)⟩
      · rw [hg]
        simp only [addVersion, ha]
        refine ⟨trivial, ⟨_, rfl, rfl⟩, fun f hf => ?_⟩
        simp only [List.singleton_append, List.drop_succ_cons, List.drop_zero] at hf
        split at hf
        · exact ⟨e.first, List.mem_singleton.1 hf⟩
        · cases hf

/-- A new object of 10 bytes in a bucket that prescribes 5 + 3 shards, and a further version of it. -/
example :
    (storeObject exCfg id (goodEnv { strategy := 1, ds := 5, ps := 3 }) exReq).1 = .ok 1 ∧
    recorded (goodEnv { strategy := 1, ds := 5, ps := 3 }) 1 ∧
    recorded { goodEnv {} with getMeta := .found ⟨1, 1⟩ } 2 ∧
    prescribedNumbers exCfg { strategy := 1, ds := 5, ps := 3 } 2 = (5, 3) := by
  refine ⟨by decide, .inl ⟨rfl, rfl⟩, .inr ⟨_, rfl, rfl⟩, by decide⟩

/-- **C60** (resumable uploads) In a writable bucket with a usable layout, a token is given out unless the
object is found; it is for erasure coding with the bucket's numbers if the bucket prescribes erasure coding, with
the server's otherwise. -/
theorem C60_big_token (cfg : Cfg) (sha : Str → Str) (env : StoreEnv) (digest : Str) (size : Int) (compress : Bool)
    (b : Bucket) (ds ps : Int) (hb : env.bucket = some b) (hro : b.readonly = false)
    (hc : (b.strategy = ecReedSolomon ∧ ds = b.ds ∧ ps = b.ps) ∨
      (b.strategy ≠ ecReedSolomon ∧ ds = cfg.rsDs ∧ ps = cfg.rsPs)) (hn : 0 ≤ ds + ps)
    (hloc : ∀ h n, locateObject n (env.evs h n) = .notFound) :
    bigPost cfg sha env digest size compress =
      (.token (uniqueHash sha digest ecReedSolomon ds ps (b.compress || compress)) ds ps, []) := by
  have hcc : (if b.compress then true else compress) = (b.compress || compress) := by
    cases b.compress <;> rfl
  have hm : b.makeConf cfg = (ds, ps) := by
    unfold Bucket.makeConf
    rcases hc with ⟨h, rfl, rfl⟩ | ⟨h, rfl, rfl⟩
    · rw [if_pos h]
    · rw [if_neg h]
  unfold bigPost
  rw [hb]
  simp only [hro, Bool.false_eq_true, if_false, hm, hloc, hcc]
  rw [if_neg (by omega)]

example : bigPost exCfg id (goodEnv { compress := true }) ['h'] 100 false =
    (.token (uniqueHash id ['h'] 1 4 2 true) 4 2, []) := by rfl

/-- **C60** (the end of a resumable upload) When the bucket cannot be read and this is noticed, nothing is
recorded.  When it is not noticed (see C54), an object that exists gets the version all the same, and the
request ends in a panic. -/
theorem C60_big_no_bucket (env : StoreEnv) (v : Ver) (hb : env.bucket = none) :
    (env.waitSees = true → finishUpload env v = (.err, [])) ∧
    (env.waitSees = false → ∀ e vn, env.getMeta = .found e → env.add = some vn →
      finishUpload env v = (.panic, [.add v])) := by
  unfold finishUpload
  rw [hb]
  refine ⟨fun h => by rw [h], fun h e vn hg ha => by rw [h, hg, ha]⟩

/-- **C60** (the end of a resumable upload) With all answers the version is recorded as it is. -/
theorem C60_big_recorded (env : StoreEnv) (v : Ver) (b : Bucket) (vn : Int) (hb : env.bucket = some b)
    (hrec : recorded env vn) :
    (finishUpload env v).1 = .ok vn ∧
    (∃ f, (finishUpload env v).2.take 1 = [f] ∧ f.ver? = some v) ∧
    ∀ f ∈ (finishUpload env v).2.drop 1, ∃ n, f = .remove n := by
  unfold finishUpload
  rw [hb]
  rcases hrec with ⟨hg, hs⟩ | ⟨e, hg, ha⟩
  · cases env.waitSees <;> rw [hg, hs] <;>
      exact ⟨rfl, ⟨_, rfl, rfl⟩, fun f hf => (nomatch hf)⟩
  · have key : (addVersion env b v e).1 = .ok vn ∧
        (∃ f, (addVersion env b v e).2.take 1 = [f] ∧ f.ver? = some v) ∧
        ∀ f ∈ (addVersion env b v e).2.drop 1, ∃ n, f = .remove n := by
      simp only [addVersion, ha]
      refine ⟨trivial, ⟨_, rfl, rfl⟩, fun f hf => ?_⟩
      simp only [List.singleton_append, List.drop_succ_cons, List.drop_zero] at hf
      split at hf
      · exact ⟨e.first, List.mem_singleton.1 hf⟩
      · cases hf
    cases env.waitSees <;> rw [hg] <;> exact key

example : (finishUpload { goodEnv {} with bucket := none } (bigVersion ['h'] 100 4 2 25 [])).2 = [] ∧
    (finishUpload { goodEnv {} with bucket := none, waitSees := false, getMeta := .found ⟨1, 1⟩ }
      (bigVersion ['h'] 100 4 2 25 [])).1 = .panic ∧
    (finishUpload (goodEnv {}) (bigVersion ['h'] 100 4 2 25 [])).1 = .ok 1 := by decide

end Verif.Api
