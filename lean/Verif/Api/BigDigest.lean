import Verif.Api.StoreMore
import Verif.Object.RSProps
import Verif.Object.Resume

/-!
# C135: digests of resumable uploads

With `Checksum` configured, the end of a resumable upload compares digests:
`BigObjectsController.finishUpload` (src/apiserver/internal/controller/http/big_api.go:205-219), `NewRSTempStream`
(src/apiserver/internal/usecase/service/rs_get_stream.go:74-84), `tempStream` (temp_stream.go), `crypto.SHA256IO`
(src/common/util/crypto/crypto.go:13-20) and the requests GET /temp/:name of the data servers
(src/objectserver/internal/controller/http/temp/temp_rest.go, `Get`, and middleware `FilterExpired`).
-/

namespace Verif.BigDigest

open Verif Verif.Object

/-! ## Model -/

/-- What GET /temp/:name delivers, by server and name; `none`: the request is answered with an error.  Entries are
kept under the id of the upload (temp_service.go:16-22), which `GenerateTempID` makes (lines 28-30). -/
abbrev Temps := Str → Str → Option Bytes

/-- The name of a shard, rs_get_stream.go:80. -/
def shardName (hash : Str) (i : Nat) : Str := hash ++ '.' :: fmtNat i

/-- The readers of `NewRSTempStream`, rs_get_stream.go:74-84: server `i` is asked for the *name* of shard `i`, and for
as many bytes as the shard has.  `none`: panic, because there are no data shards (line 78) or more servers than
shards (line 80). -/
def tempReaders (temps : Temps) (c : RsConfig) (size : Nat) (hash : Str) (locate : List Str) :
    Option (List (Option Bytes)) :=
  if c.dataShards = 0 ∨ c.allShards < locate.length then none
  else some ((List.range c.allShards).map fun i =>
    locate[i]?.bind fun a => (temps a (shardName hash i)).map (List.take (c.shardSize size)))

/-- `io.CopyBuffer` of the standard library, given the answers to its reads: it ends at the first error, which is
reported unless it is the end of the stream.  `none`: it has not ended; `some none`: an error. -/
def copied : List (Except RdErr Bytes) → Option (Option Bytes)
  | [] => none
  | .ok b :: rest => (copied rest).map (Option.map (b ++ ·))
  | .error .eof :: _ => some (some [])
  | .error _ :: _ => some none

/-- `SHA256IO`, crypto.go:13-20: the empty text after an error.  `none`: it has not ended. -/
def sha256IO (sha : Bytes → Str) (answers : List (Except RdErr Bytes)) : Option Str :=
  (copied answers).map fun o =>
    match o with
    | some b => sha b
    | none => []

inductive Verdict
  | passed
  | refused
  | panic
  deriving DecidableEq

/-- The comparison, big_api.go:207-218.  `n`: how many reads the copy loop makes at most, each with the buffer of
crypto.go:15.  No server fails between the reads of one comparison.  `none`: the loop has not ended. -/
def compare (sha : Bytes → Str) (temps : Temps) (c : RsConfig) (cod : Code c.dataShards c.parityShards) (buf n : Nat)
    (hash : Str) (size : Nat) (locate : List Str) : Option Verdict :=
  match tempReaders temps c size hash locate with
  | none => some .panic
  | some rs =>
    (sha256IO sha (Dec.reads c cod size (List.replicate n (buf, fun _ => false)) (.init rs)).1).map fun h =>
      if h = hash then .passed else .refused

/-- `finishUpload`, big_api.go:205-273: the comparison if it is configured, then the recording (`Api.finishUpload`). -/
def finish (checksum : Bool) (sha : Bytes → Str) (temps : Temps) (c : RsConfig)
    (cod : Code c.dataShards c.parityShards) (buf n : Nat) (env : Api.StoreEnv) (v : Api.Ver) :
    Option (Api.Res × List Api.Eff) :=
  if checksum then
    match compare sha temps c cod buf n v.hash v.size.toNat v.locate with
    | none => none
    | some .passed => some (Api.finishUpload env v)
    | some .refused => some (.err, [])
    | some .panic => some (.panic, [])
  else some (Api.finishUpload env v)

/-! ## Specification -/

/-- Something is recorded. -/
def Records (r : Api.Res × List Api.Eff) : Prop := ∃ f ∈ r.2, ∃ w, f.ver? = some w

/-- The ids of temp uploads: `TempInfo_` and a UUID; C86_temp_ids. -/
def IdsOnly (temps : Temps) : Prop := ∀ a n b, temps a n = some b → '.' ∉ n

/-- The full claim: with checksums, an upload that sent `content`, announced with digest `digest`, is recorded if and
only if the digest is right.  All requests are answered, all servers have the temp file of their shard, all its bytes
are in it, and the ids are known (`ids`); the version has the name that `Post` gave it. -/
def Statement : Prop :=
  ∀ (sha : Bytes → Str) (shaS : Str → Str) (c : RsConfig) (cod : Code c.dataShards c.parityShards)
    (content : Bytes) (digest : Str) (temps : Temps) (ids locate : List Str) (files : List Bytes) (buf n : Nat)
    (env : Api.StoreEnv) (b : Api.Bucket) (vn : Int) (r : Api.Res × List Api.Eff),
    (∀ x, sha x ≠ []) → Function.Injective sha → Function.Injective shaS → (∀ s, shaS s ≠ []) →
    0 < c.dataShards → 0 < c.blockPerShard → content ≠ [] → digest.length = (sha content).length →
    upload c cod [content] = some files → locate.length = c.allShards → ids.length = c.allShards →
    IdsOnly temps → (∀ i, i < c.allShards → temps (locate.getD i []) (ids.getD i []) = some (files.getD i [])) →
    env.bucket = some b → Api.recorded env vn →
    finish true sha temps c cod buf n env (Api.bigVersion
      (Api.uniqueHash shaS digest Api.ecReedSolomon c.dataShards c.parityShards false)
      content.length c.dataShards c.parityShards (c.shardSize content.length) locate) = some r →
    (Records r ↔ sha content = digest)

/-! ## Lemmas -/

theorem dot_mem (hash : Str) (i : Nat) : '.' ∈ shardName hash i := by simp [shardName]

theorem readers_none {temps : Temps} (hi : IdsOnly temps) {c : RsConfig} {size : Nat} {hash : Str} {locate : List Str}
    {rs : List (Option Bytes)} (h : tempReaders temps c size hash locate = some rs) :
    0 < c.dataShards ∧ rs = List.replicate c.allShards none := by
  unfold tempReaders at h
  split at h
  · cases h
  · rename_i hn
    refine ⟨by omega, ?_⟩
    cases h
    apply List.eq_replicate_iff.2
    refine ⟨by simp, fun x hx => ?_⟩
    obtain ⟨i, _, rfl⟩ := List.mem_map.1 hx
    cases locate[i]? with
    | none => rfl
    | some a =>
      cases ht : temps a (shardName hash i) with
      | none => simp [ht]
      | some b => exact absurd (dot_mem hash i) (hi _ _ _ ht)

theorem present_replicate_none (n : Nat) : presentCount (List.replicate n (none : Option Bytes)) = 0 := by
  unfold presentCount
  rw [List.countP_replicate]
  simp

/-- Without any shard the copying ends with an error at once, unless there is nothing to read. -/
theorem copied_nothing {c : RsConfig} (cod : Code c.dataShards c.parityShards) (hk : 0 < c.dataShards) (size buf n : Nat) :
    copied (Dec.reads c cod size (List.replicate (n + 1) (buf, fun _ => false))
      (.init (List.replicate c.allShards none))).1 = some (if size = 0 then some [] else none) := by
  rw [List.replicate_succ, Dec.reads]
  by_cases h : size = 0
  · subst h
    rfl
  · have hb : Broken c size (.init (List.replicate c.allShards none)) :=
      ⟨by rw [show (Dec.init (List.replicate c.allShards none)).readers = List.replicate c.allShards none from rfl,
        present_replicate_none]; exact hk, rfl, Nat.pos_of_ne_zero h⟩
    obtain ⟨⟨e, he⟩, _⟩ := broken_read (cod := cod) hb buf (fun _ => false)
    simp only [he, copied, if_neg h]

theorem copied_ok (l : List (Except RdErr Bytes)) (h : ∀ a ∈ l, a = .error .eof ∨ ∃ b, a = .ok b)
    (he : .error .eof ∈ l) : ∃ b, copied l = some (some b) := by
  induction l with
  | nil => cases he
  | cons a l ih =>
    rcases h a (List.mem_cons_self ..) with rfl | ⟨b, rfl⟩
    · exact ⟨[], rfl⟩
    · obtain ⟨b', hb'⟩ := ih (fun a ha => h a (List.mem_cons_of_mem _ ha)) (by simpa using he)
      exact ⟨b ++ b', by rw [copied, hb']; rfl⟩

/-! ## C135 -/

/-- **C135** With checksums configured no resumable upload is ever recorded: the servers are asked for the names of
shards, but keep temp uploads under their ids, so nothing can be read, and the digest of nothing is the empty text.
This holds for every content, every state of the data servers, every answer of the metadata servers - also when the
content was found (big_api.go:63-81) - and every token whose name is not empty (and not the digest of no bytes, in
case it is for an upload of no bytes).  So nothing whose digest is wrong is recorded either, which is the half of the
claim that holds; missing is the other half (`C135_statement_fails`). -/
theorem C135_never_recorded_partial (sha : Bytes → Str) (temps : Temps) (hi : IdsOnly temps) (c : RsConfig)
    (cod : Code c.dataShards c.parityShards) (buf n : Nat) (env : Api.StoreEnv) (v : Api.Ver) (hh : v.hash ≠ [])
    (h0 : v.size.toNat = 0 → sha [] ≠ v.hash) :
    ∃ r, finish true sha temps c cod buf (n + 1) env v = some r ∧ r.2 = [] ∧ r.1 ≠ .ok 0 ∧ ∀ vn, r.1 ≠ .ok vn := by
  unfold finish compare
  simp only [↓reduceIte]
  cases hr : tempReaders temps c v.size.toNat v.hash v.locate with
  | none => exact ⟨_, rfl, rfl, by simp, by simp⟩
  | some rs =>
    obtain ⟨hk, rfl⟩ := readers_none hi hr
    simp only [sha256IO, copied_nothing cod hk, Option.map_some]
    by_cases h : v.size.toNat = 0
    · simp only [if_pos h, if_neg (h0 h)]
      exact ⟨_, rfl, rfl, by simp, by simp⟩
    · simp only [if_neg h, if_neg (Ne.symm hh)]
      exact ⟨_, rfl, rfl, by simp, by simp⟩

/-- **C135** A token with more servers than shards, or an object without data shards, makes the comparison panic. -/
theorem C135_panics (sha : Bytes → Str) (temps : Temps) (c : RsConfig) (cod : Code c.dataShards c.parityShards) (buf n : Nat)
    (env : Api.StoreEnv) (v : Api.Ver) :
    finish true sha temps c cod buf n env v = some (.panic, []) ↔ c.dataShards = 0 ∨ c.allShards < v.locate.length ∨
      ∃ rs, tempReaders temps c v.size.toNat v.hash v.locate = some rs ∧
        (sha256IO sha (Dec.reads c cod v.size.toNat (List.replicate n (buf, fun _ => false)) (.init rs)).1) = some v.hash ∧
        Api.finishUpload env v = (.panic, []) := by
  unfold finish compare
  simp only [↓reduceIte]
  by_cases h : c.dataShards = 0 ∨ c.allShards < v.locate.length
  · have : tempReaders temps c v.size.toNat v.hash v.locate = none := by unfold tempReaders; rw [if_pos h]
    simp only [this]
    rcases h with h | h <;> simp [h]
  · have : ∃ rs, tempReaders temps c v.size.toNat v.hash v.locate = some rs := by
      unfold tempReaders; rw [if_neg h]; exact ⟨_, rfl⟩
    obtain ⟨rs, hrs⟩ := this
    have h1 : ¬ c.dataShards = 0 := fun x => h (.inl x)
    have h2 : ¬ c.allShards < v.locate.length := fun x => h (.inr x)
    simp only [hrs, h1, h2, false_or, Option.some.injEq, exists_eq_left']
    cases sha256IO sha (Dec.reads c cod v.size.toNat (List.replicate n (buf, fun _ => false)) (.init rs)).1 with
    | none => simp
    | some x =>
      by_cases hx : x = v.hash
      · simp [hx]
      · simp [hx]

/-- **C135** The request that completes an upload is then refused, and the temp uploads are deleted: whatever the
client sent is lost. -/
theorem C135_upload_lost (sha : Bytes → Str) (temps : Temps) (hi : IdsOnly temps) (c : RsConfig)
    (cod : Code c.dataShards c.parityShards) (buf n size : Nat) (env : Api.StoreEnv) (v : Api.Ver) (hh : v.hash ≠ [])
    (hs : v.size.toNat = size) (hz : 0 < size) (r : Api.Res × List Api.Eff)
    (hr : finish true sha temps c cod buf (n + 1) env v = some r) (s : Sess) (u : Up) :
    let recordOk := match r.1 with | .ok _ => true | _ => false
    (s.conclude size (encodeBlock cod) okEnv recordOk size u).1 = .refused ∧
    (s.conclude size (encodeBlock cod) okEnv recordOk size u).2.recorded = s.recorded ∧
    (s.conclude size (encodeBlock cod) okEnv recordOk size u).2.gone = (u.abort (encodeBlock cod) okEnv).2 := by
  obtain ⟨r', h1, _, _, h2⟩ := C135_never_recorded_partial sha temps hi c cod buf n env v hh (by omega)
  rw [hr] at h1
  cases h1
  have hf : (match r.1 with | .ok _ => true | _ => false) = false := by
    cases hx : r.1 with
    | ok vn => exact absurd hx (h2 vn)
    | err => rfl
    | panic => rfl
  dsimp only
  rw [hf]
  simp [Sess.conclude]

/-- The digest of the samples. -/
def exSha (b : Bytes) : Str := 'x' :: b.map fun x => Char.ofNat x.toNat

/-- Two data servers and one for parity, each with the temp upload of its shard under an id. -/
def exTemps : Temps := fun a n =>
  if a = ['p'] ∧ n = ['T', '0'] then some [1] else if a = ['q'] ∧ n = ['T', '1'] then some [2]
  else if a = ['r'] ∧ n = ['T', '2'] then some [3] else none

theorem exTemps_ids : IdsOnly exTemps := by
  intro a n b h
  unfold exTemps at h
  grind

def exVer (digest : Str) : Api.Ver :=
  Api.bigVersion (Api.uniqueHash ('y' :: ·) digest Api.ecReedSolomon 2 1 false) 2 2 1 1 [['p'], ['q'], ['r']]

/-- The hypotheses hold in the sample, with the right digest and all bytes on the servers; the upload is refused. -/
example : IdsOnly exTemps ∧ (exVer (exSha [1, 2])).hash ≠ [] ∧ upload ⟨2, 1, 1⟩ xorCode [[1, 2]] = some [[1], [2], [3]] ∧
    finish true exSha exTemps ⟨2, 1, 1⟩ xorCode 4 1 (Api.goodEnv {}) (exVer (exSha [1, 2])) = some (.err, []) :=
  ⟨exTemps_ids, by decide, by rfl, by rfl⟩

/-- A token that names four servers for three shards. -/
example : finish true exSha exTemps ⟨2, 1, 1⟩ xorCode 4 1 (Api.goodEnv {})
    { exVer (exSha [1, 2]) with locate := [['p'], ['q'], ['r'], ['p']] } = some (.panic, []) :=
  (C135_panics ..).2 (.inr (.inl (by decide)))

/-- And in the sample the temp uploads are deleted. -/
example : ((Sess.start ⟨2, 1, 1⟩).run 4096 ⟨2, 1, 1⟩ 2 (encodeBlock xorCode) okEnv [⟨0, [[1, 2]], false⟩]).map
    (fun r => (r.1, r.2.gone)) = some ([.refused], true) := by rfl

theorem exSha_inj : Function.Injective exSha := by
  intro a b h
  have h' := (List.cons.inj h).2
  refine List.map_injective_iff.2 ?_ h'
  intro x y hxy
  have hv : ∀ z : UInt8, (Char.ofNat z.toNat).toNat = z.toNat := by
    intro z
    have hz := z.toNat_lt
    have hvalid : z.toNat.isValidChar := Or.inl (by omega)
    unfold Char.ofNat
    rw [dif_pos hvalid]
    simp only [Char.toNat, Char.ofNatAux]
    rfl
  have := congrArg Char.toNat hxy
  rw [hv, hv] at this
  exact UInt8.toNat_inj.1 this

/-- **C135** The full claim fails. -/
theorem C135_statement_fails : ¬ Statement := by
  intro h
  have := h exSha ('y' :: ·) ⟨2, 1, 1⟩ xorCode [1, 2] (exSha [1, 2]) exTemps [['T', '0'], ['T', '1'], ['T', '2']]
    [['p'], ['q'], ['r']] [[1], [2], [3]] 4 1 (Api.goodEnv {}) {} 1 (.err, []) (by intro x; simp [exSha]) exSha_inj
    (by intro a b h; exact (List.cons.inj h).2) (by intro s; simp) (by decide) (by decide) (by decide) rfl (by rfl) rfl rfl
    exTemps_ids (by decide) rfl (Or.inl ⟨rfl, rfl⟩) (by rfl)
  obtain ⟨f, hf, _⟩ := this.2 rfl
  cases hf

/-- **C135** Without checksums the content is not looked at: what is recorded does not depend on what the data servers
hold. -/
theorem C135_unverified (sha sha' : Bytes → Str) (temps temps' : Temps) (c : RsConfig)
    (cod : Code c.dataShards c.parityShards) (buf n : Nat) (env : Api.StoreEnv) (v : Api.Ver) :
    finish false sha temps c cod buf n env v = some (Api.finishUpload env v) ∧
    finish false sha temps c cod buf n env v = finish false sha' temps' c cod buf n env v := ⟨rfl, rfl⟩

/-- The bucket and the configuration of the next sample: erasure coding with two data shards and one for parity. -/
def exBucket : Api.Bucket := { strategy := 1, ds := 2, ps := 1, remains := 5 }

/-- All servers have the shards with this name. -/
def exFound (_ : Str) (_ : Nat) : List Api.Ev := [.answers [['p', '#', '0'], ['q', '#', '1'], ['r', '#', '2']]]

set_option maxRecDepth 100000 in
/-- **C135** Without checksums somebody who knows the digest of a content can replace it.  They announce the digest of
`[1, 2]`, send `[9, 8]`, and the upload is completed, recorded and committed under the name of `[1, 2]`.  A PUT of
`[1, 2]` finds that name, sends nothing, and is recorded; its GET delivers `[9, 8]`. -/
theorem C135_poisons :
    -- the attacker is given the name of the content
    (Api.bigPost { Api.exCfg with distinct := 0 } ('y' :: ·) (Api.goodEnv exBucket) (exSha [1, 2]) 2 false).1 =
      .token (exVer (exSha [1, 2])).hash 2 1 ∧
    -- they complete the upload with another content
    ((Sess.start ⟨2, 1, 1⟩).run 4096 ⟨2, 1, 1⟩ 2 (encodeBlock xorCode) okEnv [⟨0, [[9, 8]], true⟩]).map
      (fun r => (r.1, r.2.srvs.map (·.final))) = some ([.done], [some [[9]], some [[8]], some [[1]]]) ∧
    -- the owner of the content stores it without sending it
    (Api.storeObject { Api.exCfg with distinct := 0 } ('y' :: ·) { Api.goodEnv exBucket with evs := exFound }
      { compress := false, hash := exSha [1, 2], strategy := 1, size := 2 }) =
      (.ok 1, [.save (exVer (exSha [1, 2]))]) ∧
    -- and reads the other content
    received (Dec.reads ⟨2, 1, 1⟩ xorCode 2 [(5, fun _ => false), (5, fun _ => false)]
      (.init [some [9], some [8], some [1]])).1 = [9, 8] := by
  refine ⟨by rfl, by rfl, by rfl, by rfl⟩

/-- **C135** An error of reading counts as the empty digest.  Tokens are not protected (C92), so a client may send one
with an empty name: the comparison then passes without a byte having been read. -/
theorem C135_empty_name (sha : Bytes → Str) (temps : Temps) (hi : IdsOnly temps) (c : RsConfig)
    (cod : Code c.dataShards c.parityShards) (hk : 0 < c.dataShards) (buf n : Nat) (env : Api.StoreEnv) (v : Api.Ver)
    (hh : v.hash = []) (hs : 0 < v.size) (hl : v.locate.length ≤ c.allShards) :
    finish true sha temps c cod buf (n + 1) env v = some (Api.finishUpload env v) := by
  unfold finish compare
  simp only [↓reduceIte]
  cases hr : tempReaders temps c v.size.toNat v.hash v.locate with
  | none =>
    unfold tempReaders at hr
    rw [if_neg (by omega)] at hr
    cases hr
  | some rs =>
    obtain ⟨_, rfl⟩ := readers_none hi hr
    have : v.size.toNat ≠ 0 := by omega
    simp only [sha256IO, copied_nothing cod hk, Option.map_some, if_neg this, if_pos hh.symm]

example : finish true exSha exTemps ⟨2, 1, 1⟩ xorCode 4 1 (Api.goodEnv {}) { exVer [] with hash := [] } =
    some (.ok 1, [.save { exVer [] with hash := [] }]) := by rfl

/-! ## Repair -/

/-- A repaired comparison: the temp uploads are read by their ids, after the last block was written, and the name is
made again of the digest of what was read. -/
def compareFixed (sha : Bytes → Str) (shaS : Str → Str) (temps : Temps) (c : RsConfig)
    (cod : Code c.dataShards c.parityShards) (buf n : Nat) (hash : Str) (size : Nat) (locate ids : List Str)
    (compress : Bool) : Option Verdict :=
  let rs := (List.range c.allShards).map fun i => temps (locate.getD i []) (ids.getD i [])
  (sha256IO sha (Dec.reads c cod size (List.replicate n (buf, fun _ => false)) (.init rs)).1).map fun h =>
    if Api.uniqueHash shaS h Api.ecReedSolomon c.dataShards c.parityShards compress = hash then .passed else .refused

theorem reads_take {c : RsConfig} {cod : Code c.dataShards c.parityShards} {size : Nat} (l : List (Nat × (Nat → Bool)))
    (m : Nat) (d : Dec) : (Dec.reads c cod size (l.take m) d).1 = (Dec.reads c cod size l d).1.take m := by
  induction l generalizing m d with
  | nil => simp [Dec.reads]
  | cons q l ih =>
    cases m with
    | zero => simp [Dec.reads]
    | succ m => simp only [List.take_succ_cons, Dec.reads, ih]

/-- What was copied is what was received up to the end of the stream. -/
theorem copied_take (l : List (Except RdErr Bytes)) (b : Bytes) (h : copied l = some (some b)) :
    ∃ m, .error .eof ∈ l.take m ∧ received (l.take m) = b := by
  induction l generalizing b with
  | nil => cases h
  | cons a l ih =>
    cases a with
    | ok x =>
      simp only [copied] at h
      cases hc : copied l with
      | none => rw [hc] at h; cases h
      | some o =>
        cases o with
        | none => rw [hc] at h; cases h
        | some y =>
          rw [hc] at h
          simp only [Option.map_some, Option.some.injEq] at h
          obtain ⟨m, h1, h2⟩ := ih y hc
          exact ⟨m + 1, by simpa using h1, by rw [List.take_succ_cons, received, h2, h]⟩
    | error e =>
      cases e with
      | eof =>
        simp only [copied, Option.some.injEq] at h
        exact ⟨1, by simp, by simp [received, h]⟩
      | overRead => cases h
      | rs e => cases h

/-- Reading temp uploads that hold the shards of a content gives the content. -/
theorem copied_files (c : RsConfig) (cod : Code c.dataShards c.parityShards) (hk : 0 < c.dataShards)
    (hb : 0 < c.blockPerShard) (content : Bytes) (files : List Bytes) (hu : upload c cod [content] = some files)
    (buf n : Nat) (hbuf : 0 < buf) (hn : content.length < n) :
    copied (Dec.reads c cod content.length (List.replicate n (buf, fun _ => false)) (.init (files.map some))).1 =
      some (some content) := by
  have hlen : files.length = c.allShards := by
    obtain ⟨f', h1, h2, _⟩ := C35_shard_size c cod hk hb [content]
    rw [hu] at h1
    cases h1
    exact h2
  have hkill : killReaders (fun _ => false) (files.map some) = files.map some := by
    apply List.ext_getElem?
    intro i
    rw [killReaders, List.getElem?_mapIdx]
    cases (files.map some)[i]? <;> simp
  have hcount : presentCount (files.map some) = files.length := by
    unfold presentCount
    rw [List.countP_map]
    exact List.countP_eq_length.2 (by simp)
  have hs : ∀ m, _ := fun m => C34_survives c cod hk hb [content] files hu (files.map some)
    ⟨by simp, fun i x hx => by simpa using hx⟩ (fun _ => false)
    (by rw [hkill, hcount, hlen]; exact Nat.le_add_right ..)
    ((List.replicate n (buf, fun _ => false)).take m)
    (by intro q hq; rw [List.eq_of_mem_replicate (List.mem_of_mem_take hq)]; simp)
  simp only [List.flatten_cons, List.flatten_nil, List.append_nil, reads_take] at hs
  obtain ⟨h1, _, h3⟩ := hs n
  have hfull : ∀ d, (Dec.reads c cod content.length (List.replicate n (buf, fun _ => false)) d).1.take n =
      (Dec.reads c cod content.length (List.replicate n (buf, fun _ => false)) d).1 := by
    intro d
    rw [← reads_take, List.take_of_length_le (by simp)]
  rw [hfull] at h1 h3
  have heof := h3 (by intro q hq; rw [List.eq_of_mem_replicate (List.mem_of_mem_take hq)]; exact hbuf) (by simpa using hn)
  obtain ⟨b, hcop⟩ := copied_ok _ h1 heof
  obtain ⟨m, hm1, hm2⟩ := copied_take _ _ hcop
  rw [hcop, ← hm2, (hs m).2.1 hm1]

/-- **C135** (repair) The repaired comparison ends, and passes if and only if the content has the announced digest,
for every content, layout and digest of the same length, when the hash of names has no collision. -/
theorem C135_repair (sha : Bytes → Str) (shaS : Str → Str) (hS : Function.Injective shaS) (temps : Temps)
    (c : RsConfig) (cod : Code c.dataShards c.parityShards) (hk : 0 < c.dataShards) (hb : 0 < c.blockPerShard)
    (content : Bytes) (digest : Str) (hlen : digest.length = (sha content).length) (files : List Bytes)
    (hu : upload c cod [content] = some files) (locate ids : List Str)
    (ht : ∀ i, i < c.allShards → temps (locate.getD i []) (ids.getD i []) = some (files.getD i []))
    (compress : Bool) (buf n : Nat) (hbuf : 0 < buf) (hn : content.length < n) :
    compareFixed sha shaS temps c cod buf n
      (Api.uniqueHash shaS digest Api.ecReedSolomon c.dataShards c.parityShards compress) content.length locate ids
      compress = some (if sha content = digest then .passed else .refused) := by
  have hlf : files.length = c.allShards := by
    obtain ⟨f', h1, h2, _⟩ := C35_shard_size c cod hk hb [content]
    rw [hu] at h1
    cases h1
    exact h2
  have hrs : ((List.range c.allShards).map fun i => temps (locate.getD i []) (ids.getD i [])) = files.map some := by
    apply List.ext_getElem?
    intro i
    rw [List.getElem?_map, List.getElem?_map]
    by_cases hi : i < c.allShards
    · rw [List.getElem?_range hi, Option.map_some, ht i hi, List.getElem?_eq_getElem (by omega)]
      simp [List.getD, List.getElem?_eq_getElem (show i < files.length by omega)]
    · rw [List.getElem?_eq_none (by simp; omega), List.getElem?_eq_none (by omega)]
      rfl
  unfold compareFixed
  dsimp only
  rw [hrs, sha256IO, copied_files c cod hk hb content files hu buf n hbuf hn]
  simp only [Option.map_some, Option.some.injEq]
  by_cases h : sha content = digest
  · rw [h]
    simp
  · have hne : Api.uniqueHash shaS (sha content) Api.ecReedSolomon c.dataShards c.parityShards compress ≠
        Api.uniqueHash shaS digest Api.ecReedSolomon c.dataShards c.parityShards compress := by
      intro he
      rcases Api.C42_same_key_partial shaS ⟨sha content, Api.ecReedSolomon, c.dataShards, c.parityShards, compress⟩
        ⟨digest, Api.ecReedSolomon, c.dataShards, c.parityShards, compress⟩ hlen.symm he with h1 | ⟨h1, h2⟩
      · exact h h1.1
      · exact h1 (hS h2)
    rw [if_neg hne, if_neg h]

/-- The repaired comparison in the sample, with the right digest and with another one. -/
example :
    compareFixed exSha ('y' :: ·) exTemps ⟨2, 1, 1⟩ xorCode 4 3 (exVer (exSha [1, 2])).hash 2 [['p'], ['q'], ['r']]
      [['T', '0'], ['T', '1'], ['T', '2']] false = some .passed ∧
    compareFixed exSha ('y' :: ·) exTemps ⟨2, 1, 1⟩ xorCode 4 3 (exVer (exSha [1, 3])).hash 2 [['p'], ['q'], ['r']]
      [['T', '0'], ['T', '1'], ['T', '2']] false = some .refused := ⟨by rfl, by rfl⟩

/-- **C135** (reading by ids alone is no repair) The comparison is made before `Commit` writes the last block
(rs_put_stream.go:48-68), and it compares the digest of the content with the *name*, which is the digest of another
text.  A server that handed out its temp upload also under the name of the shard would still lead to a refusal: the
digest would have to be the name, and that means that content and name text have the same digest. -/
theorem C135_names_alone (sha : Bytes → Str) (temps : Temps) (c : RsConfig)
    (cod : Code c.dataShards c.parityShards) (hk : 0 < c.dataShards) (hb : 0 < c.blockPerShard) (content : Bytes)
    (files : List Bytes) (hu : upload c cod [content] = some files) (hash : Str) (locate : List Str)
    (hl : locate.length = c.allShards)
    (ht : ∀ i, i < c.allShards → temps (locate.getD i []) (shardName hash i) = some (files.getD i []))
    (buf n : Nat) (hbuf : 0 < buf) (hn : content.length < n) :
    compare sha temps c cod buf n hash content.length locate =
      some (if sha content = hash then .passed else .refused) := by
  obtain ⟨f', h1, hlf, hsz⟩ := C35_shard_size c cod hk hb [content]
  rw [hu] at h1
  cases h1
  have hrs : tempReaders temps c content.length hash locate = some (files.map some) := by
    unfold tempReaders
    rw [if_neg (by omega)]
    congr 1
    apply List.ext_getElem?
    intro i
    rw [List.getElem?_map, List.getElem?_map]
    by_cases hi : i < c.allShards
    · have hif : i < files.length := by omega
      have hil : i < locate.length := by omega
      have := ht i hi
      simp only [List.getD, List.getElem?_eq_getElem hil, List.getElem?_eq_getElem hif, Option.getD_some] at this
      rw [List.getElem?_range hi, Option.map_some, List.getElem?_eq_getElem hil, List.getElem?_eq_getElem hif]
      simp only [Option.bind_some, this, Option.map_some]
      congr 2
      apply List.take_of_length_le
      have := hsz _ (List.getElem_mem hif)
      simp only [List.flatten_cons, List.flatten_nil, List.append_nil] at this
      omega
    · rw [List.getElem?_eq_none (by simp; omega), List.getElem?_eq_none (by omega)]
      rfl
  unfold compare
  rw [hrs]
  dsimp only
  rw [sha256IO, copied_files c cod hk hb content files hu buf n hbuf hn]
  rfl

/-- In the sample: the server knows the names, all bytes are there, the digest is right, and the upload is refused. -/
example : compare exSha (fun a n => if a = ['p'] ∧ n = shardName (exVer (exSha [1, 2])).hash 0 then some [1]
      else if a = ['q'] ∧ n = shardName (exVer (exSha [1, 2])).hash 1 then some [2]
      else if a = ['r'] ∧ n = shardName (exVer (exSha [1, 2])).hash 2 then some [3] else none)
    ⟨2, 1, 1⟩ xorCode 4 3 (exVer (exSha [1, 2])).hash 2 [['p'], ['q'], ['r']] = some .refused := by rfl

end Verif.BigDigest
