import Verif.Api.MetaRpc
import Verif.Api.ErrorProps

/-!
# What the API server saves it reads back (C75)
-/

namespace Verif.Api.MetaRpc

open Verif Verif.Msgp Verif.Api.Errors

/-! ## Specification -/

/-- The numbers are in the range of their Go types, the lengths fit 32 bits. -/
def EVersion.Typed (v : EVersion) : Prop :=
  InInt8 v.storeStrategy ∧ InInt64 v.size ∧ InInt64 v.shardSize ∧ InInt64 v.dataShards ∧
  InInt64 v.parityShards ∧ LenOk v.hash ∧ LenOk v.locate ∧ ∀ l ∈ v.locate, LenOk l

def EBucket.Typed (b : EBucket) : Prop :=
  InInt8 b.storeStrategy ∧ InInt64 b.dataShards ∧ InInt64 b.parityShards ∧ InInt64 b.versionRemains ∧
  LenOk b.name ∧ LenOk b.policies ∧ ∀ l ∈ b.policies, LenOk l

/-- The numbers of shards fit 32 bits. -/
def EVersion.Small (v : EVersion) : Prop := InInt32 v.dataShards ∧ InInt32 v.parityShards

/-- Nothing the metadata server requires is missing: no zero, no empty text or list. -/
def EVersion.Complete (v : EVersion) : Prop :=
  v.storeStrategy ≠ 0 ∧ v.dataShards ≠ 0 ∧ v.shardSize ≠ 0 ∧ v.size ≠ 0 ∧ v.hash ≠ [] ∧ v.locate ≠ []

/-- The generated id: not empty and not in use. -/
def FreshId (s : Meta.Store) (uid : Str) : Prop :=
  uid ≠ [] ∧ LenOk uid ∧ Meta.existsByUniqueId s uid = false

/-- Fewer than 2^31 - 1 version numbers of the object were handed out. -/
def FewVersions (s : Meta.Store) (id : Str) : Prop :=
  ∀ b, s.vers.get id = some b → b.seq + 1 < 2147483648

/-- Full statement: saving a version of an existing object succeeds, and reading the number that
was answered returns the version. -/
def C75_statement : Prop :=
  ∀ (s : Meta.Store) (id : Str) (m : Meta.Metadata) (v : EVersion) (now : Int) (uid : Str),
    Meta.Reachable s → Meta.getMeta s id = .ok m → id.length ≤ 32000 → v.Typed → InInt64 now →
    FreshId s uid → FewVersions s id →
    ∃ n s', saveVersion now uid s id v = (.ok n, s') ∧
      getVersion s' id n = .ok { v with sequence := n, ts := now }

/-! ## Conversions -/

theorem strOf_bytesOf (s : Str) : strOf (bytesOf s) = s := by
  simp [strOf, bytesOf, Function.comp_def]

theorem strOfs_bytesOf (l : List Str) : (l.map bytesOf).map strOf = l := by
  simp [Function.comp_def, strOf_bytesOf]

theorem lenOk_bytesOf {s : Str} (h : LenOk s) : LenOk (bytesOf s) := by
  simpa [LenOk, bytesOf] using h

theorem lenOks {l : List Str} (h : LenOk l) (h' : ∀ s ∈ l, LenOk s) :
    LenOk (l.map bytesOf) ∧ ∀ s ∈ l.map bytesOf, LenOk s := by
  refine ⟨by simpa [LenOk] using h, fun s hs => ?_⟩
  obtain ⟨t, ht, rfl⟩ := List.mem_map.1 hs
  exact lenOk_bytesOf (h' t ht)

theorem toInt32_range (i : Int) : InInt32 (toInt32 i) := by
  have := twos_lt 32 i
  unfold toInt32 signed InInt32
  split <;> omega

theorem toInt32_id {i : Int} (h : InInt32 i) : toInt32 i = i := signed_twos32 i h.1 h.2

theorem int32_64 {i : Int} (h : InInt32 i) : InInt64 i := by
  unfold InInt32 at h; unfold InInt64; omega

theorem zero64 : InInt64 0 := by unfold InInt64; omega

theorem msgOf_ok {v : EVersion} (h : v.Typed) : (msgOf v).Ok := by
  obtain ⟨h1, h2, h3, h4, h5, h6, h7, h8⟩ := h
  exact ⟨h1, toInt32_range _, toInt32_range _, h3, h2, zero64, by show (0 : Nat) < _; decide,
    lenOk_bytesOf h6, by show (0 : Nat) < _; decide, lenOks h7 h8⟩

theorem msgOfB_ok {b : EBucket} (h : b.Typed) : (msgOfB b).Ok := by
  obtain ⟨h1, h2, h3, h4, h5, h6, h7⟩ := h
  exact ⟨h1, toInt32_range _, toInt32_range _, toInt32_range _, zero64, zero64,
    lenOk_bytesOf h5, lenOks h6 h7⟩

theorem decode_encode {α : Type} {app : α → Bytes} {read : α → Bytes → R α} {ok : α → Prop}
    (h : RoundTrip app read ok whole) {v : α} (hv : ok v) (z : α) :
    decodeMsgp read z (encodeMsgp app v) = some v := by
  simpa [whole] using h v hv z []

theorem bind_encode {α : Type} {app : α → Bytes} {read : α → Bytes → R α} {ok : α → Prop}
    (h : RoundTrip app read ok whole) {v : α} (hv : ok v) (z : α) (valid : α → Bool) :
    bind read z valid (encodeMsgp app v) = if valid v then .ok v else .error (invalidBody []) := by
  rw [bind, decode_encode h hv]

/-! ## Errors -/

/-- The error is an error for the client. -/
def Real (e : GoErr) : Prop := (wire e).1 ≠ .ok

theorem real_meta (r : Rpc) (e : Meta.Err) : Real (handlerErr r (ofMeta e)) := by
  cases r <;> cases e <;> (unfold Real; decide)

theorem real_invalid (m : Str) : Real (.status .invalidArgument m) := by simp [Real, wire]

theorem real_bad (m : Str) : Real (badBody m) := by simp [Real, badBody, grpcError, wire]

theorem real_invalidBody (m : Str) : Real (invalidBody m) := by
  simp [Real, invalidBody, grpcError, wire]

theorem real_bind {α : Type} {read : α → Bytes → R α} {z : α} {valid : α → Bool} {b : Bytes} {e : GoErr}
    (h : bind read z valid b = .error e) : Real e := by
  unfold bind at h
  split at h
  · cases h; exact real_bad _
  · split at h
    · cases h
    · cases h; exact real_invalidBody _

theorem call_real {α : Type} {e : GoErr} (h : Real e) (r : Rpc) (d : α) :
    ∃ e', call r d (.error e) = .error e' := by
  unfold Real at h
  show ∃ e', (match clientErr r (wire e) with
    | some e' => .error e'
    | none => .ok d) = Except.error e'
  revert h
  generalize wire e = w
  obtain ⟨c, m⟩ := w
  intro h
  cases c <;> first | exact absurd rfl h | (cases r <;> exact ⟨_, rfl⟩)

theorem call_ok {α : Type} {r : Rpc} {d a : α} {x : Except GoErr α} (hx : ∀ e, x = .error e → Real e)
    (h : call r d x = .ok a) : x = .ok a := by
  cases x with
  | ok b => exact h
  | error e =>
    obtain ⟨e', he⟩ := call_real (hx e rfl) r d
    rw [he] at h; cases h

/-! ## The server -/

theorem addVer_cases (s : Meta.Store) (id : Str) (d : Meta.Version) :
    (∃ q s', Meta.step s (.addVer id d) = (.seq q, s')) ∨ ∃ e, Meta.step s (.addVer id d) = (.err e, s) := by
  generalize hs : Meta.step s (.addVer id d) = r
  obtain ⟨r, t⟩ := r
  have hs' := hs
  simp only [Meta.step] at hs
  split at hs <;> cases hs
  · exact .inl ⟨_, _, rfl⟩
  · rw [Meta.C24_error_changes_nothing hs' (.inl ⟨_, rfl⟩)]
    exact .inr ⟨_, rfl⟩

theorem unit_cases (fn : Meta.Tx Unit) (s : Meta.Store) :
    (∃ s', (Meta.Res.ofUnit (Meta.update fn s).1, (Meta.update fn s).2) = (.ok, s')) ∨
    ∃ e, (Meta.Res.ofUnit (Meta.update fn s).1, (Meta.update fn s).2) = (.err e, s) := by
  rcases Meta.update_cases fn s with ⟨e, hu, _⟩ | ⟨a, t, _, hu⟩
  · exact .inr ⟨e, by rw [hu]; rfl⟩
  · exact .inl ⟨t, by rw [hu]; rfl⟩

/-- What `SaveVersion` did when it succeeded, and that it did nothing when it failed. -/
theorem srvSaveVersion_cases (now : Int) (uid : Str) (s : Meta.Store) (id : Str) (b : Bytes) :
    (∃ m q s', bind readVersion {} validVersion b = .ok m ∧
      Meta.step s (.addVer id { metaOf m with uniqueId := uid, ts := now }) = (.seq q, s') ∧
      srvSaveVersion now uid s id b = (.ok (toInt32 q), s')) ∨
    ∃ e, Real e ∧ srvSaveVersion now uid s id b = (.error e, s) := by
  unfold srvSaveVersion
  by_cases hid : id = []
  · rw [if_pos hid]; exact .inr ⟨_, real_invalid _, rfl⟩
  · rw [if_neg hid]
    cases hb : bind readVersion {} validVersion b with
    | error e => exact .inr ⟨_, real_bind hb, rfl⟩
    | ok m =>
      rcases addVer_cases s id { metaOf m with uniqueId := uid, ts := now } with ⟨q, s', h⟩ | ⟨e, h⟩
      · simp only [h]; exact .inl ⟨m, q, s', rfl, h, rfl⟩
      · simp only [h]; exact .inr ⟨_, real_meta .saveVersion e, rfl⟩

theorem srvSaveBucket_cases (now : Int) (s : Meta.Store) (id : Str) (b : Bytes) :
    (∃ m s', bind readBucket {} (fun _ => true) b = .ok m ∧
      Meta.step s (.bucketCreate { metaOfB m with name := id, createTime := now, updateTime := now }) = (.ok, s') ∧
      srvSaveBucket now s id b = (.ok (), s')) ∨
    ∃ e, Real e ∧ srvSaveBucket now s id b = (.error e, s) := by
  unfold srvSaveBucket
  by_cases hid : id = []
  · rw [if_pos hid]; exact .inr ⟨_, real_invalid _, rfl⟩
  · rw [if_neg hid]
    cases hb : bind readBucket {} (fun _ => true) b with
    | error e => exact .inr ⟨_, real_bind hb, rfl⟩
    | ok m =>
      rcases unit_cases (Meta.bucketCreate { metaOfB m with name := id, createTime := now, updateTime := now }) s
        with ⟨s', h⟩ | ⟨e, h⟩
      · simp only [Meta.step, h]; exact .inl ⟨m, s', rfl, h, rfl⟩
      · simp only [Meta.step, h]; exact .inr ⟨_, real_meta .saveBucket e, rfl⟩

theorem srvSaveMetadata_cases (now : Int) (s : Meta.Store) (id : Str) (b : Bytes) :
    (∃ m s', bind readMetadata {} validMetadata b = .ok m ∧
      Meta.step s (.addMeta id ⟨strOf m.name, strOf m.bucket, now, now⟩) = (.ok, s') ∧
      srvSaveMetadata now s id b = (.ok (), s')) ∨
    ∃ e, Real e ∧ srvSaveMetadata now s id b = (.error e, s) := by
  unfold srvSaveMetadata
  by_cases hid : id = []
  · rw [if_pos hid]; exact .inr ⟨_, real_invalid _, rfl⟩
  · rw [if_neg hid]
    cases hb : bind readMetadata {} validMetadata b with
    | error e => exact .inr ⟨_, real_bind hb, rfl⟩
    | ok m =>
      rcases unit_cases (Meta.addMeta id ⟨strOf m.name, strOf m.bucket, now, now⟩) s with ⟨s', h⟩ | ⟨e, h⟩
      · simp only [Meta.step, h]; exact .inl ⟨m, s', rfl, h, rfl⟩
      · simp only [Meta.step, h]; exact .inr ⟨_, real_meta .saveMetadata e, rfl⟩

/-! ## Versions -/

/-- The version as the store gets it. -/
def stored (v : EVersion) (now : Int) (uid : Str) : Meta.Version :=
  { metaOf (msgOf v) with uniqueId := uid, ts := now }

theorem validVersion_iff (v : EVersion) : validVersion (msgOf v) = true ↔
    v.storeStrategy ≠ 0 ∧ toInt32 v.dataShards ≠ 0 ∧ v.shardSize ≠ 0 ∧ v.size ≠ 0 ∧ v.hash ≠ [] ∧
      v.locate ≠ [] := by
  have : 1 ≤ v.locate.length ↔ v.locate ≠ [] := by cases v.locate <;> simp
  have hh : bytesOf v.hash ≠ [] ↔ v.hash ≠ [] := by simp [bytesOf]
  simp only [validVersion, Bool.and_eq_true, decide_eq_true_eq, and_assoc]
  simp only [msgOf, List.length_map, this, hh]

theorem save_cases {v : EVersion} (hv : v.Typed) (now : Int) (uid : Str) (s : Meta.Store) (id : Str) :
    (∃ q s', validVersion (msgOf v) = true ∧ Meta.step s (.addVer id (stored v now uid)) = (.seq q, s') ∧
      saveVersion now uid s id v = (.ok (toInt32 q), s')) ∨
    ∃ e, saveVersion now uid s id v = (.error e, s) := by
  unfold saveVersion
  rcases srvSaveVersion_cases now uid s id (encodeMsgp appendVersion (msgOf v)) with
    ⟨m, q, s', h1, h2, h3⟩ | ⟨e, hr, he⟩
  · rw [bind_encode C73_Version_roundtrip (msgOf_ok hv)] at h1
    by_cases hva : validVersion (msgOf v)
    · rw [if_pos hva] at h1; cases h1
      exact .inl ⟨q, s', hva, h2, by rw [h3]; rfl⟩
    · rw [if_neg hva] at h1; cases h1
  · obtain ⟨e', hc⟩ := call_real hr .saveVersion (0 : Int)
    exact .inr ⟨e', by rw [he]; simp only [hc]⟩

/-- Reading a version that is stored and whose fields fit. -/
theorem get_of_stored {s : Meta.Store} {id : Str} {n : Int} {w : Meta.Version} (hid : id ≠ [])
    (h : Meta.getVersion s id n = .ok w) (hw : (ofMetaV w).Ok) :
    getVersion s id n = .ok (entOf (ofMetaV w)) := by
  unfold getVersion srvGetVersion
  rw [if_neg hid, h]
  simp only [call, decoded, decode_encode C73_Version_roundtrip hw]

theorem ofMetaV_ok {v : EVersion} (hv : v.Typed) {now : Int} (hn : InInt64 now) {uid : Str} (hu : LenOk uid)
    {q : Nat} (hq : q < 2147483648) : (ofMetaV { stored v now uid with sequence := q }).Ok := by
  obtain ⟨h1, h2, h3, h4, h5, h6, h7, h8⟩ := msgOf_ok hv
  obtain ⟨g1, g2, g3, g4, g5, g6, g7, g8⟩ := hv
  refine ⟨h1, h2, h3, h4, h5, hn, ?_, ?_, lenOk_bytesOf hu, ?_⟩
  · show InUint64 q; unfold InUint64; omega
  · show LenOk (bytesOf (strOf (bytesOf v.hash)))
    rw [strOf_bytesOf]; exact lenOk_bytesOf g6
  · show LenOk (((v.locate.map bytesOf).map strOf).map bytesOf) ∧
      ∀ s ∈ ((v.locate.map bytesOf).map strOf).map bytesOf, LenOk s
    rw [strOfs_bytesOf]; exact lenOks g7 g8

theorem entOf_stored (v : EVersion) (now : Int) (uid : Str) {q : Nat} (hq : q < 2147483648) :
    entOf (ofMetaV { stored v now uid with sequence := q }) =
      { v with dataShards := toInt32 v.dataShards, parityShards := toInt32 v.parityShards, sequence := q, ts := now } := by
  have hseq : toInt32 (q : Int) = q := toInt32_id (by unfold InInt32; omega)
  simp only [entOf, ofMetaV, stored, metaOf, msgOf, strOf_bytesOf, strOfs_bytesOf, hseq]

/-- **C75** A version that was saved is read back under the number that was answered: with that
number, the time of saving and the numbers of shards cut to 32 bits; every other version of every
object and every object's metadata are read as before. -/
theorem C75_saved_version {s s' : Meta.Store} {id uid : Str} {v : EVersion} {now n : Int} (hv : v.Typed)
    (hn : InInt64 now) (hu : LenOk uid) (hf : FewVersions s id)
    (h : saveVersion now uid s id v = (.ok n, s')) :
    getVersion s' id n = .ok { v with dataShards := toInt32 v.dataShards
                                      parityShards := toInt32 v.parityShards, sequence := n, ts := now } ∧
    (∀ id' ver, 0 < ver → (id', ver) ≠ (id, n) → getVersion s' id' ver = getVersion s id' ver) ∧
    (∀ id', getMetadata s' id' false = getMetadata s id' false) := by
  rcases save_cases hv now uid s id with ⟨q, t, _, hs, he⟩ | ⟨e, he⟩
  · rw [he] at h; cases h
    have hsq := Meta.step_addVer_seq hs
    obtain ⟨b, hi, ui, hb, hq, _⟩ := Meta.addVer_ok hsq
    have hlt : q < 2147483648 := by have := hf b hb; omega
    have hseq : toInt32 (q : Int) = q := toInt32_id (by unfold InInt32; omega)
    obtain ⟨r1, r2, r3⟩ := Meta.C16_added_readable hs
    have hid : id ≠ [] := by
      rintro rfl
      unfold saveVersion srvSaveVersion at he
      rw [if_pos rfl] at he
      simp [call, clientErr, wire, resolveErr] at he
    rw [hseq]
    refine ⟨?_, ?_, ?_⟩
    · have hg : Meta.getVersion s' id (q : Int) = .ok { stored v now uid with sequence := q } := by
        rw [Meta.C17_named _ _ (by omega)]; exact r1
      rw [get_of_stored hid hg (ofMetaV_ok hv hn hu hlt), entOf_stored v now uid hlt]
    · intro id' ver hver hne
      have : Meta.getVersion s' id' ver = Meta.getVersion s id' ver := by
        unfold Meta.getVersion
        rw [if_neg (by omega), if_neg (by omega)]
        refine r2 id' ver.toNat ?_
        intro hc
        cases hc
        exact hne (by rw [Int.toNat_of_nonneg (by omega)])
      simp only [getVersion, srvGetVersion, this]
    · intro id'
      simp only [getMetadata, srvGetMetadata, r3, Bool.false_eq_true, ↓reduceIte]
  · rw [he] at h; cases h

/-- **C75** A version that is refused leaves the store as it was. -/
theorem C75_refused_no_effect {s s' : Meta.Store} {id uid : Str} {v : EVersion} {now : Int} {e : GoErr} (hv : v.Typed)
    (h : saveVersion now uid s id v = (.error e, s')) : s' = s := by
  rcases save_cases hv now uid s id with ⟨q, t, _, _, he⟩ | ⟨e', he⟩ <;> (rw [he] at h; cases h)
  rfl

theorem fmtNat_length {k q : Nat} (hk : 1 ≤ k) (h : q < 10 ^ k) : (fmtNat q).length ≤ k := by
  unfold fmtNat
  exact (Nat.length_toDigits_le_iff (by omega) (by omega)).2 h

/-- **C75** partial: saving a complete version of an existing object, with numbers of shards that
fit 32 bits, succeeds, and reading the number that was answered returns the version.  Missing:
incomplete versions are refused (`C75_incomplete_refused`), larger numbers are cut
(`C75_statement_fails`). -/
theorem C75_version_partial {s : Meta.Store} {id : Str} {m : Meta.Metadata} {v : EVersion} {now : Int}
    {uid : Str} (hr : Meta.Reachable s) (hm : Meta.getMeta s id = .ok m) (hl : id.length ≤ 32000)
    (hv : v.Typed) (hn : InInt64 now) (hu : FreshId s uid) (hf : FewVersions s id) (hs : v.Small)
    (hc : v.Complete) :
    ∃ n s', saveVersion now uid s id v = (.ok n, s') ∧
      getVersion s' id n = .ok { v with sequence := n, ts := now } := by
  have hi := Meta.inv_reachable hr
  obtain ⟨c1, c2, c3, c4, c5, c6⟩ := hc
  have hva : validVersion (msgOf v) = true := by
    rw [validVersion_iff, toInt32_id hs.1]; exact ⟨c1, c2, c3, c4, c5, c6⟩
  have hb : ∃ b, s.vers.get id = some b := by
    have := hi.dom id
    rw [(Meta.getMeta_ok_iff ..).1 hm] at this
    cases hg : s.vers.get id with
    | none => rw [hg] at this; cases this
    | some b => exact ⟨b, rfl⟩
  obtain ⟨b, hb⟩ := hb
  have hid := hi.name id b hb
  have hlt := hf b hb
  have hk : Meta.keyErr (Meta.verKey id (b.seq + 1)) = none := by
    have := fmtNat_length (k := 10) (q := b.seq + 1) (by omega) (by omega)
    unfold Meta.keyErr
    rw [if_neg (Meta.verKey_ne_nil _ _), if_neg]
    simp only [Meta.verKey, List.length_append, List.length_cons]
    omega
  have hno : b.items.get (Meta.verKey id (b.seq + 1)) = none := by
    cases hg : b.items.get (Meta.verKey id (b.seq + 1)) with
    | none => rfl
    | some w =>
      obtain ⟨q, hk', hle, _⟩ := hi.key id b _ w hb hg
      have := (Meta.verKey_inj hk').2
      omega
  have hhash : (stored v now uid).hash = v.hash := strOf_bytesOf v.hash
  have hadd : ∃ s', Meta.step s (.addVer id (stored v now uid)) = (.seq (b.seq + 1), s') := by
    obtain ⟨hx, hhx⟩ := Meta.addIndex_total (idx := s.hashIdx) (k := v.hash) c5 hk
    obtain ⟨ux, hux⟩ := Meta.addIndex_total (idx := s.uidIdx) (k := uid) hu.1 hk
    simp only [Meta.step, Meta.repoAddVersion]
    rw [if_neg (by rw [hhash]; exact c5), if_neg (show ¬ (stored v now uid).uniqueId = [] from hu.1)]
    have huid : (stored v now uid).uniqueId = uid := rfl
    simp only [Meta.update, Meta.addVer, hb, huid, hu.2.2, Bool.false_eq_true, ↓reduceIte, hno, hk,
      Meta.addBoth, hhash, hhx, hux]
    exact ⟨_, rfl⟩
  obtain ⟨s', hadd⟩ := hadd
  have hsave : saveVersion now uid s id v = (.ok (toInt32 ((b.seq + 1 : Nat) : Int)), s') := by
    have hsrv : srvSaveVersion now uid s id (encodeMsgp appendVersion (msgOf v)) =
        (.ok (toInt32 ((b.seq + 1 : Nat) : Int)), s') := by
      unfold srvSaveVersion
      rw [if_neg hid, bind_encode C73_Version_roundtrip (msgOf_ok hv), if_pos hva]
      show (match Meta.step s (.addVer id (stored v now uid)) with
        | (.seq q, s') => ((.ok (toInt32 q) : Except GoErr Int), s')
        | (.err e, s') => (.error (handlerErr .saveVersion (ofMeta e)), s')
        | (_, s') => (.error (.plain []), s')) = _
      rw [hadd]
    rw [saveVersion, hsrv]; rfl
  refine ⟨_, s', hsave, ?_⟩
  rw [(C75_saved_version hv hn hu.2.1 hf hsave).1, toInt32_id hs.1, toInt32_id hs.2]

/-- **C75** A version without one of the required values, in particular one of an empty object
(size 0), is always refused, with status 500, and nothing is stored. -/
theorem C75_incomplete_refused {v : EVersion} (hv : v.Typed) (hs : v.Small) (hc : ¬ v.Complete) (now : Int)
    (uid : Str) (s : Meta.Store) (id : Str) (hid : id ≠ []) :
    saveVersion now uid s id v = (.error (.resp 500 []), s) := by
  have hva : ¬ validVersion (msgOf v) = true := by
    rw [validVersion_iff, toInt32_id hs.1]; exact hc
  unfold saveVersion srvSaveVersion
  rw [if_neg hid, bind_encode C73_Version_roundtrip (msgOf_ok hv), if_neg hva]
  rfl

/-- A replicated object of 5 bytes on two servers, and one of 0 bytes. -/
def sampleVersion : EVersion :=
  { hash := "h".toList, storeStrategy := 2, size := 5, dataShards := 2, parityShards := 1, shardSize := 5
    locate := ["s1".toList, "s2".toList] }

def emptyVersion : EVersion := { sampleVersion with size := 0 }

def hugeVersion : EVersion := { sampleVersion with dataShards := 4294967298 }

theorem sample_typed : sampleVersion.Typed ∧ emptyVersion.Typed ∧ hugeVersion.Typed := by
  have h : InInt8 2 ∧ InInt64 5 ∧ InInt64 0 ∧ InInt64 2 ∧ InInt64 1 ∧ InInt64 4294967298 := by
    unfold InInt8 InInt64; omega
  obtain ⟨h1, h2, h3, h4, h5, h6⟩ := h
  have hl : LenOk sampleVersion.hash ∧ LenOk sampleVersion.locate ∧ ∀ l ∈ sampleVersion.locate, LenOk l := by
    simp [sampleVersion, LenOk]
  exact ⟨⟨h1, h2, h2, h4, h5, hl⟩, ⟨h1, h3, h2, h4, h5, hl⟩, ⟨h1, h2, h2, h6, h5, hl⟩⟩

theorem sample_few : FewVersions Meta.sampleStore "b/a".toList := by
  intro b hb
  have : (Meta.sampleStore.vers.get "b/a".toList).map (·.seq) = some 2 := by decide
  rw [hb] at this
  simp only [Option.map_some, Option.some.injEq] at this
  omega

theorem sample_fresh : FreshId Meta.sampleStore "u9".toList := ⟨by decide, by simp [LenOk], by decide⟩

/-- The hypotheses can be met: the third version of the object of `Meta.sampleStore`. -/
example : ∃ n s', saveVersion 77 "u9".toList Meta.sampleStore "b/a".toList sampleVersion = (.ok n, s') ∧
    getVersion s' "b/a".toList n = .ok { sampleVersion with sequence := n, ts := 77 } :=
  C75_version_partial Meta.sampleStore_reachable (m := Meta.sampleMeta 1) rfl (by decide) sample_typed.1
    (by unfold InInt64; omega) sample_fresh sample_few ⟨⟨by decide, by decide⟩, ⟨by decide, by decide⟩⟩
    ⟨by decide, by decide, by decide, by decide, by decide, by decide⟩

example : (saveVersion 77 "u9".toList Meta.sampleStore "b/a".toList sampleVersion).1 = .ok 3 := rfl

/-- **C75** The full statement is wrong: the version of an empty object is refused. -/
theorem C75_statement_fails : ¬ C75_statement := by
  intro h
  obtain ⟨n, s', h1, _⟩ := h Meta.sampleStore "b/a".toList (Meta.sampleMeta 1) emptyVersion 77 "u9".toList
    Meta.sampleStore_reachable rfl (by decide) sample_typed.2.1 (by unfold InInt64; omega) sample_fresh sample_few
  rw [C75_incomplete_refused sample_typed.2.1 ⟨⟨by decide, by decide⟩, ⟨by decide, by decide⟩⟩
    (fun hc => hc.2.2.2.1 rfl) _ _ _ _ (by decide)] at h1
  cases h1

/-- **C75** 2^32 + 2 data shards are saved as 2. -/
theorem C75_shards_cut :
    ∃ n s', saveVersion 77 "u9".toList Meta.sampleStore "b/a".toList hugeVersion = (.ok n, s') ∧
      getVersion s' "b/a".toList n = .ok { hugeVersion with dataShards := 2, sequence := n, ts := 77 } := by
  have h : saveVersion 77 "u9".toList Meta.sampleStore "b/a".toList hugeVersion =
      (.ok 3, (saveVersion 77 "u9".toList Meta.sampleStore "b/a".toList hugeVersion).2) := rfl
  refine ⟨3, _, h, ?_⟩
  rw [(C75_saved_version sample_typed.2.2 (by unfold InInt64; omega) sample_fresh.2.1 sample_few h).1]
  rfl

/-- **C75** `UpdateVersion` never updates anything: every call is refused with 400, because the
version number is not sent. -/
theorem C75_update_always_refused (now : Int) (s : Meta.Store) (id : Str) (v : EVersion) :
    updateVersion now s id v = (.error (.resp 400 textIdVersion), s) := by
  unfold updateVersion srvUpdateVersion
  dsimp only
  rw [if_pos (.inr (by omega))]
  rfl

/-! ## Reading what is not there -/

/-- **C75** Reading a version, a bucket or an object that does not exist is answered with 404. -/
theorem C75_missing {s : Meta.Store} {id : Str} (hid : id ≠ []) :
    (∀ n, Meta.getVersion s id n = .error .notFound → getVersion s id n = .error (.resp 404 "not found".toList)) ∧
    (Meta.bucketGet s id = .error .notFound → getBucket s id = .error (.resp 404 "not found".toList)) ∧
    (∀ x, Meta.getMeta s id = .error .notFound → getMetadata s id x = .error (.resp 404 "not found".toList)) := by
  refine ⟨fun n h => ?_, fun h => ?_, fun x h => ?_⟩
  · unfold getVersion srvGetVersion; rw [if_neg hid, h]; rfl
  · unfold getBucket srvGetBucket; rw [if_neg hid, h]; rfl
  · unfold getMetadata srvGetMetadata; rw [if_neg hid, h]; rfl

example : getVersion Meta.sampleStore "b/a".toList 7 = .error (.resp 404 "not found".toList) :=
  (C75_missing (by decide)).1 7 rfl

/-! ## Buckets -/

theorem bucketCreate_ok {s s' : Meta.Store} {d : Meta.Bucket} (h : Meta.step s (.bucketCreate d) = (.ok, s')) :
    s.buckets.get d.name = none ∧ s' = { s with buckets := s.buckets.put d.name d } := by
  simp only [Meta.step] at h
  rcases Meta.update_cases (Meta.bucketCreate d) s with ⟨e, hu, _⟩ | ⟨a, t, ho, hu⟩
  · rw [hu] at h; cases h
  · rw [hu] at h
    have h2 := congrArg Prod.snd h
    simp only at h2
    subst h2
    unfold Meta.bucketCreate at ho
    grind

/-- What reading a saved bucket returns. -/
def savedBucket (b : EBucket) (now : Int) : EBucket :=
  { b with dataShards := toInt32 b.dataShards, parityShards := toInt32 b.parityShards
           versionRemains := toInt32 b.versionRemains, createTime := now, updateTime := now }

theorem getBucket_of_stored {s : Meta.Store} {n : Str} {w : Meta.Bucket} (hn : n ≠ [])
    (h : s.buckets.get n = some w) (hw : (ofMetaB w).Ok) : getBucket s n = .ok (entOfB (ofMetaB w)) := by
  unfold getBucket srvGetBucket
  rw [if_neg hn]
  simp only [Meta.bucketGet, h, call, decoded, decode_encode C73_Bucket_roundtrip hw]

/-- **C75** A bucket that was saved is read back with the time of saving and its numbers cut to 32
bits; other buckets, all objects and all versions are read as before. -/
theorem C75_saved_bucket {s s' : Meta.Store} {b : EBucket} {now : Int} (hb : b.Typed) (hn : InInt64 now)
    (h : saveBucket now s b = (.ok (), s')) :
    getBucket s' b.name = .ok (savedBucket b now) ∧
    (∀ n, n ≠ b.name → getBucket s' n = getBucket s n) ∧
    (∀ id n, getVersion s' id n = getVersion s id n) ∧
    (∀ id x, getMetadata s' id x = getMetadata s id x) := by
  unfold saveBucket at h
  rcases srvSaveBucket_cases now s b.name (encodeMsgp appendBucket (msgOfB b)) with
    ⟨m, t, h1, h2, h3⟩ | ⟨e, hr, he⟩
  · rw [h3] at h
    cases h
    rw [bind_encode C73_Bucket_roundtrip (msgOfB_ok hb)] at h1
    simp only [↓reduceIte] at h1
    cases h1
    obtain ⟨_, rfl⟩ := bucketCreate_ok h2
    have hne : b.name ≠ [] := by
      intro h0
      unfold srvSaveBucket at h3
      rw [if_pos h0] at h3; cases h3
    obtain ⟨g1, g2, g3, g4, g5, g6, g7⟩ := hb
    refine ⟨?_, ?_, fun _ _ => rfl, fun _ _ => rfl⟩
    · rw [getBucket_of_stored hne (KMap.get_put_self ..)]
      · simp only [entOfB, ofMetaB, metaOfB, msgOfB, savedBucket, strOf_bytesOf, strOfs_bytesOf]
      · refine ⟨g1, toInt32_range _, toInt32_range _, toInt32_range _, hn, hn, lenOk_bytesOf g5, ?_⟩
        show LenOk (((b.policies.map bytesOf).map strOf).map bytesOf) ∧
          ∀ s ∈ ((b.policies.map bytesOf).map strOf).map bytesOf, LenOk s
        rw [strOfs_bytesOf]; exact lenOks g6 g7
    · intro n hnn
      simp only [getBucket, srvGetBucket, Meta.bucketGet, KMap.get_put]
      rw [if_neg hnn]
  · rw [he] at h
    obtain ⟨e', hc⟩ := call_real hr .saveBucket ()
    simp only [hc] at h
    cases h

/-- A bucket saved into `Meta.sampleStore`. -/
def sampleBucket : EBucket := { name := "photos".toList, versioning := true, versionRemains := 3, policies := ["p".toList] }

example : (saveBucket 5 Meta.sampleStore sampleBucket).1 = .ok () ∧ sampleBucket.Typed :=
  ⟨rfl, by
    have h : InInt8 0 ∧ InInt64 0 ∧ InInt64 3 := by unfold InInt8 InInt64; omega
    exact ⟨h.1, h.2.1, h.2.1, h.2.2, by simp [sampleBucket, LenOk], by simp [sampleBucket, LenOk],
      by simp [sampleBucket, LenOk]⟩⟩

/-- **C75** Saving an existing bucket is refused with 400, and nothing changes. -/
theorem C75_bucket_exists {s : Meta.Store} {b : EBucket} (hb : b.Typed) (now : Int) {w : Meta.Bucket} (hn : b.name ≠ [])
    (h : Meta.bucketGet s b.name = .ok w) :
    saveBucket now s b = (.error (.resp 400 "data exists".toList), s) := by
  unfold saveBucket srvSaveBucket
  rw [if_neg hn, bind_encode C73_Bucket_roundtrip (msgOfB_ok hb)]
  have hg : s.buckets.get b.name = some w := by
    unfold Meta.bucketGet at h
    split at h
    · rename_i h'; cases h; exact h'
    · cases h
  simp only [↓reduceIte, Meta.step, Meta.update, Meta.bucketCreate, hn, hg]
  rfl

/-! ## Objects -/

theorem msgMeta_ok {n b : Str} (hn : LenOk n) (hb : LenOk b) :
    Metadata.Ok { name := bytesOf n, bucket := bytesOf b } :=
  ⟨by rintro x ⟨⟩, lenOk_bytesOf hn, lenOk_bytesOf hb, zero64, zero64⟩

/-- **C75** Saving the metadata of a new object with a name and a bucket succeeds; it is read back
with the time of saving (and with no versions), and nothing else that is read changes. -/
theorem C75_saved_metadata {s : Meta.Store} (hr : Meta.Reachable s) {id : Str} {d : EMetadata} {now : Int}
    (h : Meta.getMeta s id = .error .notFound) (h1 : id ≠ []) (h2 : id.length ≤ 32768)
    (hname : d.name ≠ []) (hbucket : d.bucket ≠ []) (hn : LenOk d.name) (hb : LenOk d.bucket)
    (ht : InInt64 now) :
    ∃ s', saveMetadata now s id d = (.ok (), s') ∧
      (∀ x, getMetadata s' id x =
        .ok { name := d.name, bucket := d.bucket, createTime := now, updateTime := now }) ∧
      (∀ n x, n ≠ id → getMetadata s' n x = getMetadata s n x) ∧
      (∀ n v, getVersion s' n v = getVersion s n v) ∧
      (∀ n, getBucket s' n = getBucket s n) := by
  obtain ⟨s', e1, e2, e3, e4, e5, e6, _⟩ := Meta.C15_create_fresh hr h h1 h2 ⟨d.name, d.bucket, now, now⟩
  have hval : validMetadata { name := bytesOf d.name, bucket := bytesOf d.bucket } = true := by
    simp [validMetadata, bytesOf, hname, hbucket]
  refine ⟨s', ?_, ?_, ?_, ?_, ?_⟩
  · unfold saveMetadata srvSaveMetadata
    rw [if_neg h1, bind_encode C73_Metadata_roundtrip (msgMeta_ok hn hb), if_pos hval]
    simp only [strOf_bytesOf, e1]
    rfl
  · intro x
    unfold getMetadata srvGetMetadata
    rw [if_neg h1, e2]
    have hx : Meta.getExtra s' id = .ok ⟨0, 0, 0⟩ := by
      simp only [Meta.step] at e1
      rcases Meta.update_cases (Meta.addMeta id ⟨d.name, d.bucket, now, now⟩) s with ⟨e, hu, _⟩ | ⟨a, t, ho, hu⟩
      · rw [hu] at e1; cases e1
      · rw [hu] at e1
        have h2 := congrArg Prod.snd e1
        simp only at h2
        subst h2
        obtain ⟨_, _, _, rfl⟩ := Meta.addMeta_ok ho
        simp [Meta.getExtra]
        exact ⟨rfl, rfl, rfl⟩
    cases x with
    | false =>
      simp only [Bool.false_eq_true, ↓reduceIte, call, decoded, ofMetaM]
      rw [decode_encode C73_Metadata_roundtrip]
      · simp [entOfM, strOf_bytesOf]
      · exact ⟨by rintro x ⟨⟩, lenOk_bytesOf hn, lenOk_bytesOf hb, ht, ht⟩
    | true =>
      simp only [↓reduceIte, hx, call, decoded, ofMetaM]
      rw [decode_encode C73_Metadata_roundtrip]
      · simp [entOfM, strOf_bytesOf]
      · exact ⟨by rintro x ⟨⟩; exact ⟨zero64, zero64, zero64⟩, lenOk_bytesOf hn, lenOk_bytesOf hb, ht, ht⟩
  · intro n x hne
    simp only [getMetadata, srvGetMetadata, e3 n hne, e5 n hne]
  · intro n v
    simp only [getVersion, srvGetVersion, e4]
  · intro n
    simp only [getBucket, srvGetBucket, e6]

example : Meta.getMeta Meta.sampleStore "b/new".toList = .error .notFound ∧
    (saveMetadata 5 Meta.sampleStore "b/new".toList { name := "new".toList, bucket := "b".toList }).1 = .ok () :=
  ⟨rfl, rfl⟩

/-- **C75** Metadata without a name or a bucket is refused with 500, and nothing is stored. -/
theorem C75_metadata_refused {d : EMetadata} (h : d.name = [] ∨ d.bucket = []) (hn : LenOk d.name)
    (hb : LenOk d.bucket) (now : Int) (s : Meta.Store) {id : Str} (hid : id ≠ []) :
    saveMetadata now s id d = (.error (.resp 500 []), s) := by
  have hval : ¬ validMetadata { name := bytesOf d.name, bucket := bytesOf d.bucket } = true := by
    rcases h with h | h <;> simp [validMetadata, bytesOf, h]
  unfold saveMetadata srvSaveMetadata
  rw [if_neg hid, bind_encode C73_Metadata_roundtrip (msgMeta_ok hn hb), if_neg hval]
  rfl

/-- **C75** The metadata server itself does update: a request with an id, a number above 0 that
exists and a complete body replaces the version (its number, content hash and unique id stay) and
nothing else; a request without an id or number is refused.  It is only the client that never sends the
number (`C75_update_always_refused`). -/
theorem C75_server_update {s : Meta.Store} (hr : Meta.Reachable s) (id : Str) (now : Int) (v : EVersion)
    (hv : v.Typed) (hc : v.Complete) (hsm : v.Small) :
    (∀ n : Nat, id ≠ [] → 0 < n → ∀ o, Meta.getVer s id n = .ok o → o.ts < now →
      ∃ s', srvUpdateVersion now s id n (encodeMsgp appendVersion (msgOf v)) = (.ok (), s') ∧
        Meta.getVer s' id n = .ok { metaOf (msgOf v) with
          ts := now, sequence := o.sequence, hash := o.hash, uniqueId := o.uniqueId } ∧
        (∀ n' q', (n', q') ≠ (id, n) → Meta.getVer s' n' q' = Meta.getVer s n' q') ∧
        (∀ n', Meta.getMeta s' n' = Meta.getMeta s n')) ∧
    (∀ n : Int, id = [] ∨ n ≤ 0 → ∀ b,
      srvUpdateVersion now s id n b = (.error (.status .invalidArgument textIdVersion), s)) := by
  refine ⟨fun n hid hn o ho ht => ?_, fun n h b => ?_⟩
  · have hval : validVersion (msgOf v) = true := by
      refine (validVersion_iff v).2 ⟨hc.1, ?_, hc.2.2⟩
      rw [toInt32_id hsm.1]; exact hc.2.1
    obtain ⟨s', h1, h2, h3, h4, _⟩ :=
      (Meta.C19_version hr { metaOf (msgOf v) with ts := now, sequence := n } ho).2 ht
    refine ⟨s', ?_, h2, h3, h4⟩
    unfold srvUpdateVersion
    rw [if_neg (fun h => h.elim hid (fun h => absurd h (by omega))),
      bind_encode C73_Version_roundtrip (msgOf_ok hv), if_pos hval]
    show (match Meta.step s (.updateVer id { metaOf (msgOf v) with ts := now, sequence := n }) with
      | (.ok, s') => (Except.ok (), s')
      | (.err e, s') => (.error (handlerErr .updateVersion (ofMeta e)), s')
      | (_, s') => (.error (.plain []), s')) = _
    rw [h1]
  · unfold srvUpdateVersion
    rw [if_pos h]

example : (srvUpdateVersion 77 Meta.sampleStore "b/a".toList 1 (encodeMsgp appendVersion (msgOf sampleVersion))).1 =
    .ok () ∧
    (srvUpdateVersion 77 Meta.sampleStore "b/a".toList 0 (encodeMsgp appendVersion (msgOf sampleVersion))).1 =
      .error (.status .invalidArgument textIdVersion) := ⟨rfl, rfl⟩

/-- **C75** What is read of an object: with the extra information exactly the number of its versions and the
first and last number that the metadata server computes, without it zeros; name, bucket and times as stored. -/
theorem C75_read_metadata {s : Meta.Store} {id : Str} {m : Meta.Metadata} {x : Meta.Extra} (hid : id ≠ [])
    (h : Meta.getMeta s id = .ok m) (hx : Meta.getExtra s id = .ok x) (hn : LenOk m.name) (hb : LenOk m.bucket)
    (h1 : InInt64 m.createTime) (h2 : InInt64 m.updateTime)
    (h3 : InInt64 x.total ∧ InInt64 x.firstVersion ∧ InInt64 x.lastVersion) :
    getMetadata s id true = .ok {
      total := x.total
      firstVersion := x.firstVersion
      lastVersion := x.lastVersion
      name := m.name
      bucket := m.bucket
      createTime := m.createTime
      updateTime := m.updateTime } ∧
    getMetadata s id false = .ok {
      name := m.name
      bucket := m.bucket
      createTime := m.createTime
      updateTime := m.updateTime } := by
  unfold getMetadata srvGetMetadata
  rw [if_neg hid, if_neg hid, h]
  constructor
  · simp only [↓reduceIte, hx, call, decoded, ofMetaM]
    rw [decode_encode C73_Metadata_roundtrip]
    · simp [entOfM, strOf_bytesOf]
    · exact ⟨by rintro x ⟨⟩; exact h3, lenOk_bytesOf hn, lenOk_bytesOf hb, h1, h2⟩
  · simp only [Bool.false_eq_true, ↓reduceIte, call, decoded, ofMetaM]
    rw [decode_encode C73_Metadata_roundtrip]
    · simp [entOfM, strOf_bytesOf]
    · exact ⟨by rintro x ⟨⟩, lenOk_bytesOf hn, lenOk_bytesOf hb, h1, h2⟩

example : (getMetadata Meta.sampleStore "b/a".toList true).map (fun d => (d.total, d.firstVersion, d.lastVersion)) =
    .ok (2, 1, 2) ∧
    (getMetadata Meta.sampleStore "b/a".toList false).map (fun d => (d.total, d.firstVersion, d.lastVersion)) =
    .ok (0, 0, 0) := ⟨rfl, rfl⟩

/-! ## Any number of writes -/

/-- A write request of the API server, with the time and the id the metadata server generates. -/
inductive Write
  | version (now : Int) (uid id : Str) (v : EVersion)
  | update (now : Int) (id : Str) (v : EVersion)
  | bucket (now : Int) (b : EBucket)
  | metadata (now : Int) (id : Str) (d : EMetadata)

/-- The store after the request. -/
def Write.apply (s : Meta.Store) : Write → Meta.Store
  | .version now uid id v => (saveVersion now uid s id v).2
  | .update now id v => (updateVersion now s id v).2
  | .bucket now b => (saveBucket now s b).2
  | .metadata now id d => (saveMetadata now s id d).2

theorem keeps_ver {s : Meta.Store} {id : Str} {q : Nat} {w : Meta.Version} (h : Meta.getVer s id q = .ok w)
    (op : Write) : Meta.getVer (op.apply s) id q = .ok w := by
  cases op with
  | version now uid id' v =>
    show Meta.getVer (srvSaveVersion now uid s id' _).2 id q = _
    rcases srvSaveVersion_cases now uid s id' (encodeMsgp appendVersion (msgOf v)) with
      ⟨m, q', s', _, h2, h3⟩ | ⟨e, _, he⟩
    · rw [h3]
      show Meta.getVer s' id q = _
      rw [(Meta.C16_added_readable h2).2.1 id q, h]
      rintro ⟨⟩
      obtain ⟨b, _, _, hb, _, _, hno, _⟩ := Meta.addVer_ok (Meta.step_addVer_seq h2)
      obtain ⟨b', hb', hg⟩ := (Meta.getVer_ok_iff ..).1 h
      rw [hb] at hb'; cases hb'
      rw [hno] at hg; cases hg
    · rw [he]; exact h
  | update now id' v =>
    show Meta.getVer (updateVersion now s id' v).2 id q = _
    rw [C75_update_always_refused]; exact h
  | bucket now b =>
    show Meta.getVer (srvSaveBucket now s b.name _).2 id q = _
    rcases srvSaveBucket_cases now s b.name (encodeMsgp appendBucket (msgOfB b)) with
      ⟨m, s', _, h2, h3⟩ | ⟨e, _, he⟩
    · rw [h3]
      obtain ⟨_, rfl⟩ := bucketCreate_ok h2
      exact h
    · rw [he]; exact h
  | metadata now id' d =>
    show Meta.getVer (srvSaveMetadata now s id' _).2 id q = _
    rcases srvSaveMetadata_cases now s id'
        (encodeMsgp appendMetadata { name := bytesOf d.name, bucket := bytesOf d.bucket }) with
      ⟨m, s', _, h2, h3⟩ | ⟨e, _, he⟩
    · rw [h3]
      show Meta.getVer s' id q = _
      simp only [Meta.step] at h2
      rcases Meta.update_cases (Meta.addMeta id' ⟨strOf m.name, strOf m.bucket, now, now⟩) s with
        ⟨e, hu, _⟩ | ⟨a, t, ho, hu⟩
      · rw [hu] at h2; cases h2
      · rw [hu] at h2
        have h2' := congrArg Prod.snd h2
        simp only at h2'
        subst h2'
        obtain ⟨_, _, hv, rfl⟩ := Meta.addMeta_ok ho
        rw [Meta.getVer_ok_iff] at h ⊢
        obtain ⟨b, hb, hg⟩ := h
        refine ⟨b, ?_, hg⟩
        show (s.vers.put id' _).get id = some b
        rw [KMap.get_put, if_neg (by rintro rfl; rw [hv] at hb; cases hb), hb]
    · rw [he]; exact h

/-- **C75** A version that was saved stays readable, unchanged, whatever versions, updates, buckets
and objects are saved afterwards. -/
theorem C75_saved_version_stays {s s' : Meta.Store} {id uid : Str} {v : EVersion} {now n : Int} (hv : v.Typed)
    (hs : v.Small) (hn : InInt64 now) (hu : LenOk uid) (hf : FewVersions s id)
    (h : saveVersion now uid s id v = (.ok n, s')) (ops : List Write) :
    getVersion (ops.foldl Write.apply s') id n = .ok { v with sequence := n, ts := now } := by
  rcases save_cases hv now uid s id with ⟨q, t, _, hst, he⟩ | ⟨e, he⟩
  · rw [he] at h; cases h
    obtain ⟨b, hi, ui, hb, hq, _⟩ := Meta.addVer_ok (Meta.step_addVer_seq hst)
    have hlt : q < 2147483648 := by have := hf b hb; omega
    have hseq : toInt32 (q : Int) = q := toInt32_id (by unfold InInt32; omega)
    have hid : id ≠ [] := by
      rintro rfl
      unfold saveVersion srvSaveVersion at he
      rw [if_pos rfl] at he
      simp [call, clientErr, wire, resolveErr] at he
    have key : ∀ (ops : List Write) (t : Meta.Store),
        Meta.getVer t id q = .ok { stored v now uid with sequence := q } →
        Meta.getVer (ops.foldl Write.apply t) id q = .ok { stored v now uid with sequence := q } := by
      intro ops
      induction ops with
      | nil => intro t ht; exact ht
      | cons op ops ih => intro t ht; exact ih _ (keeps_ver ht op)
    have hg := key ops s' (Meta.C16_added_readable hst).1
    rw [hseq, get_of_stored hid (by rw [Meta.C17_named _ _ (by omega)]; exact hg) (ofMetaV_ok hv hn hu hlt),
      entOf_stored v now uid hlt, toInt32_id hs.1, toInt32_id hs.2]
  · rw [he] at h; cases h

example : getVersion ([.version 78 "u10".toList "b/a".toList sampleVersion, .bucket 79 sampleBucket].foldl
    Write.apply (saveVersion 77 "u9".toList Meta.sampleStore "b/a".toList sampleVersion).2) "b/a".toList 3 =
    .ok { sampleVersion with sequence := 3, ts := 77 } :=
  C75_saved_version_stays sample_typed.1 ⟨⟨by decide, by decide⟩, ⟨by decide, by decide⟩⟩ (by unfold InInt64; omega)
    sample_fresh.2.1 sample_few rfl _

end Verif.Api.MetaRpc
