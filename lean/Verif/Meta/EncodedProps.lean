import Verif.Meta.Encoded
import Verif.Meta.Props

/-!
# The metadata store on bytes does what the store of records does (C131)
-/

namespace Verif.Meta.Encoded

open Verif Verif.Meta

/-! ## Specification -/

/-- The record fits the Go types of its fields; strings are shorter than 4 GB. -/
def FitsMeta (m : Metadata) : Prop :=
  Msgp.LenOk m.name ∧ Msgp.LenOk m.bucket ∧ Msgp.InInt64 m.createTime ∧ Msgp.InInt64 m.updateTime

def FitsVer (v : Version) : Prop :=
  Msgp.InInt8 v.storeStrategy ∧ Msgp.InInt32 v.dataShards ∧ Msgp.InInt32 v.parityShards ∧ Msgp.InInt64 v.shardSize ∧
  Msgp.InInt64 v.size ∧ Msgp.InInt64 v.ts ∧ Msgp.InUint64 v.sequence ∧ Msgp.LenOk v.hash ∧ Msgp.LenOk v.uniqueId ∧
  Msgp.LenOk v.locate ∧ ∀ l ∈ v.locate, Msgp.LenOk l

def FitsBucket (b : Bucket) : Prop :=
  Msgp.InInt8 b.storeStrategy ∧ Msgp.InInt32 b.dataShards ∧ Msgp.InInt32 b.parityShards ∧ Msgp.InInt32 b.versionRemains ∧
  Msgp.InInt64 b.createTime ∧ Msgp.InInt64 b.updateTime ∧ Msgp.LenOk b.name ∧ Msgp.LenOk b.policies ∧
  ∀ p ∈ b.policies, Msgp.LenOk p

/-- The arguments of an operation fit their Go types; migrated versions have numbers up to `n`. -/
def OpFits (n : Nat) : Op → Prop
  | .addMeta _ d => FitsMeta d
  | .updateMeta _ d => FitsMeta d
  | .addVer _ d => FitsVer d
  | .migrateVer _ d => FitsVer d ∧ d.sequence ≤ n
  | .updateVer _ d => FitsVer d
  | .updateLocate now _ _ v => Msgp.InInt64 now ∧ Msgp.LenOk v
  | .bucketCreate d => FitsBucket d
  | .bucketUpdate d => FitsBucket d
  | _ => True

/-- The answers of the store of records, as answers of the database file. -/
def asRes : Res → BRes
  | .ok => .ok
  | .seq n => .seq n
  | .versions l => .versions l
  | .err e => .err (.err e)
  | .panic => .panic

/-- The file that holds a store. -/
def encVB (b : VBucket) : BVBucket := ⟨b.seq, b.items.map encVer⟩

def encStore (s : Store) : BStore :=
  ⟨s.metas.map encMeta, s.vers.map encVB, s.hashIdx, s.uidIdx, s.buckets.map encBucket, s.applied⟩

/-! ## Records come back -/

theorem untext_text (s : Str) : untext (text s) = s := by
  unfold untext text
  rw [List.map_map]
  have : (Char.ofNat ∘ Char.toNat) = id := by
    funext c
    exact Char.ofNat_toNat c
  rw [this, List.map_id]

theorem untext_texts (l : List Str) : (l.map text).map untext = l := by
  rw [List.map_map]
  have : (untext ∘ text) = id := by
    funext c
    exact untext_text c
  rw [this, List.map_id]

theorem text_len {s : Str} (h : Msgp.LenOk s) : Msgp.LenOk (text s) := by
  unfold Msgp.LenOk text at *
  rw [List.length_map]
  exact h

theorem texts_len {l : List Str} (h : Msgp.LenOk l) (h' : ∀ s ∈ l, Msgp.LenOk s) :
    Msgp.LenOk (l.map text) ∧ ∀ s ∈ l.map text, Msgp.LenOk s := by
  refine ⟨by unfold Msgp.LenOk at *; rw [List.length_map]; exact h, fun s hs => ?_⟩
  obtain ⟨x, hx, rfl⟩ := List.mem_map.1 hs
  exact text_len (h' x hx)

theorem dec_enc {α : Type} {app : α → Msgp.Bytes} {read : α → Msgp.Bytes → Msgp.R α} {ok : α → Prop}
    (h : Msgp.RoundTrip app read ok Msgp.whole) (v : α) (hv : ok v) (z : α) :
    Msgp.decodeMsgp read z (Msgp.encodeMsgp app v) = some v := by
  have := h v hv z []
  rw [List.append_nil] at this
  exact this

theorem decMeta_encMeta {m : Metadata} (h : FitsMeta m) : decMeta (encMeta m) = some m := by
  obtain ⟨h1, h2, h3, h4⟩ := h
  unfold decMeta encMeta
  rw [dec_enc Msgp.C73_Metadata_roundtrip (ofMeta m) ⟨(fun x hx => by cases hx), text_len h1, text_len h2, h3, h4⟩]
  simp only [Option.map_some, toMeta, ofMeta, untext_text]

theorem decVer_encVer {v : Version} (h : FitsVer v) (z : Version) : decVerInto z (encVer v) = some v := by
  obtain ⟨h1, h2, h3, h4, h5, h6, h7, h8, h9, h10, h11⟩ := h
  unfold decVerInto encVer
  rw [dec_enc Msgp.C73_Version_roundtrip (ofVer v) ⟨h1, h2, h3, h4, h5, h6, h7, text_len h8, text_len h9, texts_len h10 h11⟩]
  simp only [Option.map_some, toVer, ofVer, untext_text, untext_texts]

theorem decBucket_encBucket {b : Bucket} (h : FitsBucket b) : decBucket (encBucket b) = some b := by
  obtain ⟨h1, h2, h3, h4, h5, h6, h7, h8, h9⟩ := h
  unfold decBucket encBucket
  rw [dec_enc Msgp.C73_Bucket_roundtrip (ofBucket b) ⟨h1, h2, h3, h4, h5, h6, text_len h7, texts_len h8 h9⟩]
  simp only [Option.map_some, toBucket, ofBucket, untext_text, untext_texts]

/-! ## What is stored fits -/

structure Fits (n : Nat) (s : Store) : Prop where
  metas : ∀ k m, s.metas.get k = some m → FitsMeta m
  seqs : ∀ k b, s.vers.get k = some b → b.seq ≤ n
  vers : ∀ k b, s.vers.get k = some b → ∀ q v, b.items.get q = some v → FitsVer v
  buckets : ∀ k b, s.buckets.get k = some b → FitsBucket b

theorem Fits.mono {n m : Nat} (h : n ≤ m) {s : Store} (hs : Fits n s) : Fits m s :=
  ⟨hs.metas, fun k b hb => Nat.le_trans (hs.seqs k b hb) h, hs.vers, hs.buckets⟩

theorem fits_empty (n : Nat) : Fits n .empty :=
  ⟨fun _ _ h => (by cases h), fun _ _ h => (by cases h), fun _ _ h => (by cases h), fun _ _ h => (by cases h)⟩

theorem fits_updateVer {n : Nat} {s : Store} (h : Fits n s) {nm : Str} {d : Version} (hd : FitsVer d) {s' : Store}
    (he : Eff s (.updateVer nm d) s') : Fits n s' := by
  obtain ⟨h1, h2, h3, h4⟩ := h
  cases he with
  | updateVer _ _ b o g1 g2 g3 =>
    have ho := h3 _ _ g1 _ _ g2
    have hf : FitsVer { d with uniqueId := o.uniqueId, sequence := o.sequence, hash := o.hash } := by
      unfold FitsVer at *; grind
    refine ⟨h1, fun k b' hb => ?_, fun k b' hb => ?_, h4⟩
    · dsimp only at hb
      rw [KMap.get_put] at hb
      split at hb
      · cases hb; exact h2 _ b g1
      · exact h2 _ _ hb
    · dsimp only at hb
      rw [KMap.get_put] at hb
      split at hb
      · cases hb
        intro q v hv
        dsimp only at hv
        rw [KMap.get_put] at hv
        split at hv
        · cases hv; exact hf
        · exact h3 _ _ g1 _ _ hv
      · exact h3 _ _ hb

/-- A change of the buckets of versions. -/
theorem fits_put {n m : Nat} {s : Store} (h : Fits n s) (hnm : n ≤ m) (nm : Str) (b : VBucket) (hb : b.seq ≤ m)
    (hv : ∀ q v, b.items.get q = some v → FitsVer v) :
    (∀ k b', (s.vers.put nm b).get k = some b' → b'.seq ≤ m) ∧
    (∀ k b', (s.vers.put nm b).get k = some b' → ∀ q v, b'.items.get q = some v → FitsVer v) := by
  constructor
  · intro k b' hg
    rw [KMap.get_put] at hg
    split at hg
    · cases hg; exact hb
    · exact Nat.le_trans (h.seqs _ _ hg) hnm
  · intro k b' hg
    rw [KMap.get_put] at hg
    split at hg
    · cases hg; exact hv
    · exact h.vers _ _ hg

theorem fits_putItem {n : Nat} {s : Store} (h : Fits n s) {nm : Str} {b : VBucket} (hb : s.vers.get nm = some b) (key : Str) (v : Version)
    (hv : FitsVer v) : ∀ q v', (b.items.put key v).get q = some v' → FitsVer v' := by
  intro q v' hg
  rw [KMap.get_put] at hg
  split at hg
  · cases hg; exact hv
  · exact h.vers _ _ hb _ _ hg

theorem fits_eff {n : Nat} {s s' : Store} (h : Fits n s) {op : Op} (hop : OpFits n op) (hna : ∀ nm d, op ≠ .addVer nm d)
    (he : Eff s op s') : Fits n s' := by
  cases he with
  | addMeta id d g1 g2 g3 =>
    have hp := fits_put h (Nat.le_refl n) id ⟨0, .empty⟩ (Nat.zero_le _) (fun q v hv => by cases hv)
    refine ⟨fun k m hm => ?_, hp.1, hp.2, h.buckets⟩
    dsimp only at hm
    rw [KMap.get_put] at hm
    split at hm
    · cases hm; exact hop
    · exact h.metas _ _ hm
  | removeMeta nm g =>
    refine ⟨fun k m hm => ?_, fun k b hb => ?_, fun k b hb => ?_, h.buckets⟩
    · dsimp only at hm
      rw [KMap.get_del] at hm
      split at hm
      · cases hm
      · exact h.metas _ _ hm
    · dsimp only at hb
      rw [KMap.get_del] at hb
      split at hb
      · cases hb
      · exact h.seqs _ _ hb
    · dsimp only at hb
      rw [KMap.get_del] at hb
      split at hb
      · cases hb
      · exact h.vers _ _ hb
  | updateMeta id d o g1 g2 =>
    have ho := h.metas _ _ g1
    refine ⟨fun k m hm => ?_, h.seqs, h.vers, h.buckets⟩
    dsimp only at hm
    rw [KMap.get_put] at hm
    split at hm
    · cases hm
      have hd : FitsMeta d := hop
      unfold FitsMeta at *
      exact ⟨hd.1, ho.2.1, ho.2.2.1, hd.2.2.2⟩
    · exact h.metas _ _ hm
  | addVer nm d q b hi ui g1 g2 g3 g4 g5 g6 g7 g8 => exact absurd rfl (hna nm d)
  | migrateVer nm d b hi ui g1 g2 g3 g4 g5 g6 g7 =>
    obtain ⟨hd, hs⟩ := hop
    have hq : max b.seq d.sequence ≤ n := by have := h.seqs _ _ g3; omega
    have hp := fits_put h (Nat.le_refl n) nm ⟨max b.seq d.sequence, b.items.put (verKey nm d.sequence) d⟩ hq (fits_putItem h g3 _ _ hd)
    exact ⟨h.metas, hp.1, hp.2, h.buckets⟩
  | updateVer nm d b o g1 g2 g3 =>
    exact (fits_updateVer h hop (.updateVer nm d b o g1 g2 g3)).mono (Nat.le_refl n)
  | removeVer nm q b v g1 g2 =>
    have hp := fits_put h (Nat.le_refl n) nm { b with items := b.items.del (verKey nm q) } (h.seqs _ b g1)
      (fun q' v' hv => by
        dsimp only at hv
        rw [KMap.get_del] at hv
        split at hv
        · cases hv
        · exact h.vers _ _ g1 _ _ hv)
    exact ⟨h.metas, hp.1, hp.2, h.buckets⟩
  | removeAllVersion nm b g1 g2 =>
    have hp := fits_put h (Nat.le_refl n) nm ⟨0, .empty⟩ (Nat.zero_le _) (fun q v hv => by cases hv)
    exact ⟨h.metas, hp.1, hp.2, h.buckets⟩
  | findByHash x => exact ⟨h.metas, h.seqs, h.vers, h.buckets⟩
  | bucketCreate d g1 g2 =>
    refine ⟨h.metas, h.seqs, h.vers, fun k b hb => ?_⟩
    dsimp only at hb
    rw [KMap.get_put] at hb
    split at hb
    · cases hb; exact hop
    · exact h.buckets _ _ hb
  | bucketUpdate d o g1 g2 =>
    refine ⟨h.metas, h.seqs, h.vers, fun k b hb => ?_⟩
    dsimp only at hb
    rw [KMap.get_put] at hb
    split at hb
    · cases hb
      have ho := h.buckets _ _ g1
      have hd : FitsBucket d := hop
      unfold FitsBucket at *
      exact ⟨hd.1, hd.2.1, hd.2.2.1, hd.2.2.2.1, ho.2.2.2.2.1, hd.2.2.2.2.2⟩
    · exact h.buckets _ _ hb
  | bucketDelete nm =>
    refine ⟨h.metas, h.seqs, h.vers, fun k b hb => ?_⟩
    dsimp only at hb
    rw [KMap.get_del] at hb
    split at hb
    · cases hb
    · exact h.buckets _ _ hb
  | applyIndex i g => exact ⟨h.metas, h.seqs, h.vers, h.buckets⟩

theorem fits_addVer {n : Nat} (hn : n + 1 < 18446744073709551616) {s s' : Store} (h : Fits n s) {nm : Str} {d : Version} (hd : FitsVer d)
    {q : Nat} (ha : Meta.addVer nm d s = (.ok q, s')) : Fits (n + 1) s' := by
  obtain ⟨b, hi, ui, g3, g4, g5, g6, _, g7, g8, rfl⟩ := addVer_ok ha
  have hq : q ≤ n + 1 := by have := h.seqs _ _ g3; omega
  have hf : FitsVer { d with sequence := q } := by
    unfold FitsVer Msgp.InUint64 at *
    refine ⟨hd.1, hd.2.1, hd.2.2.1, hd.2.2.2.1, hd.2.2.2.2.1, hd.2.2.2.2.2.1, ?_, hd.2.2.2.2.2.2.2⟩
    dsimp only
    omega
  have hp := fits_put h (Nat.le_succ n) nm ⟨q, b.items.put (verKey nm q) { d with sequence := q }⟩ hq (fits_putItem h g3 _ _ hf)
  exact ⟨h.metas, hp.1, hp.2, h.buckets⟩

theorem setNth_fits {v : Version} (hv : FitsVer v) {now : Int} (hn : Msgp.InInt64 now) {i : Nat} {val : Str} (hl : Msgp.LenOk val)
    {l : List Str} (h : setNth v.locate i val = some l) : FitsVer { v with ts := now, locate := l } := by
  unfold setNth at h
  split at h
  · cases h
    obtain ⟨h1, h2, h3, h4, h5, h6, h7, h8, h9, h10, h11⟩ := hv
    refine ⟨h1, h2, h3, h4, h5, hn, h7, h8, h9, ?_, ?_⟩
    · unfold Msgp.LenOk at *
      dsimp only
      rw [List.length_set]
      exact h10
    · intro x hx
      rcases List.mem_or_eq_of_mem_set hx with hx | rfl
      · exact h11 x hx
      · exact hl
  · cases h

theorem getVer_fits {n : Nat} {s : Store} (h : Fits n s) {nm : Str} {q : Nat} {v : Version} (hg : Meta.getVer s nm q = .ok v) :
    FitsVer v := by
  unfold Meta.getVer at hg
  split at hg
  · cases hg
  · rename_i b hb
    split at hg
    · rename_i v' hv
      cases hg
      exact h.vers _ _ hb _ _ hv
    · cases hg

/-! ## Simulation -/

def lift {α : Type} : Except Err α → Except BErr α
  | .ok a => .ok a
  | .error e => .error (.err e)

def encRes {α : Type} (r : Except Err α × Store) : Except BErr α × BStore := (lift r.1, encStore r.2)

theorem sim_createVersionBucket (nm : Str) (s : Store) :
    createVersionBucket nm (encStore s) = encRes (Meta.createVersionBucket nm s) := by
  unfold createVersionBucket Meta.createVersionBucket
  by_cases h : nm = []
  · rw [if_pos h, if_pos h]; rfl
  · rw [if_neg h, if_neg h]
    have hg : (encStore s).vers.get nm = (s.vers.get nm).map encVB := KMap.get_map _ _ _
    rw [hg]
    cases s.vers.get nm with
    | some b => rfl
    | none =>
      simp only [Option.map_none, encRes, lift, encStore, KMap.map_put]
      rfl

theorem sim_removeVersionBucket (nm : Str) (s : Store) :
    removeVersionBucket nm (encStore s) = encRes (Meta.removeVersionBucket nm s) := by
  unfold removeVersionBucket Meta.removeVersionBucket
  have hg : (encStore s).vers.get nm = (s.vers.get nm).map encVB := KMap.get_map _ _ _
  rw [hg]
  cases s.vers.get nm with
  | none => rfl
  | some b => simp only [Option.map_some, encRes, lift, encStore, KMap.map_del]

theorem sim_addMeta (id : Str) (d : Metadata) (s : Store) : addMeta id d (encStore s) = encRes (Meta.addMeta id d s) := by
  unfold addMeta Meta.addMeta
  have hg : (encStore s).metas.get id = (s.metas.get id).map encMeta := KMap.get_map _ _ _
  rw [hg]
  cases s.metas.get id with
  | some m => rfl
  | none =>
    simp only [Option.map_none]
    rw [sim_createVersionBucket]
    rcases Meta.createVersionBucket id s with ⟨r, s1⟩
    cases r with
    | error e => rfl
    | ok a =>
      simp only [encRes, lift]
      cases keyErr id with
      | some e => rfl
      | none => simp only [encStore, KMap.map_put]

theorem sim_removeMeta (nm : Str) (s : Store) : removeMeta nm (encStore s) = encRes (Meta.removeMeta nm s) := by
  unfold removeMeta Meta.removeMeta
  have hg : (encStore s).metas.get nm = (s.metas.get nm).map encMeta := KMap.get_map _ _ _
  rw [hg]
  cases s.metas.get nm with
  | none => rfl
  | some m =>
    simp only [Option.map_some]
    have he : ({ encStore s with metas := (encStore s).metas.del nm } : BStore) = encStore { s with metas := s.metas.del nm } := by
      simp only [encStore, KMap.map_del]
    rw [he, sim_removeVersionBucket]
    rcases Meta.removeVersionBucket nm { s with metas := s.metas.del nm } with ⟨r, s1⟩
    cases r with
    | ok a => rfl
    | error e => cases e <;> rfl

theorem sim_getMeta {n : Nat} {s : Store} (h : Fits n s) (nm : Str) : getMeta (encStore s) nm = lift (Meta.getMeta s nm) := by
  unfold getMeta Meta.getMeta
  have hg : (encStore s).metas.get nm = (s.metas.get nm).map encMeta := KMap.get_map _ _ _
  rw [hg]
  cases hm : s.metas.get nm with
  | none => rfl
  | some m =>
    simp only [Option.map_some]
    rw [decMeta_encMeta (h.metas _ _ hm)]
    rfl

theorem sim_updateMeta {n : Nat} {s : Store} (h : Fits n s) (id : Str) (d : Metadata) :
    updateMeta id d (encStore s) = encRes (Meta.updateMeta id d s) := by
  unfold updateMeta Meta.updateMeta
  rw [sim_getMeta h]
  unfold Meta.getMeta
  cases s.metas.get id with
  | none => rfl
  | some m =>
    simp only [lift]
    by_cases ht : d.updateTime ≤ m.updateTime
    · rw [if_pos ht, if_pos ht]; rfl
    · rw [if_neg ht, if_neg ht]
      cases keyErr id with
      | some e => rfl
      | none => simp only [encRes, lift, encStore, KMap.map_put]

theorem sim_getVerIn (z : Version) (b : VBucket) (hb : ∀ q v, b.items.get q = some v → FitsVer v) (nm : Str) (q : Nat) :
    getVerIn z (encVB b) nm q = match b.items.get (verKey nm q) with
      | some v => .ok v
      | none => .error (.err .notFound) := by
  unfold getVerIn
  have hg : (encVB b).items.get (verKey nm q) = (b.items.get (verKey nm q)).map encVer := KMap.get_map _ _ _
  rw [hg]
  cases hv : b.items.get (verKey nm q) with
  | none => rfl
  | some v =>
    simp only [Option.map_some]
    rw [decVer_encVer (hb _ _ hv)]

theorem sim_getVer (z : Version) {n : Nat} {s : Store} (h : Fits n s) (nm : Str) (q : Nat) :
    getVerInto z (encStore s) nm q = lift (Meta.getVer s nm q) := by
  unfold getVerInto Meta.getVer
  have hg : (encStore s).vers.get nm = (s.vers.get nm).map encVB := KMap.get_map _ _ _
  rw [hg]
  cases hb : s.vers.get nm with
  | none => rfl
  | some b =>
    simp only [Option.map_some]
    rw [sim_getVerIn z b (h.vers _ _ hb)]
    cases b.items.get (verKey nm q) <;> rfl

theorem sim_exists (s : Store) (u : Str) : existsByUniqueId (encStore s) u = Meta.existsByUniqueId s u := rfl

theorem sim_addBoth (h u key : Str) (s : Store) : addBoth h u key (encStore s) = encRes (Meta.addBoth h u key s) := by
  unfold addBoth Meta.addBoth
  show (match addIndex s.hashIdx h key with | .error e => _ | .ok hi => _) = _
  cases addIndex s.hashIdx h key with
  | error e => rfl
  | ok hi =>
    show (match addIndex s.uidIdx u key with | .error e => _ | .ok ui => _) = _
    dsimp only
    cases addIndex s.uidIdx u key <;> rfl

theorem sim_addBothMigrated (h key : Str) (s : Store) :
    addBothMigrated h key (encStore s) = encRes (Meta.addBothMigrated h key s) := by
  unfold addBothMigrated Meta.addBothMigrated
  show (match addIndex s.uidIdx h key with | .error e => _ | .ok hi => _) = _
  cases addIndex s.uidIdx h key with
  | error e => rfl
  | ok hi =>
    show (match addIndex s.hashIdx h key with | .error e => _ | .ok ui => _) = _
    dsimp only
    cases addIndex s.hashIdx h key <;> rfl

theorem encStore_putVer (s : Store) (nm : Str) (b : VBucket) :
    encStore { s with vers := s.vers.put nm b } = { encStore s with vers := (encStore s).vers.put nm (encVB b) } := by
  simp only [encStore, KMap.map_put]

theorem encVB_put (b : VBucket) (q : Nat) (key : Str) (v : Version) :
    encVB ⟨q, b.items.put key v⟩ = ⟨q, (encVB b).items.put key (encVer v)⟩ := by
  simp only [encVB, KMap.map_put]

theorem encStore_putTwice (s : Store) (nm : Str) (b : VBucket) (q : Nat) (key : Str) (v : Version) :
    BStore.mk (encStore s).metas (((encStore s).vers.put nm (BVBucket.mk q (encVB b).items)).put nm
      (BVBucket.mk q ((encVB b).items.put key (encVer v)))) (encStore s).hashIdx (encStore s).uidIdx (encStore s).buckets (encStore s).applied =
    encStore (Store.mk s.metas ((s.vers.put nm (VBucket.mk q b.items)).put nm (VBucket.mk q (b.items.put key v))) s.hashIdx s.uidIdx
      s.buckets s.applied) := by
  simp only [encStore, KMap.map_put, encVB]

theorem sim_addVer (nm : Str) (d : Version) (s : Store) : addVer nm d (encStore s) = encRes (Meta.addVer nm d s) := by
  unfold addVer Meta.addVer
  have hg : (encStore s).vers.get nm = (s.vers.get nm).map encVB := KMap.get_map _ _ _
  rw [hg]
  cases s.vers.get nm with
  | none => rfl
  | some b =>
    simp only [Option.map_some]
    rw [sim_exists]
    by_cases hx : Meta.existsByUniqueId s d.uniqueId = true
    · rw [if_pos hx, if_pos hx]; rfl
    · rw [if_neg hx, if_neg hx]
      have hi : (encVB b).items.get (verKey nm (b.seq + 1)) = (b.items.get (verKey nm (b.seq + 1))).map encVer := KMap.get_map _ _ _
      show (match (encVB b).items.get (verKey nm (b.seq + 1)) with | some _ => _ | none => _) = _
      rw [hi]
      cases b.items.get (verKey nm (b.seq + 1)) with
      | some v =>
        simp only [Option.map_some, encRes, lift, encStore, KMap.map_put]
        rfl
      | none =>
        simp only [Option.map_none]
        cases hk : keyErr (verKey nm (b.seq + 1)) with
        | some e =>
          show ((match keyErr (verKey nm (b.seq + 1)) with | some e => _ | none => _) : Except BErr Nat × BStore) = _
          rw [hk]
          simp only [encRes, lift, encStore, KMap.map_put]
          rfl
        | none =>
          show ((match keyErr (verKey nm (b.seq + 1)) with | some e => _ | none => _) : Except BErr Nat × BStore) = _
          rw [hk]
          dsimp only
          have he := encStore_putTwice s nm b (b.seq + 1) (verKey nm (b.seq + 1)) { d with sequence := b.seq + 1 }
          show (match addBoth d.hash d.uniqueId (verKey nm (b.seq + 1)) (BStore.mk (encStore s).metas (((encStore s).vers.put nm
              (BVBucket.mk (b.seq + 1) (encVB b).items)).put nm (BVBucket.mk (b.seq + 1) ((encVB b).items.put (verKey nm (b.seq + 1))
                (encVer { d with sequence := b.seq + 1 })))) (encStore s).hashIdx (encStore s).uidIdx (encStore s).buckets
                (encStore s).applied) with | (.error e, s3) => _ | (.ok _, s3) => _) = _
          rw [he, sim_addBoth]
          rcases Meta.addBoth d.hash d.uniqueId (verKey nm (b.seq + 1)) _ with ⟨r, s3⟩
          cases r <;> rfl

theorem sim_addVerWithSequence (nm : Str) (d : Version) (s : Store) :
    addVerWithSequence nm d (encStore s) = encRes (Meta.addVerWithSequence nm d s) := by
  unfold addVerWithSequence Meta.addVerWithSequence
  have hg : (encStore s).vers.get nm = (s.vers.get nm).map encVB := KMap.get_map _ _ _
  rw [hg]
  cases s.vers.get nm with
  | none => rfl
  | some b =>
    simp only [Option.map_some]
    rw [sim_exists]
    by_cases hx : Meta.existsByUniqueId s d.uniqueId = true
    · rw [if_pos hx, if_pos hx]; rfl
    · rw [if_neg hx, if_neg hx]
      have hb1 : (if d.sequence > (encVB b).seq then { encVB b with seq := d.sequence } else encVB b) =
          encVB (if d.sequence > b.seq then { b with seq := d.sequence } else b) := by
        show (if d.sequence > b.seq then _ else _) = _
        split <;> rfl
      rw [hb1]
      generalize (if d.sequence > b.seq then ({ b with seq := d.sequence } : VBucket) else b) = b1
      have hi : (encVB b1).items.get (verKey nm d.sequence) = (b1.items.get (verKey nm d.sequence)).map encVer := KMap.get_map _ _ _
      rw [hi]
      cases b1.items.get (verKey nm d.sequence) with
      | some v => simp only [Option.map_some, encRes, lift, encStore, KMap.map_put]
      | none =>
        simp only [Option.map_none]
        cases keyErr (verKey nm d.sequence) with
        | some e => simp only [encRes, lift, encStore, KMap.map_put]
        | none =>
          exact (congrArg (addBothMigrated d.hash (verKey nm d.sequence)) (encStore_putTwice s nm b1 b1.seq (verKey nm d.sequence) d)).trans
            (sim_addBothMigrated d.hash (verKey nm d.sequence) _)

theorem sim_removeVer {n : Nat} {s : Store} (h : Fits n s) (nm : Str) (q : Nat) :
    removeVer nm q (encStore s) = encRes (Meta.removeVer nm q s) := by
  unfold removeVer Meta.removeVer
  have hg : (encStore s).vers.get nm = (s.vers.get nm).map encVB := KMap.get_map _ _ _
  rw [hg]
  cases hb : s.vers.get nm with
  | none => rfl
  | some b =>
    simp only [Option.map_some]
    rw [sim_getVerIn zeroVer b (h.vers _ _ hb)]
    cases b.items.get (verKey nm q) with
    | none => rfl
    | some v => simp only [encRes, lift, encStore, KMap.map_put, KMap.map_del, encVB]

theorem sim_removeAllVersion (nm : Str) (s : Store) :
    removeAllVersion nm (encStore s) = encRes (Meta.removeAllVersion nm s) := by
  unfold removeAllVersion Meta.removeAllVersion
  rw [sim_removeVersionBucket]
  rcases Meta.removeVersionBucket nm s with ⟨r, s1⟩
  cases r with
  | error e => rfl
  | ok a => exact sim_createVersionBucket nm s1

theorem sim_updateVer {n : Nat} {s : Store} (h : Fits n s) (nm : Str) (d : Version) :
    updateVer nm d (encStore s) = encRes (Meta.updateVer nm d s) := by
  unfold updateVer Meta.updateVer
  have hg : (encStore s).vers.get nm = (s.vers.get nm).map encVB := KMap.get_map _ _ _
  rw [hg]
  cases hb : s.vers.get nm with
  | none => rfl
  | some b =>
    simp only [Option.map_some]
    rw [sim_getVerIn zeroVer b (h.vers _ _ hb)]
    cases b.items.get (verKey nm d.sequence) with
    | none => rfl
    | some o =>
      dsimp only
      by_cases ht : d.ts ≤ o.ts
      · rw [if_pos ht, if_pos ht]; rfl
      · rw [if_neg ht, if_neg ht]
        cases keyErr (verKey nm d.sequence) with
        | some e => rfl
        | none => simp only [encRes, lift, encStore, KMap.map_put, encVB]

theorem sim_locate {n : Nat} (now : Int) (hn : Msgp.InInt64 now) (i : Nat) (val : Str) (hv : Msgp.LenOk val) (keys : List Str) :
    ∀ (z : Version) (s : Store), Fits n s →
      updateLocateLoop now i val z keys (encStore s) = (Meta.updateLocateLoop now i val keys s).map encRes ∧
      ∀ r s', Meta.updateLocateLoop now i val keys s = some (r, s') → Fits n s' := by
  induction keys with
  | nil =>
    intro z s h
    refine ⟨rfl, fun r s' hr => ?_⟩
    simp only [Meta.updateLocateLoop, Option.some.injEq, Prod.mk.injEq] at hr
    rw [← hr.2]
    exact h
  | cons key keys ih =>
    intro z s h
    unfold updateLocateLoop Meta.updateLocateLoop
    cases cutLast '.' key with
    | none => exact ⟨rfl, fun r s' hr => by cases hr⟩
    | some p =>
      obtain ⟨name, seq⟩ := p
      dsimp only
      rw [sim_getVer z h]
      cases hg : Meta.getVer s name (toUint64 seq) with
      | error e =>
        refine ⟨rfl, fun r s' hr => ?_⟩
        simp only [Option.some.injEq, Prod.mk.injEq] at hr
        rw [← hr.2]
        exact h
      | ok v =>
        simp only [lift]
        cases hl : setNth v.locate i val with
        | none => exact ⟨rfl, fun r s' hr => by cases hr⟩
        | some l =>
          dsimp only
          rw [sim_updateVer h]
          have hf := setNth_fits (getVer_fits h hg) hn hv hl
          rcases hu : Meta.updateVer name { v with ts := now, locate := l } s with ⟨r, s1⟩
          cases r with
          | error e =>
            refine ⟨rfl, fun r s' hr => ?_⟩
            simp only [Option.some.injEq, Prod.mk.injEq] at hr
            rw [← hr.2]
            have : s1 = s := by unfold Meta.updateVer at hu; grind
            rw [this]
            exact h
          | ok a =>
            simp only [encRes, lift]
            obtain ⟨b, o, h1, h2, h3, rfl⟩ := updateVer_ok hu
            exact ih _ _ (fits_updateVer h hf (.updateVer _ _ b o h1 h2 h3))

theorem sim_lastVersionNumber (s : Store) (nm : Str) : lastVersionNumber (encStore s) nm = Meta.lastVersionNumber s nm := by
  unfold lastVersionNumber Meta.lastVersionNumber
  have hg : (encStore s).vers.get nm = (s.vers.get nm).map encVB := KMap.get_map _ _ _
  rw [hg]
  cases s.vers.get nm with
  | none => rfl
  | some b =>
    have hk : (encVB b).items.keys = b.items.keys := KMap.keys_map _ _
    simp only [Option.map_some]
    rw [hk]
    cases b.items.keys.getLast? <;> rfl

theorem sim_getVersion {n : Nat} {s : Store} (h : Fits n s) (nm : Str) (v : Int) :
    getVersion (encStore s) nm v = lift (Meta.getVersion s nm v) := by
  unfold getVersion Meta.getVersion
  split
  · rw [sim_lastVersionNumber, sim_getVer zeroVer h]
  · rw [sim_getVer zeroVer h]

theorem getVer_err {s : Store} {nm : Str} {q : Nat} {e : Err} (h : Meta.getVer s nm q = .error e) : e = .notFound := by
  unfold Meta.getVer at h
  grind

theorem getVersion_err {s : Store} {nm : Str} {v : Int} {e : Err} (h : Meta.getVersion s nm v = .error e) : e = .notFound := by
  unfold Meta.getVersion at h
  split at h
  · exact getVer_err h
  · exact getVer_err h

/-- What `FindByHash` looks up for an entry of the index. -/
theorem look_hashIdx (s : Store) (hi : KMap (KMap Unit)) (k : Str) : lookKey { s with hashIdx := hi } k = lookKey s k := rfl

theorem sim_findLoop {n : Nat} (hash : Str) (keys : List Str) : ∀ (s : Store), Fits n s →
    findLoop hash keys (encStore s) = (.ok (keys.filterMap fun k => (lookKey s k).toOption),
      encStore { s with hashIdx := (keys.filter fun k => (lookKey s k).toOption.isNone).foldl (fun idx k => removeIndex idx hash k) s.hashIdx }) := by
  induction keys with
  | nil => intro s h; rfl
  | cons k ks ih =>
    intro s h
    unfold findLoop
    have hlook : look (encStore s) k = lift (lookKey s k) := by
      unfold look lookKey
      cases cutLast '.' k with
      | none => rfl
      | some p => exact sim_getVersion h _ _
    rw [hlook]
    cases hl : lookKey s k with
    | error e =>
      have he : e = .notFound := by
        unfold lookKey at hl
        cases hc : cutLast '.' k with
        | none => rw [hc] at hl; cases hl; rfl
        | some p => rw [hc] at hl; exact getVersion_err hl
      subst he
      simp only [lift]
      have h' : Fits n { s with hashIdx := removeIndex s.hashIdx hash k } := ⟨h.metas, h.seqs, h.vers, h.buckets⟩
      have := ih { s with hashIdx := removeIndex s.hashIdx hash k } h'
      show findLoop hash ks (encStore { s with hashIdx := removeIndex s.hashIdx hash k }) = _
      rw [this]
      simp only [look_hashIdx]
      rw [List.filterMap_cons, List.filter_cons]
      rw [hl]
      rfl
    | ok v =>
      simp only [lift]
      rw [ih s h]
      dsimp only
      rw [List.filterMap_cons, List.filter_cons, hl]
      rfl

theorem sim_findByHash {n : Nat} {s : Store} (h : Fits n s) (hash : Str) :
    findByHash (encStore s) hash = (.ok (Meta.findByHash s hash).1, encStore (Meta.findByHash s hash).2) :=
  sim_findLoop hash _ s h

theorem sim_bucketGet {n : Nat} {s : Store} (h : Fits n s) (nm : Str) : bucketGet (encStore s) nm = lift (Meta.bucketGet s nm) := by
  unfold bucketGet Meta.bucketGet
  have hg : (encStore s).buckets.get nm = (s.buckets.get nm).map encBucket := KMap.get_map _ _ _
  rw [hg]
  cases hm : s.buckets.get nm with
  | none => rfl
  | some m =>
    simp only [Option.map_some]
    rw [decBucket_encBucket (h.buckets _ _ hm)]
    rfl

theorem sim_bucketCreate (d : Bucket) (s : Store) : bucketCreate d (encStore s) = encRes (Meta.bucketCreate d s) := by
  unfold bucketCreate Meta.bucketCreate
  by_cases hn : d.name = []
  · rw [if_pos hn, if_pos hn]; rfl
  · rw [if_neg hn, if_neg hn]
    have hg : (encStore s).buckets.get d.name = (s.buckets.get d.name).map encBucket := KMap.get_map _ _ _
    rw [hg]
    cases s.buckets.get d.name with
    | some m => rfl
    | none =>
      simp only [Option.map_none]
      cases keyErr d.name with
      | some e => rfl
      | none => simp only [encRes, lift, encStore, KMap.map_put]

theorem sim_bucketUpdate {n : Nat} {s : Store} (h : Fits n s) (d : Bucket) :
    bucketUpdate d (encStore s) = encRes (Meta.bucketUpdate d s) := by
  unfold bucketUpdate Meta.bucketUpdate
  by_cases hn : d.name = []
  · rw [if_pos hn, if_pos hn]; rfl
  · rw [if_neg hn, if_neg hn, sim_bucketGet h]
    unfold Meta.bucketGet
    cases s.buckets.get d.name with
    | none => rfl
    | some o =>
      simp only [lift]
      by_cases ht : d.updateTime ≤ o.updateTime
      · rw [if_pos ht, if_pos ht]; rfl
      · rw [if_neg ht, if_neg ht]
        cases keyErr d.name with
        | some e => rfl
        | none => simp only [encRes, lift, encStore, KMap.map_put]

theorem sim_bucketDelete (nm : Str) (s : Store) : bucketDelete nm (encStore s) = encRes (Meta.bucketDelete nm s) := by
  simp only [bucketDelete, Meta.bucketDelete, encRes, lift, encStore, KMap.map_del]

theorem sim_applyIndex (i : Nat) (s : Store) : applyIndex i (encStore s) = encRes (Meta.applyIndex i s) := by
  unfold applyIndex Meta.applyIndex
  show (if i > s.applied then _ else _) = _
  split <;> rfl

theorem sim_update {α : Type} {f : BTx α} {g : Tx α} {s : Store} (h : f (encStore s) = encRes (g s)) :
    update f (encStore s) = encRes (Meta.update g s) := by
  unfold update Meta.update
  rw [h]
  rcases g s with ⟨r, s1⟩
  cases r <;> rfl

theorem ofUnit_lift (r : Except Err Unit) : BRes.ofUnit (lift r) = asRes (Res.ofUnit r) := by cases r <;> rfl

/-- One operation. -/
theorem sim_step {n : Nat} {s : Store} (h : Fits n s) (op : Op) (hop : OpFits n op) :
    step (encStore s) op = (asRes (Meta.step s op).1, encStore (Meta.step s op).2) := by
  cases op with
  | addMeta id d => simp only [step, Meta.step]; rw [sim_update (sim_addMeta id d s)]; simp only [encRes, ofUnit_lift]
  | updateMeta id d => simp only [step, Meta.step]; rw [sim_update (sim_updateMeta h id d)]; simp only [encRes, ofUnit_lift]
  | removeMeta id => simp only [step, Meta.step]; rw [sim_update (sim_removeMeta id s)]; simp only [encRes, ofUnit_lift]
  | addVer nm d =>
    simp only [step, Meta.step, repoAddVersion]
    by_cases h1 : d.hash = []
    · simp only [if_pos h1]; rfl
    · by_cases h2 : d.uniqueId = []
      · simp only [if_neg h1, if_pos h2]; rfl
      · simp only [if_neg h1, if_neg h2]
        rw [sim_update (sim_addVer nm d s)]
        rcases Meta.update (Meta.addVer nm d) s with ⟨r, s1⟩
        cases r <;> rfl
  | migrateVer nm d =>
    simp only [step, Meta.step, repoMigrateVersion]
    by_cases h1 : d.hash = []
    · simp only [if_pos h1]; rfl
    · by_cases h2 : d.uniqueId = []
      · simp only [if_neg h1, if_pos h2]; rfl
      · simp only [if_neg h1, if_neg h2]
        rw [sim_update (sim_addVerWithSequence nm d s)]
        simp only [encRes, ofUnit_lift]
  | updateVer nm d => simp only [step, Meta.step]; rw [sim_update (sim_updateVer h nm d)]; simp only [encRes, ofUnit_lift]
  | removeVer nm q => simp only [step, Meta.step]; rw [sim_update (sim_removeVer h nm q)]; simp only [encRes, ofUnit_lift]
  | removeAllVersion nm => simp only [step, Meta.step]; rw [sim_update (sim_removeAllVersion nm s)]; simp only [encRes, ofUnit_lift]
  | updateLocate now hash i v =>
    have := (sim_locate now hop.1 i v hop.2 (getIndex s.hashIdx hash) zeroVer s h).1
    simp only [step, Meta.step, updateLocateByHash, Meta.updateLocateByHash]
    show (match updateLocateLoop now i v zeroVer (getIndex s.hashIdx hash) (encStore s) with
      | none => _ | some (.ok _, s') => _ | some (.error e, _) => _) = _
    rw [this]
    cases Meta.updateLocateLoop now i v (getIndex s.hashIdx hash) s with
    | none => rfl
    | some p =>
      obtain ⟨r, s1⟩ := p
      cases r <;> rfl
  | findByHash hash => simp only [step, Meta.step]; rw [sim_findByHash h]; rfl
  | bucketCreate d => simp only [step, Meta.step]; rw [sim_update (sim_bucketCreate d s)]; simp only [encRes, ofUnit_lift]
  | bucketUpdate d => simp only [step, Meta.step]; rw [sim_update (sim_bucketUpdate h d)]; simp only [encRes, ofUnit_lift]
  | bucketDelete nm => simp only [step, Meta.step]; rw [sim_update (sim_bucketDelete nm s)]; simp only [encRes, ofUnit_lift]
  | applyIndex i => simp only [step, Meta.step]; rw [sim_update (sim_applyIndex i s)]; simp only [encRes, ofUnit_lift]

theorem fits_step {n : Nat} (hn : n + 1 < 18446744073709551616) {s : Store} (h : Fits n s) (op : Op) (hop : OpFits n op) :
    Fits (n + 1) (Meta.step s op).2 := by
  have other : ¬ op.isLocate → (∀ nm d, op ≠ .addVer nm d) → Fits (n + 1) (Meta.step s op).2 := by
    intro hl hna
    refine (step_induct (Fits n) s op h ?_).mono (Nat.le_succ n)
    intro op' t t' ho he ht
    rcases ho with rfl | ⟨ho, _⟩
    · exact fits_eff ht hop hna he
    · exact absurd ho hl
  cases op with
  | updateLocate now hash i v =>
    have := (sim_locate now hop.1 i v hop.2 (getIndex s.hashIdx hash) zeroVer s h).2
    simp only [Meta.step, Meta.updateLocateByHash]
    cases hu : Meta.updateLocateLoop now i v (getIndex s.hashIdx hash) s with
    | none => exact h.mono (Nat.le_succ n)
    | some p =>
      obtain ⟨r, s1⟩ := p
      cases r with
      | ok a => exact (this _ _ hu).mono (Nat.le_succ n)
      | error e => exact h.mono (Nat.le_succ n)
  | addVer nm d =>
    simp only [Meta.step, repoAddVersion]
    by_cases h1 : d.hash = []
    · simp only [if_pos h1]; exact h.mono (Nat.le_succ n)
    · by_cases h2 : d.uniqueId = []
      · simp only [if_neg h1, if_pos h2]; exact h.mono (Nat.le_succ n)
      · simp only [if_neg h1, if_neg h2]
        rcases update_cases (Meta.addVer nm d) s with ⟨e, hu, _⟩ | ⟨a, s', ha, hu⟩
        · rw [hu]; exact h.mono (Nat.le_succ n)
        · rw [hu]; exact fits_addVer hn h hop ha
  | _ => exact other (by simp [Op.isLocate]) (by simp)

theorem OpFits.mono {n m : Nat} (h : n ≤ m) {op : Op} (ho : OpFits n op) : OpFits m op := by
  cases op <;> first | exact ho | exact ⟨ho.1, Nat.le_trans ho.2 h⟩

theorem sim_run (ops : List Op) : ∀ (n : Nat) (s : Store), Fits n s → (∀ op ∈ ops, OpFits n op) →
    n + ops.length < 18446744073709551616 →
    run (encStore s) ops = ((Meta.run s ops).1.map asRes, encStore (Meta.run s ops).2) ∧ Fits (n + ops.length) (Meta.run s ops).2 := by
  induction ops with
  | nil => intro n s h _ _; exact ⟨rfl, h⟩
  | cons op ops ih =>
    intro n s h ho hn
    rw [List.length_cons] at hn
    have h1 := ho op (by simp)
    have h2 := fits_step (by omega) h op h1
    obtain ⟨i1, i2⟩ := ih (n + 1) _ h2 (fun o hm => (ho o (by simp [hm])).mono (Nat.le_succ n)) (by omega)
    constructor
    · unfold run Meta.run
      rw [sim_step h op h1]
      dsimp only
      rw [i1]
      rfl
    · have : n + (op :: ops).length = n + 1 + ops.length := by rw [List.length_cons]; omega
      rw [this]
      exact i2

/-! ## The property -/

/-- **C131** The database file answers every history like the store of records, and holds what that holds. -/
theorem C131_refines (ops : List Op) (h : ∀ op ∈ ops, OpFits (2 ^ 63) op) (hl : ops.length < 2 ^ 63) :
    run .empty ops = ((Meta.run .empty ops).1.map asRes, encStore (Meta.run .empty ops).2) :=
  (sim_run ops (2 ^ 63) .empty (fits_empty _) h (by omega)).1

/-- **C131** Nothing the server wrote is refused when it reads it. -/
theorem C131_no_decode_error (ops : List Op) (h : ∀ op ∈ ops, OpFits (2 ^ 63) op) (hl : ops.length < 2 ^ 63) :
    BRes.err .decode ∉ (run .empty ops).1 := by
  rw [C131_refines ops h hl]
  intro hm
  obtain ⟨r, _, hr⟩ := List.mem_map.1 hm
  cases r <;> cases hr

theorem decodeAll_map {α : Type} {dec : Bytes → Option α} {enc : α → Bytes} (l : List (Str × α))
    (h : ∀ e ∈ l, dec (enc e.2) = some e.2) : decodeAll dec (l.map fun e => (e.1, enc e.2)) = .ok (l.map (·.2)) := by
  induction l with
  | nil => rfl
  | cons e l ih =>
    simp only [List.map_cons, decodeAll]
    rw [h e (by simp), ih fun e he => h e (by simp [he])]

theorem takeWhile_map_key {α β : Type} (f : α → β) (p : Str → Bool) (l : List (Str × α)) :
    (l.map fun e => (e.1, f e.2)).takeWhile (fun e => p e.1) = (l.takeWhile fun e => p e.1).map fun e => (e.1, f e.2) := by
  induction l with
  | nil => rfl
  | cons e l ih =>
    simp only [List.map_cons, List.takeWhile_cons]
    split
    · simp only [List.map_cons]; rw [ih]
    · rfl

theorem seek_mem {α : Type} {m : KMap α} {k : Str} {e : Str × α} (h : e ∈ m.seek k) : m.get e.1 = some e.2 :=
  (KMap.mem_iff_get m e.1 e.2).1 ((List.dropWhile_sublist _).subset h)

theorem sim_listPrefix {α : Type} {dec : Bytes → Option α} {enc : α → Bytes} (m : KMap α) (h : ∀ k v, m.get k = some v → dec (enc v) = some v)
    (pre : Str) (size : Nat) : listPrefix dec (m.map enc) pre size = .ok (Meta.listPrefix m pre size) := by
  unfold listPrefix Meta.listPrefix
  by_cases hp : pre ≠ []
  · rw [if_pos hp, if_pos hp, KMap.seek_map, takeWhile_map_key enc (fun k => hasPrefix k pre), ← List.map_take, decodeAll_map]
    intro e he
    exact h e.1 e.2 (seek_mem ((List.takeWhile_sublist _).subset (List.mem_of_mem_take he)))
  · rw [if_neg hp, if_neg hp, KMap.entries_map, ← List.map_take, decodeAll_map, KMap.size_map]
    intro e he
    exact h e.1 e.2 ((KMap.mem_iff_get m e.1 e.2).1 (List.mem_of_mem_take he))

/-- **C131** Reading: single records, lists, and the bytes that a migration sends (repo/metadata_repo.go `GetMetadataBytes`,
`ForeachVersionBytes`, bucket_logic.go:49-61 `GetBytes`). -/
theorem C131_reads (ops : List Op) (h : ∀ op ∈ ops, OpFits (2 ^ 63) op) (hl : ops.length < 2 ^ 63) :
    let b := (run .empty ops).2
    let s := (Meta.run .empty ops).2
    (∀ n, getMeta b n = lift (Meta.getMeta s n)) ∧
    (∀ n v, getVersion b n v = lift (Meta.getVersion s n v)) ∧
    (∀ n, bucketGet b n = lift (Meta.bucketGet s n)) ∧
    (∀ n i j, repoListVersions b n i j = lift (Meta.repoListVersions s n i j)) ∧
    (∀ pre k, listPrefix decMeta b.metas pre k = .ok (Meta.listPrefix s.metas pre k)) ∧
    (∀ pre k, listPrefix decBucket b.buckets pre k = .ok (Meta.listPrefix s.buckets pre k)) ∧
    (∀ n, b.metas.get n = (s.metas.get n).map encMeta) ∧ (∀ n, b.buckets.get n = (s.buckets.get n).map encBucket) := by
  obtain ⟨h1, h2⟩ := sim_run ops (2 ^ 63) .empty (fits_empty _) h (by omega)
  have h1' : run .empty ops = ((Meta.run .empty ops).1.map asRes, encStore (Meta.run .empty ops).2) := h1
  intro b s
  have hb : b = encStore s := by show (run .empty ops).2 = _; rw [h1']
  rw [hb]
  refine ⟨fun n => sim_getMeta h2 n, fun n v => sim_getVersion h2 n v, fun n => sim_bucketGet h2 n, fun n i j => ?_, fun pre k => ?_,
    fun pre k => ?_, fun n => KMap.get_map _ _ _, fun n => KMap.get_map _ _ _⟩
  · unfold repoListVersions Meta.repoListVersions
    have hg : (encStore s).vers.get n = (s.vers.get n).map encVB := KMap.get_map _ _ _
    rw [hg]
    cases hv : s.vers.get n with
    | none => rfl
    | some vb =>
      simp only [Option.map_some]
      have hs : (encVB vb).items.seek (n ++ '.' :: fmtInt i) = (vb.items.seek (n ++ '.' :: fmtInt i)).map fun e => (e.1, encVer e.2) :=
        KMap.seek_map _ _ _
      have hz : (encVB vb).items.size = vb.items.size := KMap.size_map _ _
      rw [hs, hz, ← List.map_take, decodeAll_map]
      · rw [List.map_take]; rfl
      · intro e he
        exact decVer_encVer (h2.vers _ _ hv _ _ (seek_mem (List.mem_of_mem_take he))) zeroVer
  · exact sim_listPrefix _ (fun n m hm => decMeta_encMeta (h2.metas _ _ hm)) pre k
  · exact sim_listPrefix _ (fun n m hm => decBucket_encBucket (h2.buckets _ _ hm)) pre k

/-- **C131** The bytes of the file determine the records: files with the same bytes hold the same. -/
theorem C131_faithful (ops ops' : List Op) (h : ∀ op ∈ ops, OpFits (2 ^ 63) op) (hl : ops.length < 2 ^ 63)
    (h' : ∀ op ∈ ops', OpFits (2 ^ 63) op) (hl' : ops'.length < 2 ^ 63) (he : (run .empty ops).2 = (run .empty ops').2) :
    (Meta.run .empty ops).2 = (Meta.run .empty ops').2 := by
  obtain ⟨h1, f1⟩ := sim_run ops (2 ^ 63) .empty (fits_empty _) h (by omega)
  obtain ⟨h2, f2⟩ := sim_run ops' (2 ^ 63) .empty (fits_empty _) h' (by omega)
  have e1 : run .empty ops = _ := h1
  have e2 : run .empty ops' = _ := h2
  rw [e1, e2] at he
  dsimp only at he
  generalize (Meta.run .empty ops).2 = s at *
  generalize (Meta.run .empty ops').2 = t at *
  have inj : ∀ {α : Type} {dec : Bytes → Option α} {enc : α → Bytes} (m m' : KMap α), (∀ k v, m.get k = some v → dec (enc v) = some v) →
      (∀ k v, m'.get k = some v → dec (enc v) = some v) → m.map enc = m'.map enc → m = m' := by
    intro α dec enc m m' g g' hm
    apply KMap.ext_get
    intro k
    have hk : (m.get k).map enc = (m'.get k).map enc := by rw [← KMap.get_map, ← KMap.get_map, hm]
    cases hx : m.get k with
    | none =>
      rw [hx] at hk
      cases hy : m'.get k with
      | none => rfl
      | some y => rw [hy] at hk; cases hk
    | some x =>
      rw [hx] at hk
      cases hy : m'.get k with
      | none => rw [hy] at hk; cases hk
      | some y =>
        rw [hy] at hk
        simp only [Option.map_some, Option.some.injEq] at hk
        have := g k x hx
        rw [hk, g' k y hy] at this
        exact this.symm
  have hm : s.metas.map encMeta = t.metas.map encMeta := congrArg BStore.metas he
  have hb : s.buckets.map encBucket = t.buckets.map encBucket := congrArg BStore.buckets he
  have hv : s.vers.map encVB = t.vers.map encVB := congrArg BStore.vers he
  have e1 := inj _ _ (fun k v hk => decMeta_encMeta (f1.metas k v hk)) (fun k v hk => decMeta_encMeta (f2.metas k v hk)) hm
  have e2 := inj _ _ (fun k v hk => decBucket_encBucket (f1.buckets k v hk)) (fun k v hk => decBucket_encBucket (f2.buckets k v hk)) hb
  have e3 : s.vers = t.vers := by
    apply KMap.ext_get
    intro k
    have hk : (s.vers.get k).map encVB = (t.vers.get k).map encVB := by rw [← KMap.get_map, ← KMap.get_map, hv]
    cases hx : s.vers.get k with
    | none =>
      rw [hx] at hk
      cases hy : t.vers.get k with
      | none => rfl
      | some y => rw [hy] at hk; cases hk
    | some x =>
      rw [hx] at hk
      cases hy : t.vers.get k with
      | none => rw [hy] at hk; cases hk
      | some y =>
        rw [hy] at hk
        simp only [Option.map_some, Option.some.injEq] at hk
        have q1 : x.seq = y.seq := congrArg BVBucket.seq hk
        have q2 : x.items.map encVer = y.items.map encVer := congrArg BVBucket.items hk
        have q3 := inj _ _ (fun q v hq => decVer_encVer (f1.vers k x hx q v hq) zeroVer)
          (fun q v hq => decVer_encVer (f2.vers k y hy q v hq) zeroVer) q2
        cases x; cases y
        simp only at q1 q3
        rw [q1, q3]
  have e4 : s.hashIdx = t.hashIdx := congrArg BStore.hashIdx he
  have e5 : s.uidIdx = t.uidIdx := congrArg BStore.uidIdx he
  have e6 : s.applied = t.applied := congrArg BStore.applied he
  cases s; cases t
  simp only at e1 e2 e3 e4 e5 e6
  rw [e1, e2, e3, e4, e5, e6]

/-! ## Non-vacuity -/

theorem sampleOps_fit : ∀ op ∈ sampleOps, OpFits (2 ^ 63) op := by
  simp [sampleOps, OpFits, FitsMeta, FitsVer, FitsBucket, sampleMeta, sampleVer, sampleBucket, Msgp.LenOk, Msgp.InInt8, Msgp.InInt32,
    Msgp.InInt64, Msgp.InUint64]

example : (run .empty sampleOps).1 = [.ok, .seq 1, .seq 2, .ok] := by
  rw [C131_refines sampleOps sampleOps_fit (by decide)]
  decide

/-- The bytes of a record: a map of five, `Extra` nil, `name` "a", `bucket` "b", `create_time` 1, `update_time` 1. -/
example : (run .empty sampleOps).2.metas.get "b/a".toList = some
    ([0x85, 0xa5] ++ text "Extra".toList ++ [0xc0, 0xa4] ++ text "name".toList ++ [0xa1, 0x61, 0xa6] ++ text "bucket".toList ++
      [0xa1, 0x62, 0xab] ++ text "create_time".toList ++ [1, 0xab] ++ text "update_time".toList ++ [1]) := by
  decide

/-- **C131** One record that cannot be read makes every list that contains it fail. -/
theorem C131_damaged {α : Type} (dec : Bytes → Option α) (l : List (Str × Bytes)) (e : Str × Bytes) (he : e ∈ l) (hd : dec e.2 = none) :
    decodeAll dec l = .error .decode := by
  induction l with
  | nil => cases he
  | cons x l ih =>
    unfold decodeAll
    rcases List.mem_cons.1 he with rfl | h
    · rw [hd]
    · rw [ih h]
      cases dec x.2 <;> rfl

/-- The last byte of a record is lost. -/
example : decodeAll decMeta [("b/a".toList, (encMeta (sampleMeta 1)).dropLast), ("b/c".toList, encMeta (sampleMeta 2))] = .error .decode :=
  C131_damaged _ _ ("b/a".toList, (encMeta (sampleMeta 1)).dropLast) (by simp) (by decide)

/-- **C131** A record that cannot be read is not taken for a missing one: the object can be neither read nor updated,
and the record stays as it is. -/
theorem C131_damaged_record (s : BStore) (n : Str) (bt : Bytes) (h : s.metas.get n = some bt) (hd : decMeta bt = none)
    (d : Metadata) : getMeta s n = .error .decode ∧ updateMeta n d s = (.error .decode, s) := by
  have hg : getMeta s n = .error .decode := by
    unfold getMeta
    rw [h]
    dsimp only
    rw [hd]
  exact ⟨hg, by unfold updateMeta; rw [hg]⟩

theorem findLoop_keeps (hash k : Str) (ks : List Str) (s : BStore) (hd : look s k = .error .decode)
    (hi : InIdx s.hashIdx hash k) : InIdx (findLoop hash ks s).2.hashIdx hash k := by
  induction ks generalizing s with
  | nil => exact hi
  | cons x ks ih =>
    unfold findLoop
    split
    · rename_i hx
      apply ih
      · exact hd
      · refine (removeIndex_iff _ _ _ _ _).2 ⟨hi, fun he => ?_⟩
        rw [← he.2, hd] at hx
        cases hx
    · exact hi
    · have := ih s hd hi
      split <;> rename_i hr <;> · first | (rw [hr] at this; exact this) | exact this

/-- **C131** Looking for a content does not forget a version whose record cannot be read: its entry stays in the
index. -/
theorem C131_damaged_find (s : BStore) (hash k : Str) (hd : look s k = .error .decode) (hi : InIdx s.hashIdx hash k) :
    InIdx (findByHash s hash).2.hashIdx hash k := findLoop_keeps hash k _ s hd hi

/-- A version of which the record is damaged. -/
def damaged : BStore :=
  { (.empty : BStore) with
    metas := KMap.empty.put "b/a".toList (encMeta (sampleMeta 1)).dropLast
    vers := KMap.empty.put "b/a".toList ⟨1, KMap.empty.put (verKey "b/a".toList 1) [0xc1]⟩
    hashIdx := KMap.empty.put ['h'] (KMap.empty.put (verKey "b/a".toList 1) ()) }

example : getMeta damaged "b/a".toList = .error .decode :=
  (C131_damaged_record damaged _ (encMeta (sampleMeta 1)).dropLast (by decide) (by decide) (sampleMeta 2)).1

example : InIdx (findByHash damaged ['h']).2.hashIdx ['h'] (verKey "b/a".toList 1) :=
  C131_damaged_find damaged _ _ (by rfl) (by unfold InIdx; decide)

end Verif.Meta.Encoded
