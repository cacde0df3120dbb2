import Verif.Meta.EncodedProps
import Verif.Meta.Fsm

/-!
# The replicated log on bytes (C131)

`FSMImpl` (src/metaserver/internal/usecase/raftimpl/fsm_impl.go) on the bytes of the log and the bytes of the database file, with the
variable `data` of `ApplyBatch`, which every entry is decoded into and which the transactions change.
-/

namespace Verif.Meta.Encoded

open Verif Verif.Meta

/-! ## Model -/

/-- `entity.RaftData`, entity/raft_data.go:25-34, as the generated codec sees it. -/
def ofCmd (c : Cmd) : Msgp.RaftData :=
  ⟨c.type, c.dest, text c.name, c.sequence, c.version.map ofVer, c.metadata.map ofMeta, c.bucket.map ofBucket, false⟩

def toCmd (d : Msgp.RaftData) : Cmd :=
  ⟨d.typ, d.dest, untext d.name, d.sequence, d.version.map toVer, d.metadata.map toMeta, d.bucket.map toBucket⟩

/-- `util.EncodeMsgp(data)` where the leader appends to the log, raftimpl/raft_apply.go:21. -/
def encCmd (c : Cmd) : Bytes := Msgp.encodeMsgp Msgp.appendRaftData (ofCmd c)

/-- An entry of the log. -/
inductive LogEntry
  | empty                  -- nil, or no data
  | other                  -- not a `raft.LogCommand`
  | cmd (data : Bytes)
  deriving DecidableEq

/-- What the state machine answers for an entry. -/
inductive BAns
  | resp (err : Option BErr) (data : Option Nat)
  | dropped
  | badData
  | unknown
  deriving DecidableEq

/-- `FSMResult(err)`, fsm_impl.go:207-222. -/
def fsmErr : Except BErr Unit → Option BErr
  | .ok _ => none
  | .error (.err .exists) => none
  | .error e => some e

/-- `Storage.Batch(fn)`, db/storage.go:62-73, see `Verif.Meta.batchTx`. -/
def batchTx {α : Type} (fn : BTx α) (s : BStore) : Except BErr α × BStore :=
  match fn s with
  | (.ok a, s') => (.ok a, s')
  | (.error _, _) => update fn s

/-- See `Verif.Meta.tx`. -/
def tx {α : Type} (batch : Bool) (fn : BTx α) (s : BStore) : Except BErr α × BStore :=
  if batch then batchTx fn s else update fn s

def unit {α : Type} : Except BErr α → Except BErr Unit
  | .ok _ => .ok ()
  | .error e => .error e

/-- `data.Version.Sequence` after `AddVersion`, metadata_logic.go:176-178. -/
def seqAfter (name : Str) (v : Version) (s : BStore) : Nat :=
  match s.vers.get name with
  | none => v.sequence
  | some b => if existsByUniqueId s v.uniqueId then v.sequence else b.seq + 1

/-- `applyBucket(data)`, fsm_impl.go:39-51. -/
def applyBucket (batch : Bool) (c : Cmd) (s : BStore) : Option (BAns × BStore) :=
  if c.type = 1 then
    c.bucket.map fun b => let r := tx batch (bucketCreate b) s; (.resp (fsmErr r.1) none, r.2)
  else if c.type = 2 then
    let r := tx batch (bucketDelete c.name) s; some (.resp (fsmErr r.1) none, r.2)
  else if c.type = 4 then
    c.bucket.map fun b => let r := tx batch (bucketUpdate b) s; (.resp (fsmErr r.1) none, r.2)
  else some (.resp (some (.err .unknownLog)) none, s)

/-- `applyMetadata(data)`, fsm_impl.go:53-65. -/
def applyMetadata (batch : Bool) (c : Cmd) (s : BStore) : Option (BAns × BStore) :=
  if c.type = 1 then
    match c.metadata with
    | none => some (.resp (some (.err .nilData)) none, s)
    | some d => let r := tx batch (addMeta c.name d) s; some (.resp (fsmErr r.1) none, r.2)
  else if c.type = 2 then
    let r := tx batch (removeMeta c.name) s; some (.resp (fsmErr r.1) none, r.2)
  else if c.type = 4 then
    match c.metadata with
    | none => if batch then none else some (.resp (some (.err .nilData)) none, s)
    | some d => let r := tx batch (updateMeta c.name d) s; some (.resp (fsmErr r.1) none, r.2)
  else some (.resp (some (.err .unknownLog)) none, s)

/-- `applyVersion(data)`, fsm_impl.go:67-85. -/
def applyVersion (batch : Bool) (c : Cmd) (s : BStore) : Option (BAns × BStore) :=
  if c.type = 8 then
    match c.version with
    | none => some (.resp (some (.err .nilData)) none, s)
    | some v =>
      match checkVer batch v with
      | some e => some (.resp (some (.err e)) none, s)
      | none => let r := tx batch (addVerWithSequence c.name v) s; some (.resp (fsmErr r.1) none, r.2)
  else if c.type = 1 then
    c.version.map fun v =>
      match checkVer batch v with
      | some e => (.resp (some (.err e)) (some v.sequence), s)
      | none =>
        let r := tx batch (addVer c.name v) s
        (.resp (fsmErr (unit r.1)) (some (seqAfter c.name v s)), r.2)
  else if c.type = 2 then
    let r := tx batch (removeVer c.name c.sequence) s; some (.resp (fsmErr r.1) none, r.2)
  else if c.type = 4 then
    c.version.map fun v =>
      let r := tx batch (updateVer c.name { v with sequence := c.sequence }) s
      (.resp (fsmErr r.1) none, r.2)
  else some (.resp (some (.err .unknownLog)) none, s)

/-- `applyVersionAll(data)`, fsm_impl.go:87-95. -/
def applyVersionAll (batch : Bool) (c : Cmd) (s : BStore) : Option (BAns × BStore) :=
  if c.type = 2 then
    let r := tx batch (removeAllVersion c.name) s; some (.resp (fsmErr r.1) none, r.2)
  else some (.resp (some (.err .unknownLog)) none, s)

/-- The `switch data.Dest`, fsm_impl.go:110-120, 140-151. -/
def dispatch (batch : Bool) (c : Cmd) (s : BStore) : Option (BAns × BStore) :=
  if c.dest = 4 then applyMetadata batch c s
  else if c.dest = 1 then applyVersion batch c s
  else if c.dest = 2 then applyVersionAll batch c s
  else if c.dest = 8 then applyBucket batch c s
  else some (.unknown, s)

/-- `Apply(log)`, fsm_impl.go:97-121. -/
def applyOne (s : BStore) : LogEntry → Option (BAns × BStore)
  | .empty => some (.resp (some (.err .nilData)) none, s)
  | .other => some (.dropped, s)
  | .cmd b =>
    match Msgp.decodeMsgp Msgp.readRaftData {} b with
    | none => some (.badData, s)
    | some d => dispatch false (toCmd d) s

/-- The loop of `ApplyBatch(logs)`, fsm_impl.go:123-164.  `cur` is the variable `data`; `mess` is what becomes of it: the transactions
write numbers, times and names into it, and a failed decoding leaves it half written. -/
def batchLoop (mess : Msgp.RaftData → Bytes → Msgp.RaftData) (cur : Msgp.RaftData) (s : BStore) : List LogEntry → Option (List BAns × BStore)
  | [] => some ([], s)
  | .empty :: es => (batchLoop mess cur s es).map fun r => (.resp (some (.err .nilData)) none :: r.1, r.2)
  | .other :: es => (batchLoop mess cur s es).map fun r => (.dropped :: r.1, r.2)
  | .cmd b :: es =>
    match Msgp.decodeMsgp Msgp.readRaftData cur b with
    | none => (batchLoop mess (mess cur b) s es).map fun r => (.badData :: r.1, r.2)
    | some d =>
      let d := { d with batch := true }
      match dispatch d.batch (toCmd d) s with
      | none => none
      | some (a, s') => (batchLoop mess (mess d b) s' es).map fun r => (a :: r.1, r.2)

/-- `ApplyBatch(logs)`, fsm_impl.go:123-164. -/
def applyBatch (mess : Msgp.RaftData → Bytes → Msgp.RaftData) (s : BStore) (es : List LogEntry) : Option (List BAns × BStore) :=
  batchLoop mess {} s es

/-- A replica applies its log in groups. -/
def applyGroups (mess : Msgp.RaftData → Bytes → Msgp.RaftData) : BStore → List (List LogEntry) → Option (List BAns × BStore)
  | s, [] => some ([], s)
  | s, g :: gs =>
    match applyBatch mess s g with
    | none => none
    | some (as, s') => (applyGroups mess s' gs).map fun r => (as ++ r.1, r.2)

/-! ## Specification -/

/-- The entries of a log that leaders wrote. -/
inductive Item
  | empty
  | other
  | cmd (c : Cmd)
  deriving DecidableEq

/-- On records. -/
def Item.entry : Item → Entry
  | .empty => .empty
  | .other => .other
  | .cmd c => .cmd (encodeCmd c)

/-- On bytes. -/
def Item.bytes : Item → LogEntry
  | .empty => .empty
  | .other => .other
  | .cmd c => .cmd (encCmd c)

/-- The command fits the Go types of its fields; its version has a number up to `n`. -/
def ItemFits (n : Nat) : Item → Prop
  | .cmd c => Msgp.InInt8 c.type ∧ Msgp.InInt8 c.dest ∧ Msgp.LenOk c.name ∧ Msgp.InUint64 c.sequence ∧
      (∀ v, c.version = some v → FitsVer v ∧ v.sequence ≤ n) ∧ (∀ m, c.metadata = some m → FitsMeta m) ∧
      (∀ b, c.bucket = some b → FitsBucket b)
  | _ => True

def asAns : FsmAns → BAns
  | .resp e d => .resp (e.map .err) d
  | .dropped => .dropped
  | .badData => .badData
  | .unknown => .unknown

/-! ## Proofs -/

theorem decCmd_encCmd {n : Nat} {c : Cmd} (h : ItemFits n (.cmd c)) (z : Msgp.RaftData) :
    Msgp.decodeMsgp Msgp.readRaftData z (encCmd c) = some { ofCmd c with batch := z.batch } := by
  obtain ⟨h1, h2, h3, h4, h5, h6, h7⟩ := h
  have hok : (ofCmd c).Ok := by
    refine ⟨h1, h2, text_len h3, h4, fun x hx => ?_, fun x hx => ?_, fun x hx => ?_⟩
    · obtain ⟨v, hv, rfl⟩ := Option.map_eq_some_iff.1 hx
      obtain ⟨⟨g1, g2, g3, g4, g5, g6, g7, g8, g9, g10, g11⟩, _⟩ := h5 v hv
      exact ⟨g1, g2, g3, g4, g5, g6, g7, text_len g8, text_len g9, texts_len g10 g11⟩
    · obtain ⟨v, hv, rfl⟩ := Option.map_eq_some_iff.1 hx
      obtain ⟨g1, g2, g3, g4⟩ := h6 v hv
      exact ⟨(fun x hx => by cases hx), text_len g1, text_len g2, g3, g4⟩
    · obtain ⟨v, hv, rfl⟩ := Option.map_eq_some_iff.1 hx
      obtain ⟨g1, g2, g3, g4, g5, g6, g7, g8, g9⟩ := h7 v hv
      exact ⟨g1, g2, g3, g4, g5, g6, text_len g7, texts_len g8 g9⟩
  have := Msgp.C73_RaftData_roundtrip (ofCmd c) hok z []
  rw [List.append_nil] at this
  exact this

theorem toVer_ofVer (v : Version) : toVer (ofVer v) = v := by simp only [toVer, ofVer, untext_text, untext_texts]
theorem toMeta_ofMeta (v : Metadata) : toMeta (ofMeta v) = v := by simp only [toMeta, ofMeta, untext_text]
theorem toBucket_ofBucket (v : Bucket) : toBucket (ofBucket v) = v := by simp only [toBucket, ofBucket, untext_text, untext_texts]

theorem toCmd_ofCmd (c : Cmd) (b : Bool) : toCmd { ofCmd c with batch := b } = c := by
  obtain ⟨t, d, nm, q, v, m, k⟩ := c
  simp only [toCmd, ofCmd, untext_text]
  congr 1
  · cases v <;> simp [toVer_ofVer]
  · cases m <;> simp [toMeta_ofMeta]
  · cases k <;> simp [toBucket_ofBucket]

theorem decodeInto_encodeCmd (z c : Cmd) : decodeInto z (encodeCmd c) = c := rfl

theorem sim_tx {α : Type} (batch : Bool) {f : BTx α} {g : Tx α} {s : Store} (h : f (encStore s) = encRes (g s)) :
    tx batch f (encStore s) = encRes (Meta.tx batch g s) := by
  unfold tx Meta.tx
  cases batch with
  | false => exact sim_update h
  | true =>
    rw [if_pos rfl, if_pos rfl]
    unfold batchTx Meta.batchTx
    rw [sim_update h, h]
    rcases g s with ⟨r, s1⟩
    cases r <;> rfl

theorem fsmErr_lift (r : Except Err Unit) : fsmErr (lift r) = (Meta.fsmErr r).map .err := by
  cases r with
  | ok a => rfl
  | error e => cases e <;> rfl

theorem unit_lift {α : Type} (r : Except Err α) : unit (lift r) = lift (Meta.unit r) := by cases r <;> rfl

theorem sim_seqAfter (nm : Str) (v : Version) (s : Store) : seqAfter nm v (encStore s) = Meta.seqAfter nm v s := by
  unfold seqAfter Meta.seqAfter
  have hg : (encStore s).vers.get nm = (s.vers.get nm).map encVB := KMap.get_map _ _ _
  rw [hg]
  cases s.vers.get nm <;> rfl

def encOut (r : FsmAns × Store) : BAns × BStore := (asAns r.1, encStore r.2)

theorem sim_applyBucket {n : Nat} {s : Store} (h : Fits n s) (batch : Bool) (c : Cmd) :
    applyBucket batch c (encStore s) = (Meta.applyBucket batch c s).map encOut := by
  unfold applyBucket Meta.applyBucket
  split
  · cases c.bucket with
    | none => rfl
    | some b => simp only [Option.map_some, sim_tx batch (sim_bucketCreate b s), encRes, fsmErr_lift, encOut, asAns]
  · split
    · simp only [Option.map_some, sim_tx batch (sim_bucketDelete c.name s), encRes, fsmErr_lift, encOut, asAns]
    · split
      · cases c.bucket with
        | none => rfl
        | some b => simp only [Option.map_some, sim_tx batch (sim_bucketUpdate h b), encRes, fsmErr_lift, encOut, asAns]
      · rfl

theorem sim_applyMetadata {n : Nat} {s : Store} (h : Fits n s) (batch : Bool) (c : Cmd) :
    applyMetadata batch c (encStore s) = (Meta.applyMetadata batch c s).map encOut := by
  unfold applyMetadata Meta.applyMetadata
  split
  · cases c.metadata with
    | none => rfl
    | some b => simp only [Option.map_some, sim_tx batch (sim_addMeta c.name b s), encRes, fsmErr_lift, encOut, asAns]
  · split
    · simp only [Option.map_some, sim_tx batch (sim_removeMeta c.name s), encRes, fsmErr_lift, encOut, asAns]
    · split
      · cases c.metadata with
        | none => cases batch <;> rfl
        | some b => simp only [Option.map_some, sim_tx batch (sim_updateMeta h c.name b), encRes, fsmErr_lift, encOut, asAns]
      · rfl

theorem sim_applyVersion {n : Nat} {s : Store} (h : Fits n s) (batch : Bool) (c : Cmd) :
    applyVersion batch c (encStore s) = (Meta.applyVersion batch c s).map encOut := by
  unfold applyVersion Meta.applyVersion
  split
  · cases c.version with
    | none => rfl
    | some v =>
      dsimp only
      cases checkVer batch v with
      | some e => rfl
      | none => simp only [Option.map_some, sim_tx batch (sim_addVerWithSequence c.name v s), encRes, fsmErr_lift, encOut, asAns]
  · split
    · cases c.version with
      | none => rfl
      | some v =>
        simp only [Option.map_some]
        cases checkVer batch v with
        | some e => rfl
        | none => simp only [sim_tx batch (sim_addVer c.name v s), encRes, unit_lift, fsmErr_lift, encOut, asAns, sim_seqAfter]
    · split
      · simp only [Option.map_some, sim_tx batch (sim_removeVer h c.name c.sequence), encRes, fsmErr_lift, encOut, asAns]
      · split
        · cases c.version with
          | none => rfl
          | some v =>
            simp only [Option.map_some, sim_tx batch (sim_updateVer h c.name { v with sequence := c.sequence }), encRes, fsmErr_lift, encOut,
              asAns]
        · rfl

theorem sim_applyVersionAll (s : Store) (batch : Bool) (c : Cmd) :
    applyVersionAll batch c (encStore s) = (Meta.applyVersionAll batch c s).map encOut := by
  unfold applyVersionAll Meta.applyVersionAll
  split
  · simp only [Option.map_some, sim_tx batch (sim_removeAllVersion c.name s), encRes, fsmErr_lift, encOut, asAns]
  · rfl

theorem sim_dispatch {n : Nat} {s : Store} (h : Fits n s) (batch : Bool) (c : Cmd) :
    dispatch batch c (encStore s) = (Meta.dispatch batch c s).map encOut := by
  unfold dispatch Meta.dispatch
  split
  · exact sim_applyMetadata h batch c
  · split
    · exact sim_applyVersion h batch c
    · split
      · exact sim_applyVersionAll s batch c
      · split
        · exact sim_applyBucket h batch c
        · rfl

theorem tx_state {α : Type} (batch : Bool) (f : Tx α) (s : Store) : (Meta.tx batch f s).2 = (Meta.update f s).2 := by
  unfold Meta.tx
  split
  · rw [Meta.batchTx_eq]
  · rfl

theorem fits_dispatch {n : Nat} (hn : n + 1 < 18446744073709551616) {s : Store} (h : Fits n s) (batch : Bool) {c : Cmd}
    (hc : ItemFits n (.cmd c)) {a : FsmAns} {s' : Store} (hd : Meta.dispatch batch c s = some (a, s')) : Fits (n + 1) s' := by
  obtain ⟨h1, h2, h3, h4, h5, h6, h7⟩ := hc
  have same : Fits (n + 1) s := h.mono (Nat.le_succ n)
  have viaOp : ∀ op, OpFits n op → Fits (n + 1) (Meta.step s op).2 := fun op ho => fits_step hn h op ho
  have key : ∀ (x : Option (FsmAns × Store)), x = some (a, s') → (∀ r, x = some r → Fits (n + 1) r.2) → Fits (n + 1) s' :=
    fun x hx hr => hr _ hx
  refine key _ hd ?_
  clear hd key
  intro r
  unfold Meta.dispatch
  split
  · unfold Meta.applyMetadata
    split
    · cases hm : c.metadata with
      | none => intro hr; cases hr; exact same
      | some d => intro hr; cases hr; dsimp only; rw [tx_state]; exact viaOp (.addMeta c.name d) (h6 d hm)
    · split
      · intro hr; cases hr; dsimp only; rw [tx_state]; exact viaOp (.removeMeta c.name) trivial
      · split
        · cases hm : c.metadata with
          | none =>
            cases batch with
            | true => intro hr; cases hr
            | false => intro hr; cases hr; exact same
          | some d => intro hr; cases hr; dsimp only; rw [tx_state]; exact viaOp (.updateMeta c.name d) (h6 d hm)
        · intro hr; cases hr; exact same
  · split
    · unfold Meta.applyVersion
      split
      · cases hm : c.version with
        | none => intro hr; cases hr; exact same
        | some v =>
          dsimp only
          cases checkVer batch v with
          | some e => intro hr; cases hr; exact same
          | none =>
            intro hr; cases hr
            dsimp only
            rw [tx_state]
            rcases update_cases (Meta.addVerWithSequence c.name v) s with ⟨e, hu, _⟩ | ⟨a, t, ha, hu⟩
            · rw [hu]; exact same
            · rw [hu]
              obtain ⟨b, hi, ui, g3, _, _, _, _, _, rfl⟩ := addVerWithSequence_ok ha
              have hq : max b.seq v.sequence ≤ n + 1 := by have := h.seqs _ _ g3; have := (h5 v hm).2; omega
              have hp := fits_put h (Nat.le_succ n) c.name ⟨max b.seq v.sequence, b.items.put (verKey c.name v.sequence) v⟩ hq
                (fits_putItem h g3 _ _ (h5 v hm).1)
              exact ⟨h.metas, hp.1, hp.2, h.buckets⟩
      · split
        · cases hm : c.version with
          | none => intro hr; cases hr
          | some v =>
            simp only [Option.map_some]
            cases checkVer batch v with
            | some e => intro hr; cases hr; exact same
            | none =>
              intro hr; cases hr
              dsimp only
              rw [tx_state]
              rcases update_cases (Meta.addVer c.name v) s with ⟨e, hu, _⟩ | ⟨a, t, ha, hu⟩
              · rw [hu]; exact same
              · rw [hu]; exact fits_addVer hn h (h5 v hm).1 ha
        · split
          · intro hr; cases hr; dsimp only; rw [tx_state]; exact viaOp (.removeVer c.name c.sequence) trivial
          · split
            · cases hm : c.version with
              | none => intro hr; cases hr
              | some v =>
                intro hr; cases hr
                dsimp only
                rw [tx_state]
                refine viaOp (.updateVer c.name { v with sequence := c.sequence }) ?_
                obtain ⟨⟨g1, g2, g3, g4, g5, g6, g7, g8⟩, _⟩ := h5 v hm
                exact ⟨g1, g2, g3, g4, g5, g6, h4, g8⟩
            · intro hr; cases hr; exact same
    · split
      · unfold Meta.applyVersionAll
        split
        · intro hr; cases hr; dsimp only; rw [tx_state]; exact viaOp (.removeAllVersion c.name) trivial
        · intro hr; cases hr; exact same
      · split
        · unfold Meta.applyBucket
          split
          · cases hm : c.bucket with
            | none => intro hr; cases hr
            | some b => intro hr; cases hr; dsimp only; rw [tx_state]; exact viaOp (.bucketCreate b) (h7 b hm)
          · split
            · intro hr; cases hr; dsimp only; rw [tx_state]; exact viaOp (.bucketDelete c.name) trivial
            · split
              · cases hm : c.bucket with
                | none => intro hr; cases hr
                | some b => intro hr; cases hr; dsimp only; rw [tx_state]; exact viaOp (.bucketUpdate b) (h7 b hm)
              · intro hr; cases hr; exact same
        · intro hr; cases hr; exact same

theorem ItemFits.mono {n m : Nat} (h : n ≤ m) {x : Item} (hx : ItemFits n x) : ItemFits m x := by
  cases x with
  | cmd c =>
    obtain ⟨h1, h2, h3, h4, h5, h6, h7⟩ := hx
    exact ⟨h1, h2, h3, h4, fun v hv => ⟨(h5 v hv).1, Nat.le_trans (h5 v hv).2 h⟩, h6, h7⟩
  | _ => trivial

def encOuts (r : List FsmAns × Store) : List BAns × BStore := (r.1.map asAns, encStore r.2)

theorem sim_batchLoop (mess : Msgp.RaftData → Bytes → Msgp.RaftData) (es : List Item) : ∀ (n : Nat) (cur : Msgp.RaftData) (cur' : Cmd) (s : Store),
    Fits n s → (∀ e ∈ es, ItemFits n e) → n + es.length < 18446744073709551616 →
    batchLoop mess cur (encStore s) (es.map Item.bytes) = (Meta.batchLoop cur' s (es.map Item.entry)).map encOuts ∧
    ∀ r, Meta.batchLoop cur' s (es.map Item.entry) = some r → Fits (n + es.length) r.2 := by
  induction es with
  | nil => intro n cur cur' s h _ _; exact ⟨rfl, fun r hr => by cases hr; exact h⟩
  | cons e es ih =>
    intro n cur cur' s h he hn
    rw [List.length_cons] at hn ⊢
    have hes : ∀ e ∈ es, ItemFits n e := fun x hx => he x (by simp [hx])
    have e1 := he e (by simp)
    cases e with
    | empty =>
      obtain ⟨i1, i2⟩ := ih n cur cur' s h hes (by omega)
      simp only [List.map_cons, Item.bytes, Item.entry, batchLoop, Meta.batchLoop]
      rw [i1]
      constructor
      · cases Meta.batchLoop cur' s (es.map Item.entry) <;> rfl
      · intro r hr
        obtain ⟨r', hr', rfl⟩ := Option.map_eq_some_iff.1 hr
        exact (i2 r' hr').mono (by omega)
    | other =>
      obtain ⟨i1, i2⟩ := ih n cur cur' s h hes (by omega)
      simp only [List.map_cons, Item.bytes, Item.entry, batchLoop, Meta.batchLoop]
      rw [i1]
      constructor
      · cases Meta.batchLoop cur' s (es.map Item.entry) <;> rfl
      · intro r hr
        obtain ⟨r', hr', rfl⟩ := Option.map_eq_some_iff.1 hr
        exact (i2 r' hr').mono (by omega)
    | cmd c =>
      simp only [List.map_cons, Item.bytes, Item.entry, batchLoop, Meta.batchLoop]
      rw [decCmd_encCmd e1 cur, decodeInto_encodeCmd]
      dsimp only
      rw [toCmd_ofCmd, sim_dispatch h]
      cases hd : Meta.dispatch true c s with
      | none => exact ⟨rfl, fun r hr => by cases hr⟩
      | some p =>
        obtain ⟨a, s'⟩ := p
        have hf := fits_dispatch (by omega) h true e1 hd
        obtain ⟨i1, i2⟩ := ih (n + 1) (mess { ofCmd c with batch := true } (encCmd c)) c s' hf (fun x hx => (hes x hx).mono (Nat.le_succ n)) (by omega)
        simp only [Option.map_some, encOut]
        rw [i1]
        constructor
        · cases Meta.batchLoop c s' (es.map Item.entry) <;> rfl
        · intro r hr
          obtain ⟨r', hr', rfl⟩ := Option.map_eq_some_iff.1 hr
          have := i2 r' hr'
          exact this.mono (by omega)

theorem sim_groups (mess : Msgp.RaftData → Bytes → Msgp.RaftData) (gs : List (List Item)) : ∀ (n : Nat) (s : Store), Fits n s →
    (∀ g ∈ gs, ∀ e ∈ g, ItemFits n e) → n + gs.flatten.length < 18446744073709551616 →
    applyGroups mess (encStore s) (gs.map fun g => g.map Item.bytes) = (Meta.applyGroups s (gs.map fun g => g.map Item.entry)).map encOuts := by
  induction gs with
  | nil => intro n s _ _ _; rfl
  | cons g gs ih =>
    intro n s h hg hn
    rw [List.flatten_cons, List.length_append] at hn
    obtain ⟨i1, i2⟩ := sim_batchLoop mess g n {} .zero s h (hg g (by simp)) (by omega)
    simp only [List.map_cons, applyGroups, Meta.applyGroups, applyBatch, Meta.applyBatch]
    rw [i1]
    cases hb : Meta.batchLoop .zero s (g.map Item.entry) with
    | none => rfl
    | some p =>
      obtain ⟨as, s'⟩ := p
      have := ih (n + g.length) s' (i2 _ hb) (fun x hx e he => (hg x (by simp [hx]) e he).mono (by omega)) (by omega)
      simp only [Option.map_some, encOuts]
      rw [this]
      cases Meta.applyGroups s' (gs.map fun g => g.map Item.entry) with
      | none => rfl
      | some q => simp only [Option.map_some, encOuts, List.map_append]

/-! ## The property -/

/-- **C131** The state machine on the bytes of the log and of the file does what the state machine on records does, in whatever groups the
log is applied and whatever the transactions leave in the variable that the entries are decoded into. -/
theorem C131_log (mess : Msgp.RaftData → Bytes → Msgp.RaftData) (gs : List (List Item)) (h : ∀ g ∈ gs, ∀ e ∈ g, ItemFits (2 ^ 63) e)
    (hl : gs.flatten.length < 2 ^ 63) :
    applyGroups mess .empty (gs.map fun g => g.map Item.bytes) =
      (Meta.applyGroups .empty (gs.map fun g => g.map Item.entry)).map fun r => (r.1.map asAns, encStore r.2) :=
  sim_groups mess gs (2 ^ 63) .empty (fits_empty _) h (by omega)

/-- **C131** Replicas that apply the same log in different groups have the same bytes in their database files. -/
theorem C131_same_bytes (mess mess' : Msgp.RaftData → Bytes → Msgp.RaftData) (gs gs' : List (List Item)) (hg : gs.flatten = gs'.flatten)
    (h : ∀ e ∈ gs.flatten, ItemFits (2 ^ 63) e) (hl : gs.flatten.length < 2 ^ 63) :
    applyGroups mess .empty (gs.map fun g => g.map Item.bytes) = applyGroups mess' .empty (gs'.map fun g => g.map Item.bytes) := by
  rw [C131_log mess gs (fun g hgm e he => h e (List.mem_flatten.2 ⟨g, hgm, he⟩)) hl,
    C131_log mess' gs' (fun g hgm e he => h e (by rw [hg]; exact List.mem_flatten.2 ⟨g, hgm, he⟩)) (by rw [← hg]; exact hl)]
  have hc : ∀ x : Item, x.entry.Complete := by
    intro x
    cases x with
    | cmd c => exact encodeCmd_complete c
    | _ => trivial
  have hf : ∀ l : List (List Item), (l.map fun g => g.map Item.entry).flatten = l.flatten.map Item.entry := fun l => (List.map_flatten).symm
  have := C27_replicas_identical .empty (gs.map fun g => g.map Item.entry) (gs'.map fun g => g.map Item.entry) (by rw [hf, hf, hg])
    (by
      intro e he
      rw [hf] at he
      obtain ⟨x, _, rfl⟩ := List.mem_map.1 he
      exact hc x)
  rw [this]

/-- **C131** A single entry applied by `Apply`. -/
theorem C131_apply {n : Nat} {s : Store} (h : Fits n s) (x : Item) (hx : ItemFits n x) :
    applyOne (encStore s) x.bytes = (Meta.applyOne s x.entry).map fun r => (asAns r.1, encStore r.2) := by
  cases x with
  | empty => rfl
  | other => rfl
  | cmd c =>
    simp only [Item.bytes, Item.entry, applyOne, Meta.applyOne]
    rw [decCmd_encCmd hx]
    dsimp only
    rw [toCmd_ofCmd, decodeInto_encodeCmd]
    exact sim_dispatch h false c

/-! ## Non-vacuity -/

def sampleItems : List Item :=
  [.cmd ⟨1, 4, "b/a".toList, 0, none, some (sampleMeta 1), none⟩, .other,
   .cmd ⟨1, 1, "b/a".toList, 0, some (sampleVer "h1".toList "u1".toList 1), none, none⟩, .empty,
   .cmd ⟨4, 1, "b/a".toList, 1, some (sampleVer "h1".toList "u1".toList 2), none, none⟩]

theorem sampleItems_fit : ∀ e ∈ sampleItems, ItemFits (2 ^ 63) e := by
  simp [sampleItems, ItemFits, FitsMeta, FitsVer, sampleMeta, sampleVer, Msgp.LenOk, Msgp.InInt8, Msgp.InInt32, Msgp.InInt64, Msgp.InUint64]

/-- A transaction changes the variable; the next entry does not see it. -/
example : (applyGroups (fun d _ => { d with sequence := 77, version := none, batch := false }) .empty [sampleItems.map Item.bytes]).map (·.1) =
    some [.resp none none, .dropped, .resp none (some 1), .resp (some (.err .nilData)) none, .resp none none] := by
  have := C131_log (fun d _ => { d with sequence := 77, version := none, batch := false }) [sampleItems]
    (by intro g hg e he; cases List.mem_singleton.1 hg; exact sampleItems_fit e he) (by decide)
  rw [List.map_cons, List.map_nil] at this
  rw [this]
  decide

/-- A damaged entry is answered with `BadLogData` and changes nothing. -/
example : applyOne .empty (.cmd ((encCmd ⟨1, 4, "b/a".toList, 0, none, some (sampleMeta 1), none⟩).dropLast)) = some (.badData, .empty) := rfl

end Verif.Meta.Encoded
