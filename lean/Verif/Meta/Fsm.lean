import Verif.Meta.Props

/-!
# The replicated log: C27, and C15/C22 in cluster mode

`FSMImpl` (src/metaserver/internal/usecase/raftimpl/fsm_impl.go) applies the entries of the replicated
log to the store.  hashicorp/raft calls `ApplyBatch` with groups of committed entries; which entries
form a group differs from replica to replica.
-/

namespace Verif.Meta

open Verif

/-! ## Model -/

/-- `entity.RaftData`, src/metaserver/internal/entity/raft_data.go:25-34, without `Batch`, which is not
stored in the log (`msg:"-"`). -/
structure Cmd where
  type : Int
  dest : Int
  name : Str
  sequence : Nat
  version : Option Version
  metadata : Option Metadata
  bucket : Option Bucket
  deriving DecidableEq

/-- The zero value of `entity.RaftData`. -/
def Cmd.zero : Cmd := ⟨0, 0, [], 0, none, none, none⟩

/-- One map entry of an encoded command, raft_data_gen.go:101-200 (`UnmarshalMsg`).  Simplified: the
objects inside a field are complete. -/
inductive Field
  | type (t : Int)
  | dest (d : Int)
  | name (n : Str)
  | sequence (q : Nat)
  | version (v : Option Version)
  | metadata (m : Option Metadata)
  | bucket (b : Option Bucket)
  deriving DecidableEq

/-- Decoding a map entry into an existing `RaftData`. -/
def setField (c : Cmd) : Field → Cmd
  | .type t => { c with type := t }
  | .dest d => { c with dest := d }
  | .name n => { c with name := n }
  | .sequence q => { c with sequence := q }
  | .version v => { c with version := v }
  | .metadata m => { c with metadata := m }
  | .bucket b => { c with bucket := b }

/-- `util.DecodeMsgp(&data, bytes)` into the value `c`: fields that do not occur keep their value. -/
def decodeInto (c : Cmd) (fs : List Field) : Cmd := List.foldl setField c fs

/-- `util.EncodeMsgp(data)`, raft_data_gen.go: always all seven fields. -/
def encodeCmd (c : Cmd) : List Field :=
  [.type c.type, .dest c.dest, .name c.name, .sequence c.sequence, .version c.version,
   .metadata c.metadata, .bucket c.bucket]

/-- An entry of the log as `Apply` and `ApplyBatch` see it. -/
inductive Entry
  | empty                    -- nil, or no data
  | other                    -- not a `raft.LogCommand`
  | bad (fs : List Field)    -- decoding fails after these fields
  | cmd (fs : List Field)
  deriving DecidableEq

/-- What the state machine answers for an entry. -/
inductive FsmAns
  | resp (err : Option Err) (data : Option Nat)  -- *FSMResponse; `none` is status 200
  | dropped                                      -- "drop recieved fsmLog type"
  | badData                                      -- the decoding error
  | unknown                                      -- ErrUnknownRaftLog
  deriving DecidableEq

/-- `FSMResult(err)`, fsm_impl.go:207-222: `ErrExists` becomes status 200. -/
def fsmErr : Except Err Unit → Option Err
  | .ok _ => none
  | .error .exists => none
  | .error e => some e

/-- `Storage.Batch(fn)`, db/storage.go:62-73, through bbolt's `DB.Batch`: the function runs in a
shared transaction; if it fails, the transaction is rolled back and the function runs once more in a
transaction of its own, whose result is reported. -/
def batchTx {α : Type} (fn : Tx α) (s : Store) : Except Err α × Store :=
  match fn s with
  | (.ok a, s') => (.ok a, s')
  | (.error _, _) => update fn s

theorem batchTx_eq {α : Type} (fn : Tx α) (s : Store) : batchTx fn s = update fn s := by
  unfold batchTx update
  split <;> rename_i h <;> simp [h]

/-- The chosen repository runs a transaction: `Update` for the plain ones (repo/metadata_repo.go,
repo/bucket_repo.go), `Batch` for the batch ones (repo/batch_meta_repo.go, repo/batch_bucket_repo.go). -/
def tx {α : Type} (batch : Bool) (fn : Tx α) (s : Store) : Except Err α × Store :=
  if batch then batchTx fn s else update fn s

def unit {α : Type} : Except Err α → Except Err Unit
  | .ok _ => .ok ()
  | .error e => .error e

/-- `AddVersion` and `AddVersionFromRaft` of the plain repository refuse a version without hash or
unique id (repo/metadata_repo.go:96-101, 117-122); the batch repository does not look
(batch_meta_repo.go:27-32, 60-65). -/
def checkVer (batch : Bool) (v : Version) : Option Err :=
  if batch then none
  else if v.hash = [] then some .noHash
  else if v.uniqueId = [] then some .noUniqueId
  else none

/-- `data.Version.Sequence` after `AddVersion`: the transaction function overwrites it when it gets
as far as `NextSequence` (metadata_logic.go:176-178). -/
def seqAfter (name : Str) (v : Version) (s : Store) : Nat :=
  match s.vers.get name with
  | none => v.sequence
  | some b => if existsByUniqueId s v.uniqueId then v.sequence else b.seq + 1

/-- `applyBucket(data)`, fsm_impl.go:39-51.  `none` is a panic (nil bucket). -/
def applyBucket (batch : Bool) (c : Cmd) (s : Store) : Option (FsmAns × Store) :=
  if c.type = 1 then
    c.bucket.map fun b => let r := tx batch (bucketCreate b) s; (.resp (fsmErr r.1) none, r.2)
  else if c.type = 2 then
    let r := tx batch (bucketDelete c.name) s; some (.resp (fsmErr r.1) none, r.2)
  else if c.type = 4 then
    c.bucket.map fun b => let r := tx batch (bucketUpdate b) s; (.resp (fsmErr r.1) none, r.2)
  else some (.resp (some .unknownLog) none, s)

/-- `applyMetadata(data)`, fsm_impl.go:53-65.  `none` is a panic: the batch repository does not check
for nil in `UpdateMetadata` (batch_meta_repo.go:52-54). -/
def applyMetadata (batch : Bool) (c : Cmd) (s : Store) : Option (FsmAns × Store) :=
  if c.type = 1 then
    match c.metadata with
    | none => some (.resp (some .nilData) none, s)
    | some d => let r := tx batch (addMeta c.name d) s; some (.resp (fsmErr r.1) none, r.2)
  else if c.type = 2 then
    let r := tx batch (removeMeta c.name) s; some (.resp (fsmErr r.1) none, r.2)
  else if c.type = 4 then
    match c.metadata with
    | none => if batch then none else some (.resp (some .nilData) none, s)
    | some d => let r := tx batch (updateMeta c.name d) s; some (.resp (fsmErr r.1) none, r.2)
  else some (.resp (some .unknownLog) none, s)

/-- `applyVersion(data)`, fsm_impl.go:67-85.  `none` is a panic (nil version on insert or update). -/
def applyVersion (batch : Bool) (c : Cmd) (s : Store) : Option (FsmAns × Store) :=
  if c.type = 8 then
    match c.version with
    | none => some (.resp (some .nilData) none, s)
    | some v =>
      match checkVer batch v with
      | some e => some (.resp (some e) none, s)
      | none => let r := tx batch (addVerWithSequence c.name v) s; some (.resp (fsmErr r.1) none, r.2)
  else if c.type = 1 then
    c.version.map fun v =>
      match checkVer batch v with
      | some e => (.resp (some e) (some v.sequence), s)
      | none =>
        let r := tx batch (addVer c.name v) s
        (.resp (fsmErr (unit r.1)) (some (seqAfter c.name v s)), r.2)
  else if c.type = 2 then
    let r := tx batch (removeVer c.name c.sequence) s; some (.resp (fsmErr r.1) none, r.2)
  else if c.type = 4 then
    c.version.map fun v =>
      let r := tx batch (updateVer c.name { v with sequence := c.sequence }) s
      (.resp (fsmErr r.1) none, r.2)
  else some (.resp (some .unknownLog) none, s)

/-- `applyVersionAll(data)`, fsm_impl.go:87-95. -/
def applyVersionAll (batch : Bool) (c : Cmd) (s : Store) : Option (FsmAns × Store) :=
  if c.type = 2 then
    let r := tx batch (removeAllVersion c.name) s; some (.resp (fsmErr r.1) none, r.2)
  else some (.resp (some .unknownLog) none, s)

/-- The `switch data.Dest`, fsm_impl.go:110-120, 140-151. -/
def dispatch (batch : Bool) (c : Cmd) (s : Store) : Option (FsmAns × Store) :=
  if c.dest = 4 then applyMetadata batch c s
  else if c.dest = 1 then applyVersion batch c s
  else if c.dest = 2 then applyVersionAll batch c s
  else if c.dest = 8 then applyBucket batch c s
  else some (.unknown, s)

/-- `Apply(log)`, fsm_impl.go:97-121. -/
def applyOne (s : Store) : Entry → Option (FsmAns × Store)
  | .empty => some (.resp (some .nilData) none, s)
  | .other => some (.dropped, s)
  | .bad _ => some (.badData, s)
  | .cmd fs => dispatch false (decodeInto .zero fs) s

/-- The loop of `ApplyBatch(logs)`, fsm_impl.go:123-164, with the variable `data` that is shared by
all iterations (`cur`).  `none`: the process crashed.  Not modelled: `Sync` of the file (its error is
never reported, because no result is nil); the changes the transaction functions make to the shared
`data` itself. -/
def batchLoop (cur : Cmd) (s : Store) : List Entry → Option (List FsmAns × Store)
  | [] => some ([], s)
  | .empty :: es => (batchLoop cur s es).map fun r => (.resp (some .nilData) none :: r.1, r.2)
  | .other :: es => (batchLoop cur s es).map fun r => (.dropped :: r.1, r.2)
  | .bad fs :: es => (batchLoop (decodeInto cur fs) s es).map fun r => (.badData :: r.1, r.2)
  | .cmd fs :: es =>
    match dispatch true (decodeInto cur fs) s with
    | none => none
    | some (a, s') => (batchLoop (decodeInto cur fs) s' es).map fun r => (a :: r.1, r.2)

/-- `ApplyBatch(logs)`, fsm_impl.go:123-164. -/
def applyBatch (s : Store) (es : List Entry) : Option (List FsmAns × Store) := batchLoop .zero s es

/-- A replica applies its log in groups. -/
def applyGroups : Store → List (List Entry) → Option (List FsmAns × Store)
  | s, [] => some ([], s)
  | s, g :: gs =>
    match applyBatch s g with
    | none => none
    | some (as, s') => (applyGroups s' gs).map fun r => (as ++ r.1, r.2)

/-! ## Decoding -/

/-- The kind of a field. -/
def Field.kind : Field → Nat
  | .type _ => 0 | .dest _ => 1 | .name _ => 2 | .sequence _ => 3 | .version _ => 4
  | .metadata _ => 5 | .bucket _ => 6

/-- All seven fields occur. -/
def CompleteFields (fs : List Field) : Prop := ∀ k < 7, ∃ f ∈ fs, f.kind = k

/-- The commands of the log carry all fields, as every command written by `EncodeMsgp` does. -/
def Entry.Complete : Entry → Prop
  | .cmd fs => CompleteFields fs
  | _ => True

theorem encodeCmd_complete (c : Cmd) : CompleteFields (encodeCmd c) := by
  intro k hk
  have : k = 0 ∨ k = 1 ∨ k = 2 ∨ k = 3 ∨ k = 4 ∨ k = 5 ∨ k = 6 := by omega
  rcases this with rfl | rfl | rfl | rfl | rfl | rfl | rfl <;> simp [encodeCmd, Field.kind]

theorem decode_encode (c old : Cmd) : decodeInto old (encodeCmd c) = c := rfl

/-- The two values agree on the fields whose kind occurred. -/
def AgreeOn (ks : Nat → Prop) (c c' : Cmd) : Prop :=
  (ks 0 → c.type = c'.type) ∧ (ks 1 → c.dest = c'.dest) ∧ (ks 2 → c.name = c'.name) ∧
  (ks 3 → c.sequence = c'.sequence) ∧ (ks 4 → c.version = c'.version) ∧
  (ks 5 → c.metadata = c'.metadata) ∧ (ks 6 → c.bucket = c'.bucket)

theorem agree_setField {ks : Nat → Prop} {c c' : Cmd} (h : AgreeOn ks c c') (f : Field) :
    AgreeOn (fun k => ks k ∨ f.kind = k) (setField c f) (setField c' f) := by
  obtain ⟨h0, h1, h2, h3, h4, h5, h6⟩ := h
  cases f <;> simp_all [AgreeOn, setField, Field.kind]

theorem agree_decode {ks : Nat → Prop} {c c' : Cmd} (h : AgreeOn ks c c') (fs : List Field) :
    AgreeOn (fun k => ks k ∨ ∃ f ∈ fs, f.kind = k) (decodeInto c fs) (decodeInto c' fs) := by
  induction fs generalizing ks c c' with
  | nil => simpa [decodeInto] using h
  | cons f fs ih =>
    have := ih (agree_setField h f)
    show AgreeOn _ (decodeInto (setField c f) fs) (decodeInto (setField c' f) fs)
    have e : (fun k => ks k ∨ ∃ g ∈ f :: fs, g.kind = k) =
        fun k => (ks k ∨ f.kind = k) ∨ ∃ g ∈ fs, g.kind = k := by
      funext k
      simp [or_assoc]
    rw [e]; exact this

/-- Decoding a complete command does not depend on what was decoded before. -/
theorem decode_complete {fs : List Field} (h : CompleteFields fs) (c c' : Cmd) :
    decodeInto c fs = decodeInto c' fs := by
  have h0 : AgreeOn (fun _ => False) c c' := by simp [AgreeOn]
  obtain ⟨g0, g1, g2, g3, g4, g5, g6⟩ := agree_decode h0 fs
  have e0 := g0 (Or.inr (h 0 (by omega)))
  have e1 := g1 (Or.inr (h 1 (by omega)))
  have e2 := g2 (Or.inr (h 2 (by omega)))
  have e3 := g3 (Or.inr (h 3 (by omega)))
  have e4 := g4 (Or.inr (h 4 (by omega)))
  have e5 := g5 (Or.inr (h 5 (by omega)))
  have e6 := g6 (Or.inr (h 6 (by omega)))
  generalize decodeInto c fs = x at *
  generalize decodeInto c' fs = y at *
  cases x; cases y; simp_all

/-! ## C27 -/

theorem batchLoop_cur {es : List Entry} (h : ∀ e ∈ es, e.Complete) (c c' : Cmd) (s : Store) :
    batchLoop c s es = batchLoop c' s es := by
  induction es generalizing c c' s with
  | nil => rfl
  | cons e es ih =>
    have ih := ih (fun e he => h e (List.mem_cons_of_mem _ he))
    cases e with
    | empty => simp only [batchLoop, ih c c']
    | other => simp only [batchLoop, ih c c']
    | bad fs => simp only [batchLoop, ih (decodeInto c fs) (decodeInto c' fs)]
    | cmd fs =>
      have hc : CompleteFields fs := h _ (List.mem_cons_self ..)
      simp only [batchLoop, decode_complete hc c c']

theorem batchLoop_append {es : List Entry} (h : ∀ e ∈ es, e.Complete) (c c' : Cmd) (s : Store)
    (pre : List Entry) :
    batchLoop c s (pre ++ es) =
      match batchLoop c s pre with
      | none => none
      | some (as, s') => (batchLoop c' s' es).map fun r => (as ++ r.1, r.2) := by
  induction pre generalizing c s with
  | nil =>
    simp only [List.nil_append, batchLoop]
    rw [batchLoop_cur h c c']
    cases batchLoop c' s es <;> rfl
  | cons e pre ih =>
    cases e with
    | empty =>
      simp only [List.cons_append, batchLoop, ih]
      cases batchLoop c s pre with
      | none => rfl
      | some r => simp only [Option.map_some]; cases batchLoop c' r.2 es <;> rfl
    | other =>
      simp only [List.cons_append, batchLoop, ih]
      cases batchLoop c s pre with
      | none => rfl
      | some r => simp only [Option.map_some]; cases batchLoop c' r.2 es <;> rfl
    | bad fs =>
      simp only [List.cons_append, batchLoop, ih]
      cases batchLoop (decodeInto c fs) s pre with
      | none => rfl
      | some r => simp only [Option.map_some]; cases batchLoop c' r.2 es <;> rfl
    | cmd fs =>
      simp only [List.cons_append, batchLoop]
      cases dispatch true (decodeInto c fs) s with
      | none => rfl
      | some r =>
        simp only [ih]
        cases batchLoop (decodeInto c fs) r.2 pre with
        | none => rfl
        | some r => simp only [Option.map_some]; cases batchLoop c' r.2 es <;> rfl

/-- **C27** Applying the log in groups is the same as applying it in one group: same answers, same
store, for every log of complete commands, every grouping and every starting store. -/
theorem C27_groups (s : Store) (gs : List (List Entry)) (h : ∀ g ∈ gs, ∀ e ∈ g, e.Complete) :
    applyGroups s gs = applyBatch s gs.flatten := by
  induction gs generalizing s with
  | nil => rfl
  | cons g gs ih =>
    have hrest : ∀ e ∈ gs.flatten, e.Complete := by
      intro e he
      obtain ⟨g', hg', he'⟩ := List.mem_flatten.1 he
      exact h g' (List.mem_cons_of_mem _ hg') e he'
    have ih := fun s' => ih s' (fun g' hg' => h g' (List.mem_cons_of_mem _ hg'))
    rw [List.flatten_cons, applyBatch, batchLoop_append hrest .zero .zero s g]
    simp only [applyGroups, ih]
    rfl

/-- **C27** Two replicas that start from the same store and apply the same log, grouped in any two
ways, give the same answers and end in the same store. -/
theorem C27_replicas_identical (s : Store) (gs gs' : List (List Entry))
    (hlog : gs.flatten = gs'.flatten) (h : ∀ e ∈ gs.flatten, e.Complete) :
    applyGroups s gs = applyGroups s gs' := by
  have h1 : ∀ g ∈ gs, ∀ e ∈ g, e.Complete := fun g hg e he => h e (List.mem_flatten.2 ⟨g, hg, he⟩)
  have h2 : ∀ g ∈ gs', ∀ e ∈ g, e.Complete := fun g hg e he =>
    h e (by rw [hlog]; exact List.mem_flatten.2 ⟨g, hg, he⟩)
  rw [C27_groups s gs h1, C27_groups s gs' h2, hlog]

/-- Completeness matters: with a command that lacks fields (which this code never writes) the answer
depends on the grouping, because the decoded value is reused. -/
theorem C27_incomplete_commands_fail :
    let log : List Entry := [.cmd (encodeCmd ⟨1, 4, "b/a".toList, 0, none, some (sampleMeta 1), none⟩),
      .cmd [.name "b/c".toList]]
    applyGroups .empty [log] ≠ applyGroups .empty (log.map fun e => [e]) := by decide

/-- The answer for an entry does not depend on whether it is an answer of `Apply` or `ApplyBatch`: the
store is always the same, and so is the answer for a version with hash and unique id. -/
theorem C27_single_or_batch (s : Store) (c : Cmd)
    (hv : ∀ v, c.version = some v → v.hash ≠ [] ∧ v.uniqueId ≠ [])
    (hm : c.metadata ≠ none) :
    dispatch true c s = dispatch false c s := by
  have ht : ∀ {α : Type} (fn : Tx α), tx true fn s = tx false fn s := by
    intro α fn
    simp only [tx, ↓reduceIte, Bool.false_eq_true]
    exact batchTx_eq fn s
  have hc : ∀ v, c.version = some v → checkVer true v = checkVer false v := by
    intro v h
    obtain ⟨h1, h2⟩ := hv v h
    simp [checkVer, h1, h2]
  unfold dispatch
  have e1 : applyMetadata true c s = applyMetadata false c s := by
    cases hmd : c.metadata with
    | none => exact absurd hmd hm
    | some d => simp only [applyMetadata, hmd, ht]
  have e2 : applyVersion true c s = applyVersion false c s := by
    cases hvd : c.version with
    | none => simp only [applyVersion, hvd, ht]; rfl
    | some v => simp only [applyVersion, hvd, ht, hc v hvd, Option.map_some]
  have e3 : applyVersionAll true c s = applyVersionAll false c s := by simp only [applyVersionAll, ht]
  have e4 : applyBucket true c s = applyBucket false c s := by simp only [applyBucket, ht]
  rw [e1, e2, e3, e4]

/-- **C27** `Apply` of one entry answers and changes what `ApplyBatch` of this entry alone does, for
commands with an object in them. -/
theorem C27_apply_one (s : Store) (e : Entry)
    (he : ∀ fs, e = .cmd fs →
      (∀ v, (decodeInto .zero fs).version = some v → v.hash ≠ [] ∧ v.uniqueId ≠ []) ∧
      (decodeInto .zero fs).metadata ≠ none) :
    applyBatch s [e] = (applyOne s e).map fun r => ([r.1], r.2) := by
  cases e with
  | empty => rfl
  | other => rfl
  | bad fs => rfl
  | cmd fs =>
    obtain ⟨h1, h2⟩ := he fs rfl
    simp only [applyBatch, batchLoop, applyOne, C27_single_or_batch s _ h1 h2]
    cases dispatch false (decodeInto .zero fs) s <;> rfl

/-- ... and without: `Apply` refuses a version without a hash, `ApplyBatch` fails only in the index. -/
theorem C27_apply_one_differs :
    let s := (run .empty [.addMeta "b/a".toList (sampleMeta 1)]).2
    let e := Entry.cmd (encodeCmd ⟨1, 1, "b/a".toList, 0, some (sampleVer [] "u".toList 1), none, none⟩)
    (applyOne s e).map (·.1) = some (.resp (some .noHash) (some 0)) ∧
    (applyBatch s [e]).map (·.1) = some [.resp (some .nameRequired) (some 1)] := by decide

/-- **C27** An update of a version is applied to the version that the *command* names, whatever number
the record inside carries; the same for a removal. -/
theorem C27_command_number (batch : Bool) (s : Store) (n : Str) (q : Nat) (v : Version)
    (m : Option Metadata) (b : Option Bucket) (w : Option Version) :
    (dispatch batch ⟨4, 1, n, q, some v, m, b⟩ s).map (·.2) =
      some (step s (.updateVer n { v with sequence := q })).2 ∧
    (dispatch batch ⟨2, 1, n, q, w, m, b⟩ s).map (·.2) = some (step s (.removeVer n q)).2 := by
  have ht : ∀ {α : Type} (fn : Tx α), tx batch fn s = update fn s := by
    intro α fn
    cases batch
    · rfl
    · exact batchTx_eq fn s
  constructor <;> simp [dispatch, applyVersion, ht, step]

/-! ## The log carries out the operations -/

/-- The command that the service writes for an operation (service/metadata_service.go:26-135,
service/bucket_service.go:20-62); `none` for operations that never use the log. -/
def opCmd : Op → Option Cmd
  | .addMeta id d => some ⟨1, 4, id, 0, none, some d, none⟩
  | .updateMeta id d => some ⟨4, 4, id, 0, none, some d, none⟩
  | .removeMeta id => some ⟨2, 4, id, 0, none, none, none⟩
  | .addVer n d => some ⟨1, 1, n, 0, some d, none, none⟩
  | .migrateVer n d => some ⟨8, 1, n, 0, some d, none, none⟩
  | .updateVer n d => some ⟨4, 1, n, d.sequence, some d, none, none⟩
  | .removeVer n v => some ⟨2, 1, n, v, none, none, none⟩
  | .removeAllVersion n => some ⟨2, 2, n, 18446744073709551615, none, none, none⟩
  | .bucketCreate d => some ⟨1, 8, d.name, 0, none, none, some d⟩
  | .bucketUpdate d => some ⟨4, 8, d.name, 0, none, none, some d⟩
  | .bucketDelete n => some ⟨2, 8, n, 0, none, none, none⟩
  | .updateLocate .. => none
  | .findByHash _ => none
  | .applyIndex _ => none

/-- Versions reach the service with a hash (`binding:"required"`) and get a unique id there
(metadata_service.go:42). -/
def Op.hasIds : Op → Prop
  | .addVer _ d => d.hash ≠ [] ∧ d.uniqueId ≠ []
  | .migrateVer _ d => d.hash ≠ [] ∧ d.uniqueId ≠ []
  | _ => True

/-- The success or error that a client of the cluster sees for a result of the store. -/
def Res.clusterErr : Res → Option Err
  | .err .exists => none
  | .err e => some e
  | _ => none

theorem fsmErr_ofUnit (r : Except Err Unit) : fsmErr r = (Res.ofUnit r).clusterErr := by
  cases r with
  | ok _ => rfl
  | error e => cases e <;> rfl

theorem update_ok {α : Type} {fn : Tx α} {s s' : Store} {a : α} (h : update fn s = (.ok a, s')) :
    fn s = (.ok a, s') := by
  rcases update_cases fn s with ⟨e, h1, _⟩ | ⟨a', s1, h1, h2⟩
  · rw [h1] at h; cases h
  · rw [h2] at h; rw [h1]; exact h

/-- **C27** A logged operation does to the store exactly what the operation does on a single server,
and reports the same error — except that "exists" is reported as success. -/
theorem C27_log_refines_store (s : Store) (op : Op) (c : Cmd) (hc : opCmd op = some c)
    (hid : op.hasIds) :
    ∃ data, dispatch true c s = some (.resp (step s op).1.clusterErr data, (step s op).2) ∧
      ∀ q, (step s op).1 = .seq q → data = some q := by
  have ht : ∀ {α : Type} (fn : Tx α) (s : Store), tx true fn s = update fn s := by
    intro α fn s
    simp only [tx, ↓reduceIte]
    exact batchTx_eq fn s
  have hunit : ∀ (r : Except Err Unit) q, Res.ofUnit r ≠ .seq q := by
    intro r q; cases r <;> simp [Res.ofUnit]
  cases op with
  | addVer n d =>
    simp only [opCmd] at hc
    cases hc
    obtain ⟨h1, h2⟩ := hid
    refine ⟨some (seqAfter n d s), ?_, ?_⟩
    · simp only [dispatch, applyVersion, checkVer, ht, Option.map_some, step, repoAddVersion, h1, h2,
        ↓reduceIte, show ¬ ((1 : Int) = 4) by decide, show ¬ ((1 : Int) = 8) by decide]
      cases hu : update (addVer n d) s with
      | mk r s' =>
        cases r with
        | ok q => rfl
        | error e => cases e <;> rfl
    · intro q hq
      simp only [step, repoAddVersion, h1, h2, ↓reduceIte] at hq
      split at hq
      · rename_i q' s' hu
        cases hq
        obtain ⟨b, hi', ui, f1, f2, f3, f4, f5, f6, f7, hs1⟩ := addVer_ok (update_ok hu)
        simp [seqAfter, f1, f3, f2]
      · cases hq
  | migrateVer n d =>
    simp only [opCmd] at hc
    cases hc
    obtain ⟨h1, h2⟩ := hid
    refine ⟨none, ?_, fun q hq => ?_⟩
    · simp only [dispatch, applyVersion, checkVer, ht, step, repoMigrateVersion, h1, h2, ↓reduceIte,
        show ¬ ((1 : Int) = 4) by decide, fsmErr_ofUnit]
    · exact absurd hq (hunit _ _)
  | updateLocate now h i v => cases hc
  | findByHash h => cases hc
  | applyIndex i => cases hc
  | updateVer n d =>
    simp only [opCmd] at hc
    cases hc
    refine ⟨none, ?_, fun q hq => absurd hq (hunit _ _)⟩
    simp only [dispatch, applyVersion, ht, Option.map_some, step, ↓reduceIte, fsmErr_ofUnit,
      show ¬ ((1 : Int) = 4) by decide, show ¬ ((4 : Int) = 8) by decide,
      show ¬ ((4 : Int) = 1) by decide, show ¬ ((4 : Int) = 2) by decide]
  | _ =>
    simp only [opCmd] at hc
    cases hc
    refine ⟨none, ?_, fun q hq => absurd (by simpa only [step] using hq) (hunit _ _)⟩
    simp [dispatch, applyMetadata, applyVersion, applyVersionAll, applyBucket, ht, step, fsmErr_ofUnit]

/-- **C27** A replica that applies the log of any sequence of operations is in the store that the
operations produce on a single server, so every theorem about reachable stores holds for replicas. -/
theorem C27_log_is_run (s : Store) (ops : List Op) (cs : List Cmd)
    (hc : ops.mapM opCmd = some cs) (hid : ∀ op ∈ ops, op.hasIds) :
    ∃ as, applyBatch s (cs.map fun c => .cmd (encodeCmd c)) = some (as, (run s ops).2) ∧
      as.length = ops.length := by
  induction ops generalizing s cs with
  | nil => simp at hc; subst hc; exact ⟨[], rfl, rfl⟩
  | cons op ops ih =>
    rw [List.mapM_cons] at hc
    cases h1 : opCmd op with
    | none => rw [h1] at hc; cases hc
    | some c =>
      cases h2 : ops.mapM opCmd with
      | none => rw [h1, h2] at hc; cases hc
      | some cs' =>
        rw [h1, h2] at hc
        cases hc
        obtain ⟨data, hd, _⟩ := C27_log_refines_store s op c h1 (hid op (List.mem_cons_self ..))
        obtain ⟨as, ha, hl⟩ := ih (step s op).2 cs' h2 (fun o ho => hid o (List.mem_cons_of_mem _ ho))
        refine ⟨.resp (step s op).1.clusterErr data :: as, ?_, by simp [hl]⟩
        show batchLoop .zero s (.cmd (encodeCmd c) :: _) = _
        simp only [batchLoop, decode_encode, hd]
        rw [batchLoop_cur (c' := .zero)]
        · rw [show batchLoop .zero (step s op).2 _ = _ from ha]; rfl
        · intro e he
          obtain ⟨c, _, rfl⟩ := List.mem_map.1 he
          exact encodeCmd_complete c

/-- In cluster mode creating an existing object is answered with success (and changes nothing);
submitting a stored unique id again is answered with success and version number 0. -/
theorem C15_cluster_statement_fails :
    let s := (run .empty [.addMeta "b/a".toList (sampleMeta 1)]).2
    dispatch true ⟨1, 4, "b/a".toList, 0, none, some (sampleMeta 2), none⟩ s = some (.resp none none, s) ∧
    (step s (.addMeta "b/a".toList (sampleMeta 2))).1 = .err .exists := by decide

theorem C22_cluster_retry_answers_zero :
    let s := (run .empty [.addMeta "b/a".toList (sampleMeta 1),
      .addVer "b/a".toList (sampleVer "h".toList "u".toList 1)]).2
    dispatch true ⟨1, 1, "b/a".toList, 0, some (sampleVer "h".toList "u".toList 1), none, none⟩ s =
      some (.resp none (some 0), s) := by decide

/-- A command with a nil version crashes every replica that applies it (the services never write
one). -/
theorem C27_nil_version_crashes :
    applyBatch .empty [.cmd (encodeCmd ⟨1, 1, "b/a".toList, 0, none, none, none⟩)] = none := rfl

/-- **C27** Exactly these commands crash a replica: a version (for creation or update) or a bucket (likewise) that is
missing, and, in a batch, a missing object of an update; whatever is in the store. -/
theorem C27_crash_iff (batch : Bool) (c : Cmd) (s : Store) :
    dispatch batch c s = none ↔
      (c.dest = 1 ∧ (c.type = 1 ∨ c.type = 4) ∧ c.version = none) ∨
      (c.dest = 8 ∧ (c.type = 1 ∨ c.type = 4) ∧ c.bucket = none) ∨
      (batch = true ∧ c.dest = 4 ∧ c.type = 4 ∧ c.metadata = none) := by
  obtain ⟨ty, de, n, q, v, m, b⟩ := c
  simp only [dispatch, applyMetadata, applyVersion, applyVersionAll, applyBucket]
  by_cases h4 : de = 4
  · subst h4; cases m <;> cases batch <;> grind
  by_cases h1 : de = 1
  · subst h1
    cases v <;> simp only [Option.map] <;> grind
  by_cases h2 : de = 2
  · subst h2; grind
  by_cases h8 : de = 8
  · subst h8; cases b <;> simp only [Option.map] <;> grind
  grind

/-- Three commands in one group or in three. -/
example :
    let log : List Entry := [
      .cmd (encodeCmd ⟨1, 4, "b/a".toList, 0, none, some (sampleMeta 1), none⟩), .other,
      .cmd (encodeCmd ⟨1, 1, "b/a".toList, 0, some (sampleVer "h".toList "u".toList 1), none, none⟩)]
    (applyGroups .empty [log]).map (·.1) =
      some [.resp none none, .dropped, .resp none (some 1)] ∧
    (applyGroups .empty (log.map fun e => [e])).map (·.1) =
      some [.resp none none, .dropped, .resp none (some 1)] := by decide

end Verif.Meta
