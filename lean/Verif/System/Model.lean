import Verif.Api.Store
import Verif.Api.Keys
import Verif.Object.CopyRead

/-!
# The whole system: concurrent uploads and reads (C72)

Puts the parts together: any number of uploads (`ObjectService.StoreObject`,
src/apiserver/internal/usecase/service/object_service.go:111-231) run at the same time on any number
of API servers, each as a sequence of requests to the metadata server (`Verif.Meta.Model`) and to the
data servers (`Verif.Object.Upload`, `Verif.Object.DataServer`), interleaved with each other, with
failures and with all other requests to the metadata server.  A request to a server is atomic.

Simplified:

* one metadata server stands for the servers between which the keys are divided (C01–C03) and for
  their replicas (C27); slot migration is left out;
* checksums are enabled (without them see `C39_unchecked`);
* files are only added to data servers: nothing in the code deletes the files of a version;
  rebalancing (C68) and the repair of lost shards while reading (C37) are left out;
* an upload may fail after any request (`Ev.fail`), which includes panics, and requests whose answer is lost
  may be performed later;
* the order in which an upload sends its requests to the metadata server (`Api.record`) and those
  to remove old versions (C63) are not prescribed: any other request may come at any time.
-/

namespace Verif.System

open Verif

abbrev Bytes := Object.Bytes

/-- A PUT request.  `ver`: the version given to `StoreObject`, objects_api.go:35-43; its `hash` is the
announced digest, its `size` the content length.  `body`: the pieces in which the body arrives; `bodyOk` is
false when reading it ends with an error. -/
structure Req where
  bucket : Str
  name : Str
  ver : Api.Ver
  body : List Bytes
  bodyOk : Bool

/-- The bytes of the body. -/
def Req.content (r : Req) : Bytes := r.body.flatten

/-- The key of the object on the metadata server (C47). -/
def Req.key (r : Req) : Str := Api.objectKey r.bucket r.name

/-- Configuration, library functions and hashes. -/
structure Params where
  cfg : Api.Cfg
  /-- `BlockPerShard` of `RsConfig` -/
  rs : Object.RsConfig
  /-- `Replication.BlockSize` as configured -/
  cpBlock : Nat
  /-- the erasure code for given numbers of shards; `none`: `reedsolomon.New` returns an error (more than
  256 shards) -/
  code : ∀ k m, Option (Object.Code k m)
  /-- SHA256 of a content, in hexadecimal -/
  sha : Bytes → Str
  /-- SHA256 of a text, in hexadecimal -/
  shaS : Str → Str
  /-- what the data server makes of a temp file when it is committed with compression -/
  gz : List Bytes → List Bytes
  /-- buffer size of the data servers' writers -/
  ioB : Nat

/-- `msg.Version` made of `entity.Version` for the request to the metadata server, webapi/grpcapi
`AddVersion`; the unique id is set by the metadata server, metadata_service.go:42. -/
def toVersion (v : Api.Ver) (locate : List Str) (uid : Str) (ts : Int) : Meta.Version where
  compress := v.compress
  storeStrategy := v.strategy
  dataShards := v.ds
  parityShards := v.ps
  shardSize := v.shardSize
  size := v.size
  ts := ts
  sequence := 0
  hash := v.hash
  uniqueId := uid
  locate := locate

/-- `entity.Bucket` of `msg.Bucket`. -/
def toBucket (b : Meta.Bucket) : Api.Bucket where
  versioning := b.versioning
  readonly := b.readonly
  compress := b.compress
  strategy := b.storeStrategy
  ds := b.dataShards
  ps := b.parityShards
  remains := b.versionRemains

/-- The name of shard or copy `i`: rs_put_stream.go:27, copy_put_stream.go:27. -/
def fname (hash : Str) (i : Nat) : Str := hash ++ '.' :: fmtNat i

/-- Numbers of shards and copies: `AllShards`, `CopiesCount`; object_service.go:248-269. -/
def nShards (strategy ds ps : Int) : Nat :=
  if strategy = Api.multiReplication then ds.toNat else ds.toNat + ps.toNat

/-- The stream of an erasure coded version, object_service.go:250-263. -/
def rsConf (P : Params) (ds ps size : Int) : Object.RsConfig :=
  Object.streamConfig P.rs ds.toNat ps.toNat size.toNat

/-- The block size of the stream of a version, object_service.go:248-269. -/
def blockSize (P : Params) (strategy ds ps size : Int) : Nat :=
  if strategy = Api.multiReplication then Object.initBlockSize P.cpBlock
  else (rsConf P ds ps size).blockSize

/-- The shards of a block. -/
def rsEnc (P : Params) (k m : Nat) (b : Bytes) : List Bytes :=
  match P.code k m with
  | none => []
  | some cod => Object.encodeBlock cod b

/-- What is sent for a block. -/
def encode (P : Params) (strategy ds ps : Int) (b : Bytes) : List Bytes :=
  if strategy = Api.multiReplication then Object.copyEnc ds.toNat b
  else rsEnc P ds.toNat ps.toNat b

/-- `streamToDataServer` up to the commit requests, object_service.go:192-223, and the flush at the start of
`Commit`: the content of the temp file at each server; `none`: the upload fails. -/
def sendAll (sha : Bytes → Str) (announced : Str) (bs : Nat) (enc : Bytes → List Bytes)
    (env : Object.Env) (chunks : List Bytes) (bodyOk : Bool) (n : Nat) : Option (List (List Bytes)) :=
  match Object.Up.body bs enc env ⟨[], List.replicate n ⟨[], none⟩, 0⟩ chunks with
  | none => none
  | some (w, u1) =>
    if (if w && bodyOk then sha chunks.flatten else []) ≠ announced then none
    else
      let r := u1.flush enc env
      if r.1 then some (r.2.srvs.map (·.temp)) else none

/-- What an upload is doing. -/
inductive Phase
  | idle
  /-- the version is made, object_service.go:142-146 -/
  | prepared
  /-- the servers that hold the shards are known: found (line 149) or uploaded (line 154) -/
  | ready (locate : List Str)
  /-- answered with a version number -/
  | ok (vn : Nat)
  | failed
  deriving DecidableEq

structure Sys where
  store : Meta.Store
  /-- the files of the data servers, by server and name: the pieces appended to the temp file -/
  files : Str → Str → Option (List Bytes)
  phase : Nat → Phase
  /-- the local variable `ver` of each upload, with the name under which the content is stored -/
  ver : Nat → Option Api.Ver
  /-- the servers and temp files of each upload -/
  sent : Nat → Option (List Str × List (List Bytes))
  /-- the commits that were answered -/
  acks : Nat → List Nat

def Sys.init : Sys :=
  ⟨.empty, fun _ _ => none, fun _ => .idle, fun _ => none, fun _ => none, fun _ => []⟩

/-- Change of one entry. -/
def upd {α β : Type} [DecidableEq α] (f : α → β) (a : α) (b : β) : α → β := fun x => if x = a then b else f x

inductive Ev
  /-- bucket read, version made: object_service.go:111-146 -/
  | prepare (p : Nat)
  /-- the content was found: object_service.go:147-150 -/
  | locate (p : Nat) (evs : List Api.Ev)
  /-- the content was sent to the servers `ds` and its digest was right: object_service.go:152-223 -/
  | send (p : Nat) (ds : List Str) (env : Object.Env)
  /-- the commit request for shard `i`: put_stream.go:66, temp_rest.go:63-83 -/
  | commit (p i : Nat) (r : Object.Resp)
  /-- the wait for the commits ends without an error: object_service.go:226-231; `sees`: it does
  not lose one (C54) -/
  | finish (p : Nat) (sees : Bool)
  /-- the upload ends with an error -/
  | fail (p : Nat)
  /-- `AddVersion`: object_service.go:165-178; `answered`: the answer arrives -/
  | add (p : Nat) (uid : Str) (ts : Int) (answered : Bool)
  /-- any other request to the metadata server -/
  | other (op : Meta.Op)

/-- The requests of `Ev.other`: all but those that write versions.  (`updateVer` and
`updateLocate` belong to repair and rebalancing, `migrateVer` to slot migration.) -/
def plainOp : Meta.Op → Bool
  | .addVer .. => false
  | .migrateVer .. => false
  | .updateVer .. => false
  | .updateLocate .. => false
  | _ => true

/-- The answers that reached the upload come from data servers that have the shard asked for:
`handlerLocate` (C41). -/
def Truthful (files : Str → Str → Option (List Bytes)) (hash : Str) (raws : List Str) : Prop :=
  ∀ raw ∈ raws, ∃ (ip key : Str) (i : Nat), '#' ∉ ip ∧ '#' ∉ key ∧ i < 2 ^ 63 ∧
    Api.handlerLocate (fun f => (files ip f).isSome) ip (Api.locateMsg hash i key) = some raw

/-- The request of `Ev.add`. -/
def addOp (reqs : Nat → Req) (s : Sys) (p : Nat) (uid : Str) (ts : Int) : Option Meta.Op :=
  match s.phase p, s.ver p with
  | .ready l, some v => some (.addVer (reqs p).key (toVersion v l uid ts))
  | _, _ => none

/-- What a step does; see `Ev` for the code. -/
def Step (P : Params) (reqs : Nat → Req) (s : Sys) : Ev → Sys → Prop
  | .prepare p, s' =>
    s.phase p = .idle ∧ ∃ mb v, s.store.buckets.get (reqs p).bucket = some mb ∧
      (toBucket mb).readonly = false ∧ (toBucket mb).makeVersion P.cfg (reqs p).ver = some v ∧
      s' = { s with
        phase := upd s.phase p .prepared
        ver := upd s.ver p (some { v with
          hash := Api.uniqueHash P.shaS v.hash v.strategy v.ds v.ps v.compress }) }
  | .locate p evs, s' =>
    s.phase p = .prepared ∧ ∃ v l, s.ver p = some v ∧ Truthful s.files v.hash (Api.received evs) ∧
      0 ≤ v.ds + v.ps ∧ Api.locateObject (v.ds + v.ps).toNat evs = .found l ∧
      s' = { s with phase := upd s.phase p (.ready l) }
  | .send p ds env, s' =>
    s.phase p = .prepared ∧ s.sent p = none ∧ ∃ v temps, s.ver p = some v ∧ 0 ≤ v.ds ∧ 0 ≤ v.ps ∧
      (v.strategy = Api.multiReplication ∨ (P.code v.ds.toNat v.ps.toNat).isSome) ∧
      nShards v.strategy v.ds v.ps ≤ ds.length ∧
      sendAll P.sha (reqs p).ver.hash (blockSize P v.strategy v.ds v.ps v.size)
        (encode P v.strategy v.ds v.ps) env (reqs p).body (reqs p).bodyOk
        (nShards v.strategy v.ds v.ps) = some temps ∧
      s' = { s with sent := upd s.sent p (some (ds, temps)) }
  | .commit p i r, s' =>
    ∃ v ds temps srv t, s.ver p = some v ∧ s.sent p = some (ds, temps) ∧
      i < nShards v.strategy v.ds v.ps ∧ ds[i]? = some srv ∧ temps[i]? = some t ∧
      s' = { s with
        files := if r.performed then
            upd s.files srv (upd (s.files srv) (fname v.hash i)
              (some ((s.files srv (fname v.hash i)).getD (if v.compress then P.gz t else t))))
          else s.files
        acks := if r = .ok then upd s.acks p (i :: s.acks p) else s.acks }
  | .finish p sees, s' =>
    s.phase p = .prepared ∧ ∃ v ds temps, s.ver p = some v ∧ s.sent p = some (ds, temps) ∧
      ((∀ i < nShards v.strategy v.ds v.ps, i ∈ s.acks p) ∨ sees = false) ∧
      s' = { s with phase := upd s.phase p (.ready ds) }
  | .fail p, s' => s' = { s with phase := upd s.phase p .failed }
  | .add p uid ts answered, s' =>
    ∃ op q st, addOp reqs s p uid ts = some op ∧ Meta.step s.store op = (.seq q, st) ∧
      s' = { s with
        store := st
        phase := if answered then upd s.phase p (.ok q) else s.phase }
  | .other op, s' => plainOp op = true ∧ s' = { s with store := (Meta.step s.store op).2 }

/-- Waits report the errors they were told (the condition of C38, C39). -/
def Ev.Reliable : Ev → Prop
  | .send _ _ env => ∀ k, env.sees k = true
  | .finish _ sees => sees = true
  | _ => True

/-! ## Reading -/

/-- The server recorded for a shard. -/
def serverOf (mv : Meta.Version) (i : Nat) : Str := mv.locate.getD i []

/-- What a data server delivers for shard `i`, when it answers. -/
def shardAt (P : Params) (s : Sys) (up : Str → Bool) (lost : Nat → Nat) (mv : Meta.Version)
    (size i : Nat) : Option Bytes :=
  if up (serverOf mv i) then
    match s.files (serverOf mv i) (fname mv.hash i) with
    | none => none
    | some ps => Object.getFile (lost i) (Object.storePieces P.ioB ps) 0 size
  else none

/-- GET of an object with all its bytes: objects_api.go:58-90, `GetObject` object_service.go:234-248,
for a version without compression.  `up`: the servers that answer when the stream is opened; `reads`: the
sizes of the reads and the shards whose server fails before each; `lost`: see `Object.getFile`. -/
def getObject (P : Params) (s : Sys) (up : Str → Bool) (lost : Nat → Nat) (pick : Nat → Nat)
    (reads : List (Nat × (Nat → Bool))) (key : Str) (n : Nat) : Option Bytes :=
  match Meta.getVer s.store key n with
  | .error _ => none
  | .ok mv =>
    if mv.storeStrategy = Api.multiReplication then
      Object.copyRead (lost 0)
        (fun j i => if j = i then (s.files (serverOf mv i) (fname mv.hash i)).map
          (Object.storePieces P.ioB) else none)
        (fun i => up (serverOf mv i)) pick (List.range mv.locate.length) mv.size.toNat 0
    else
      let c := rsConf P mv.dataShards mv.parityShards mv.size
      match P.code c.dataShards c.parityShards with
      | none => none
      | some cod => some (Object.received (Object.Dec.reads c cod mv.size.toNat reads
        (.init ((List.range c.allShards).map (shardAt P s up lost mv (c.shardSize mv.size.toNat))))).1)

/-! ## Specification: versions are the contents of uploads -/

/-- The specification: which upload is stored as version `n` of the object with a key. -/
abbrev Spec := Str → Nat → Option Nat

/-- What a step does to the specification: recording a version adds it under its number; a request to
remove makes disappear what it removes; nothing else changes anything. -/
def specNext (reqs : Nat → Req) (s : Sys) (e : Ev) (s' : Sys) (sp : Spec) : Spec :=
  match e with
  | .add p uid ts _ =>
    match (addOp reqs s p uid ts).map fun op => (Meta.step s.store op).1 with
    | some (.seq q) => fun k n => if k = (reqs p).key ∧ n = q then some p else sp k n
    | _ => sp
  | .other _ => fun k n =>
    match Meta.getVer s'.store k n with
    | .ok _ => sp k n
    | .error _ => none
  | _ => sp

/-- Executions from the empty system. -/
inductive Run (P : Params) (reqs : Nat → Req) : List Ev → Sys → Spec → Prop
  | nil : Run P reqs [] .init (fun _ _ => none)
  | snoc {es : List Ev} {s s' : Sys} {sp : Spec} {e : Ev} : Run P reqs es s sp → Step P reqs s e s' →
      Run P reqs (es ++ [e]) s' (specNext reqs s e s' sp)

end Verif.System
