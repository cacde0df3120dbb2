import Verif.Object.Code

/-!
# Erasure coded streams: model

Models src/apiserver/internal/usecase/service/rs_encoder.go, rs_decoder.go, rs_put_stream.go,
rs_get_stream.go and `RsConfig` of src/apiserver/config/config.go.
-/

namespace Verif.Object

/-- `RsConfig`, config.go:76-81 (`RewriteAsync` is treated in `Verif.Object.Repair`). -/
structure RsConfig where
  dataShards : Nat
  parityShards : Nat
  blockPerShard : Nat
  deriving DecidableEq

namespace RsConfig

/-- config.go:83-85. -/
def allShards (c : RsConfig) : Nat := c.dataShards + c.parityShards
/-- config.go:87-89. -/
def blockSize (c : RsConfig) : Nat := c.blockPerShard * c.dataShards
/-- config.go:95-98. -/
def shardSize (c : RsConfig) (totalSize : Nat) : Nat := (totalSize + c.dataShards - 1) / c.dataShards

end RsConfig

/-! ## Encoder -/

/-- Size of the shards that `Split` makes of `len` bytes (library contract: equally sized shards). -/
def perShard (k len : Nat) : Nat := (len + k - 1) / k

/-- `Split` of the library: equally sized shards, "if the data size isn't divisible by the number of
shards, the last shard will contain extra zeros". -/
def splitData (k : Nat) (data : Bytes) : List Bytes :=
  let n := perShard k data.length
  let padded := data ++ List.replicate (n * k - data.length) 0
  (List.range k).map fun i => (padded.drop (i * n)).take n

/-- The shards of one block. -/
def encodeBlock {k m : Nat} (cod : Code k m) (b : Bytes) : List Bytes :=
  splitData k b ++ cod.parity (splitData k b)

/-- `rsEncoder`, rs_encoder.go:12-17.  `out` holds what each writer received.  All writers accept what
they are given here; failing writers are the subject of `Verif.Object.Upload`. -/
structure Enc where
  cache : Bytes
  out : List Bytes
  deriving DecidableEq

/-- `NewEncoder`, rs_encoder.go:19-27. -/
def Enc.init (c : RsConfig) : Enc := ⟨[], List.replicate c.allShards []⟩

/-- `Flush`, rs_encoder.go:59-112.  The goroutines write one slice each to different writers, so their
order does not matter. -/
def Enc.flush {k m : Nat} (cod : Code k m) (e : Enc) : Enc :=
  if e.cache = [] then e else ⟨[], List.zipWith (· ++ ·) e.out (encodeBlock cod e.cache)⟩

/-- The loop of `Write`, rs_encoder.go:39-57; the first argument bounds the number of passes and is
always chosen large enough.  `none`: the loop makes no progress and never ends. -/
def Enc.writeLoop {k m : Nat} (cod : Code k m) (bs : Nat) : Nat → Enc → Bytes → Option Enc
  | _, e, [] => some e
  | 0, _, _ :: _ => none
  | fuel + 1, e, bt =>
    let next := min (bs - e.cache.length) bt.length
    if next = 0 then none
    else
      let e1 : Enc := ⟨e.cache ++ bt.take next, e.out⟩
      let e2 := if bs ≤ e1.cache.length then e1.flush cod else e1
      Enc.writeLoop cod bs fuel e2 (bt.drop next)

def Enc.write {k m : Nat} (cod : Code k m) (bs : Nat) (e : Enc) (bt : Bytes) : Option Enc :=
  Enc.writeLoop cod bs bt.length e bt

/-- Any number of writes, then `Commit(true)` (rs_put_stream.go:48-68), which flushes first. -/
def Enc.writeAll {k m : Nat} (cod : Code k m) (bs : Nat) (e : Enc) : List Bytes → Option Enc
  | [] => some (e.flush cod)
  | bt :: rest =>
    match e.write cod bs bt with
    | none => none
    | some e' => Enc.writeAll cod bs e' rest

/-- The content of all shard files after an upload in the given pieces. -/
def upload (c : RsConfig) (cod : Code c.dataShards c.parityShards) (pieces : List Bytes) :
    Option (List Bytes) :=
  (Enc.writeAll cod c.blockSize (.init c) pieces).map Enc.out

/-! ## Decoder -/

inductive RdErr
  | eof
  | overRead
  | rs (e : RsErr)
  deriving DecidableEq

/-- `rsDecoder`, rs_decoder.go:14-24.  `readers`: the bytes each server still delivers (`none`: no reader
or a reader that reported an error).  `cache`: the part of `cache` behind `cursor`.  `repair`: what was
handed to the writer of each lost shard (`none`: no writer). -/
structure Dec where
  readers : List (Option Bytes)
  cache : Bytes
  total : Nat
  repair : List (Option Bytes)
  deriving DecidableEq

/-- `io.ReadFull` of one block, rs_decoder.go:81-92.  The end of the stream is not an error here; a shard
of which nothing could be read counts as missing for the library. -/
def readBlock (n : Nat) : Option Bytes → Option Bytes
  | none => none
  | some r => if r.take n = [] then none else some (r.take n)

/-- Readers that report an error while a block is read: the error persists, so they are gone. -/
def killReaders (dead : Nat → Bool) (rs : List (Option Bytes)) : List (Option Bytes) :=
  rs.mapIdx fun i r => if dead i then none else r

/-- The loop that combines the data shards, rs_decoder.go:121-129.  Cache and shard buffer share memory;
shard `i` is moved to a position that is not behind its own, so nothing is overwritten before it is
used, and the sharing is not modelled. -/
def combine (size : Nat) : Bytes × Nat → List Bytes → Bytes × Nat
  | ct, [] => ct
  | (cache, total), x :: xs =>
    let n := if total + x.length > size then size - total else x.length
    combine size (cache ++ x.take n, total + n) xs

/-- `getData`, rs_decoder.go:63-137, with the lost shards written in the order of the blocks. -/
def Dec.getData (c : RsConfig) (cod : Code c.dataShards c.parityShards) (size : Nat) (dead : Nat → Bool)
    (d : Dec) : Except RdErr Unit × Dec :=
  if d.total = size then (.error .eof, d)
  else if size < d.total then (.error .overRead, d)
  else
    let rs := killReaders dead d.readers
    let shards := rs.map (readBlock c.blockPerShard)
    let rs' := rs.map (Option.map (List.drop c.blockPerShard))
    match cod.recon shards with
    | .error e => (.error (.rs e), { d with readers := rs' })
    | .ok all =>
      let ct := combine size (d.cache, d.total) (all.take c.dataShards)
      let repair := d.repair.mapIdx fun i w => w.map (· ++ all.getD i [])
      (.ok (), ⟨rs', ct.1, ct.2, repair⟩)

/-- `Read`, rs_decoder.go:44-61. -/
def Dec.read (c : RsConfig) (cod : Code c.dataShards c.parityShards) (size : Nat) (n : Nat)
    (dead : Nat → Bool) (d : Dec) : Except RdErr Bytes × Dec :=
  if d.cache = [] then
    match d.getData c cod size dead with
    | (.error e, d') => (.error e, d')
    | (.ok (), d') => (.ok (d'.cache.take n), { d' with cache := d'.cache.drop n })
  else (.ok (d.cache.take n), { d with cache := d.cache.drop n })

/-- `NewDecoder`, rs_decoder.go:26-38; a shard without reader gets a writer (rs_get_stream.go:56-69). -/
def Dec.init (readers : List (Option Bytes)) : Dec :=
  ⟨readers, [], 0, readers.map fun r => if r.isSome then none else some []⟩

/-- A client reading with buffers of given sizes; `dead` are the servers that fail during that read. -/
def Dec.reads (c : RsConfig) (cod : Code c.dataShards c.parityShards) (size : Nat) :
    List (Nat × (Nat → Bool)) → Dec → List (Except RdErr Bytes) × Dec
  | [], d => ([], d)
  | (n, dead) :: rest, d =>
    let r := d.read c cod size n dead
    let r' := Dec.reads c cod size rest r.2
    (r.1 :: r'.1, r'.2)

/-! ## Specification vocabulary -/

/-- The bytes a client received. -/
def received : List (Except RdErr Bytes) → Bytes
  | [] => []
  | .ok b :: rest => b ++ received rest
  | .error _ :: rest => received rest

end Verif.Object
