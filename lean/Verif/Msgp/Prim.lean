import Verif.Common.Str

/-!
# MessagePack primitives (C73)

The generated codecs of goodfs (src/common/proto/msg/metadata_gen.go, src/common/hashslot/slot_info_gen.go,
src/metaserver/internal/entity/raft_data_gen.go and others) call the functions of the third party
package github.com/tinylib/msgp.  That package is not part of /repo; its append and read functions
are modelled here from the MessagePack format they implement (write_bytes.go and read_bytes.go of
msgp 1.1.9).  A byte is a natural number, as in Verif.Util.Codec; the append functions only produce
numbers below 256 (`AllBytes`).
-/

namespace Verif.Msgp

abbrev Bytes := List Nat

/-- The errors of the read functions: `ErrShortBytes`, `badPrefix`/`InvalidPrefixError`,
`IntOverflow`/`UintOverflow`/`UintBelowZero`. -/
inductive Err
  | short
  | prefix
  | overflow
deriving DecidableEq, Repr

/-- The result of a read function: value and remaining bytes, or an error. -/
abbrev R (α : Type) := Except Err (α × Bytes)

/-! ## Append functions -/

/-- `big.PutUint16` -/
def be16 (n : Nat) : Bytes := [n / 256 % 256, n % 256]
/-- `big.PutUint32` -/
def be32 (n : Nat) : Bytes :=
  [n / 16777216 % 256, n / 65536 % 256, n / 256 % 256, n % 256]
/-- `big.PutUint64` -/
def be64 (n : Nat) : Bytes := be32 (n / 4294967296) ++ be32 n

/-- The `w`-bit two's complement pattern of an integer, as `uint8(i)`, `uint16(i)`, … -/
def twos (w : Nat) (i : Int) : Nat := (i % (2 : Int) ^ w).toNat

/-- `AppendInt64` (also `AppendInt`, `AppendInt8`, `AppendInt32`, which convert to int64 first):
the shortest signed form. -/
def appendInt (i : Int) : Bytes :=
  if 0 ≤ i then
    if i ≤ 127 then [i.toNat]
    else if i ≤ 32767 then 0xd1 :: be16 (twos 16 i)
    else if i ≤ 2147483647 then 0xd2 :: be32 (twos 32 i)
    else 0xd3 :: be64 (twos 64 i)
  else if -32 ≤ i then [twos 8 i]
  else if -128 ≤ i then [0xd0, twos 8 i]
  else if -32768 ≤ i then 0xd1 :: be16 (twos 16 i)
  else if -2147483648 ≤ i then 0xd2 :: be32 (twos 32 i)
  else 0xd3 :: be64 (twos 64 i)

/-- `AppendUint64` (also `AppendUint32`): the shortest unsigned form. -/
def appendUint (u : Nat) : Bytes :=
  if u ≤ 127 then [u]
  else if u ≤ 255 then [0xcc, u]
  else if u ≤ 65535 then 0xcd :: be16 u
  else if u ≤ 4294967295 then 0xce :: be32 u
  else 0xcf :: be64 u

/-- `AppendBool` -/
def appendBool (b : Bool) : Bytes := [if b then 0xc3 else 0xc2]

/-- `AppendNil` -/
def appendNil : Bytes := [0xc0]

/-- `AppendFloat64`; a float is given by its 64 bits (`math.Float64bits`). -/
def appendFloat (bits : Nat) : Bytes := 0xcb :: be64 bits

/-- The header written by `AppendString` for a string of `n` bytes (`uint32(n)` in the last form). -/
def strHeader (n : Nat) : Bytes :=
  if n ≤ 31 then [0xa0 + n]
  else if n ≤ 255 then [0xd9, n]
  else if n ≤ 65535 then 0xda :: be16 n
  else 0xdb :: be32 (n % 4294967296)

/-- `AppendString` -/
def appendStr (s : Bytes) : Bytes := strHeader s.length ++ s

/-- `AppendArrayHeader(b, uint32(n))` -/
def appendArrayHeader (n : Nat) : Bytes :=
  let n := n % 4294967296
  if n ≤ 15 then [0x90 + n]
  else if n ≤ 65535 then 0xdc :: be16 n
  else 0xdd :: be32 n

/-- `AppendMapHeader(b, uint32(n))`; the generated code writes these bytes as literals. -/
def appendMapHeader (n : Nat) : Bytes :=
  let n := n % 4294967296
  if n ≤ 15 then [0x80 + n]
  else if n ≤ 65535 then 0xde :: be16 n
  else 0xdf :: be32 n

/-- An array of strings as the generated code writes it: header, then `AppendString` per item. -/
def appendStrs (xs : List Bytes) : Bytes :=
  appendArrayHeader xs.length ++ (xs.map appendStr).flatten

/-! ## Read functions -/

/-- `n` bytes from the front; `none` if there are fewer (`len(b) < n`). -/
def takeN : Nat → Bytes → Option (Bytes × Bytes)
  | 0, b => some ([], b)
  | _ + 1, [] => none
  | n + 1, x :: b => match takeN n b with
    | none => none
    | some (p, r) => some (x :: p, r)

/-- The big endian number in a byte list (`big.Uint16/32/64`). -/
def ofBE (b : Bytes) : Nat := b.foldl (fun acc x => acc * 256 + x) 0

/-- A big endian number of `n` bytes. -/
def readBE (n : Nat) (b : Bytes) : R Nat :=
  match takeN n b with
  | none => .error .short
  | some (p, r) => .ok (ofBE p, r)

/-- The signed value of a `w`-bit pattern (`int8(u)`, `int16(u)`, …). -/
def signed (w : Nat) (u : Nat) : Int := if 2 * u < 2 ^ w then (u : Int) else (u : Int) - (2 : Int) ^ w

/-- Apply a function to the value read (`x, bts, err = read(bts)`; on error return it). -/
def mapR {α β : Type} (f : α → β) (r : R α) : R β :=
  match r with
  | .ok (v, b) => .ok (f v, b)
  | .error e => .error e

/-- A check on the value read, failing with `overflow`. -/
def checkR {α : Type} (p : α → Bool) (r : R α) : R α :=
  match r with
  | .ok (v, b) => if p v then .ok (v, b) else .error .overflow
  | .error e => .error e

/-- `ReadInt64Bytes` -/
def readInt64 : Bytes → R Int
  | [] => .error .short
  | lead :: b =>
    if lead ≤ 0x7f then .ok ((lead : Int), b)
    else if 0xe0 ≤ lead then .ok (signed 8 lead, b)
    else if lead = 0xd0 then mapR (signed 8) (readBE 1 b)
    else if lead = 0xcc then mapR Int.ofNat (readBE 1 b)
    else if lead = 0xd1 then mapR (signed 16) (readBE 2 b)
    else if lead = 0xcd then mapR Int.ofNat (readBE 2 b)
    else if lead = 0xd2 then mapR (signed 32) (readBE 4 b)
    else if lead = 0xce then mapR Int.ofNat (readBE 4 b)
    else if lead = 0xd3 then mapR (signed 64) (readBE 8 b)
    else if lead = 0xcf then
      mapR Int.ofNat (checkR (fun u => decide (u ≤ 9223372036854775807)) (readBE 8 b))
    else .error .prefix

/-- `ReadInt8Bytes`, `ReadInt32Bytes`: `ReadInt64Bytes` and a range check. -/
def readIntW (w : Nat) (b : Bytes) : R Int :=
  checkR (fun i => decide (-(2 : Int) ^ (w - 1) ≤ i ∧ i < (2 : Int) ^ (w - 1))) (readInt64 b)

/-- `ReadUint64Bytes` -/
def readUint64 : Bytes → R Nat
  | [] => .error .short
  | lead :: b =>
    let nonneg (r : R Int) : R Nat := mapR Int.toNat (checkR (fun i => decide (0 ≤ i)) r)
    if lead ≤ 0x7f then .ok (lead, b)
    else if 0xe0 ≤ lead then .error .overflow
    else if lead = 0xd0 then nonneg (mapR (signed 8) (readBE 1 b))
    else if lead = 0xcc then readBE 1 b
    else if lead = 0xd1 then nonneg (mapR (signed 16) (readBE 2 b))
    else if lead = 0xcd then readBE 2 b
    else if lead = 0xd2 then nonneg (mapR (signed 32) (readBE 4 b))
    else if lead = 0xce then readBE 4 b
    else if lead = 0xd3 then nonneg (mapR (signed 64) (readBE 8 b))
    else if lead = 0xcf then readBE 8 b
    else .error .prefix

/-- `ReadUint32Bytes`: `ReadUint64Bytes` and a range check. -/
def readUint32 (b : Bytes) : R Nat := checkR (fun u => decide (u ≤ 4294967295)) (readUint64 b)

/-- `ReadBoolBytes` -/
def readBool : Bytes → R Bool
  | [] => .error .short
  | lead :: b =>
    if lead = 0xc3 then .ok (true, b)
    else if lead = 0xc2 then .ok (false, b)
    else .error .prefix

/-- `ReadFloat64Bytes`, the float by its bits.  (The real function also accepts a float32 and
converts it; no encoder of goodfs writes one, so that form is refused here.) -/
def readFloat : Bytes → R Nat
  | [] => .error .short
  | lead :: b => if lead = 0xcb then readBE 8 b else .error .prefix

/-- `IsNil` -/
def isNil : Bytes → Bool
  | [] => false
  | lead :: _ => decide (lead = 0xc0)

/-- `ReadNilBytes` -/
def readNil : Bytes → R Unit
  | [] => .error .short
  | lead :: b => if lead = 0xc0 then .ok ((), b) else .error .prefix

/-- Read a length, then that many bytes. -/
def readSized (r : R Nat) : R Bytes :=
  match r with
  | .error e => .error e
  | .ok (n, b) => match takeN n b with
    | none => .error .short
    | some (p, b') => .ok (p, b')

/-- `ReadStringZC`, `ReadStringBytes` -/
def readStr : Bytes → R Bytes
  | [] => .error .short
  | lead :: b =>
    if 0xa0 ≤ lead ∧ lead ≤ 0xbf then readSized (.ok (lead - 0xa0, b))
    else if lead = 0xd9 then readSized (readBE 1 b)
    else if lead = 0xda then readSized (readBE 2 b)
    else if lead = 0xdb then readSized (readBE 4 b)
    else .error .prefix

/-- `ReadBytesZC` (bin8, bin16, bin32) -/
def readBin : Bytes → R Bytes
  | [] => .error .short
  | lead :: b =>
    if lead = 0xc4 then readSized (readBE 1 b)
    else if lead = 0xc5 then readSized (readBE 2 b)
    else if lead = 0xc6 then readSized (readBE 4 b)
    else .error .prefix

/-- `ReadMapKeyZC`: a string, or bytes. -/
def readMapKey : Bytes → R Bytes
  | [] => .error .short
  | lead :: b =>
    if lead = 0xc4 ∨ lead = 0xc5 ∨ lead = 0xc6 then readBin (lead :: b) else readStr (lead :: b)

/-- `ReadMapHeaderBytes` -/
def readMapHeader : Bytes → R Nat
  | [] => .error .short
  | lead :: b =>
    if 0x80 ≤ lead ∧ lead ≤ 0x8f then .ok (lead - 0x80, b)
    else if lead = 0xde then readBE 2 b
    else if lead = 0xdf then readBE 4 b
    else .error .prefix

/-- `ReadArrayHeaderBytes` -/
def readArrayHeader : Bytes → R Nat
  | [] => .error .short
  | lead :: b =>
    if 0x90 ≤ lead ∧ lead ≤ 0x9f then .ok (lead - 0x90, b)
    else if lead = 0xdc then readBE 2 b
    else if lead = 0xdd then readBE 4 b
    else .error .prefix

/-- `n` strings in a row (the loop of the generated code over a string slice). -/
def readStrsN : Nat → Bytes → R (List Bytes)
  | 0, b => .ok ([], b)
  | n + 1, b => match readStr b with
    | .error e => .error e
    | .ok (s, b') => match readStrsN n b' with
      | .error e => .error e
      | .ok (ss, b'') => .ok (s :: ss, b'')

/-- A string slice: array header, then the strings.  (`cap` reuse of the old slice does not change
the result: every item is overwritten.) -/
def readStrs (b : Bytes) : R (List Bytes) :=
  match readArrayHeader b with
  | .error e => .error e
  | .ok (n, b') => readStrsN n b'

/-- `getSize`: the bytes of the head of an object (with its payload if it has no sub-objects) and
the number of sub-objects. -/
def getSize : Bytes → Except Err (Nat × Nat)
  | [] => .error .short
  | lead :: b =>
    let sized (k n : Nat) : Except Err (Nat × Nat) :=
      match readBE n b with
      | .error e => .error e
      | .ok (len, _) => .ok (k + len, 0)
    let counted (n mul : Nat) : Except Err (Nat × Nat) :=
      match readBE n b with
      | .error e => .error e
      | .ok (len, _) => .ok (n + 1, mul * len)
    if lead ≤ 0x7f ∨ 0xe0 ≤ lead then .ok (1, 0)
    else if lead ≤ 0x8f then .ok (1, 2 * (lead - 0x80))
    else if lead ≤ 0x9f then .ok (1, lead - 0x90)
    else if lead ≤ 0xbf then .ok (1 + (lead - 0xa0), 0)
    else if lead = 0xc0 ∨ lead = 0xc2 ∨ lead = 0xc3 then .ok (1, 0)
    else if lead = 0xc4 ∨ lead = 0xd9 then sized 2 1
    else if lead = 0xc5 ∨ lead = 0xda then sized 3 2
    else if lead = 0xc6 ∨ lead = 0xdb then sized 5 4
    else if lead = 0xc7 then sized 3 1
    else if lead = 0xc8 then sized 4 2
    else if lead = 0xc9 then sized 6 4
    else if lead = 0xcc ∨ lead = 0xd0 then .ok (2, 0)
    else if lead = 0xcd ∨ lead = 0xd1 then .ok (3, 0)
    else if lead = 0xca ∨ lead = 0xce ∨ lead = 0xd2 then .ok (5, 0)
    else if lead = 0xcb ∨ lead = 0xcf ∨ lead = 0xd3 then .ok (9, 0)
    else if lead = 0xd4 then .ok (3, 0)
    else if lead = 0xd5 then .ok (4, 0)
    else if lead = 0xd6 then .ok (6, 0)
    else if lead = 0xd7 then .ok (10, 0)
    else if lead = 0xd8 then .ok (18, 0)
    else if lead = 0xdc then counted 2 1
    else if lead = 0xdd then counted 4 1
    else if lead = 0xde then counted 2 2
    else if lead = 0xdf then counted 4 2
    else .error .prefix

/-- Skip `n` objects.  The recursion of `Skip` over the sub-objects is written as a counter of
objects still to skip; every object has at least one byte, so `fuel = len(b) + 1` is never used up
before the input is (`skip`). -/
def skipLoop : Nat → Nat → Bytes → R Unit
  | _, 0, b => .ok ((), b)
  | 0, _ + 1, _ => .error .short
  | fuel + 1, n + 1, b => match getSize b with
    | .error e => .error e
    | .ok (sz, sub) => match takeN sz b with
      | none => .error .short
      | some (_, b') => skipLoop fuel (sub + n) b'

/-- `Skip`: jump over one object. -/
def skip (b : Bytes) : R Unit := skipLoop (b.length + 1) 1 b

/-! ## Maps of named fields -/

/-- The loop of the generated `UnmarshalMsg` methods: `n` times a key, then the reading of the field
(`step key z b`). -/
def fieldsLoop {α : Type} (step : Bytes → α → Bytes → R α) : Nat → α → Bytes → R α
  | 0, z, b => .ok (z, b)
  | n + 1, z, b => match readMapKey b with
    | .error e => .error e
    | .ok (k, b') => match step k z b' with
      | .error e => .error e
      | .ok (z', b'') => fieldsLoop step n z' b''

/-- A generated `UnmarshalMsg` method: map header, then the loop.  On an error the Go method also
leaves the fields read so far in `z`; no caller uses them, so the model drops them. -/
def readFields {α : Type} (step : Bytes → α → Bytes → R α) (z : α) (b : Bytes) : R α :=
  match readMapHeader b with
  | .error e => .error e
  | .ok (n, b') => fieldsLoop step n z b'

/-- `default:` of the generated switch: skip the value, keep `z`. -/
def unknownField {α : Type} (z : α) (b : Bytes) : R α := mapR (fun _ => z) (skip b)

/-- A pointer field: nil marker, or an object read into the old object or a new one. -/
def readPtr {α : Type} (fresh : α) (read : α → Bytes → R α) (old : Option α) (b : Bytes) :
    R (Option α) :=
  if isNil b then mapR (fun _ => none) (readNil b)
  else mapR some (read (old.getD fresh) b)

/-- A pointer field as the generated code writes it. -/
def appendPtr {α : Type} (app : α → Bytes) : Option α → Bytes
  | none => appendNil
  | some v => app v

end Verif.Msgp
