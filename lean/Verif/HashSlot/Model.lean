import Verif.Common.Str

/-!
# Hash slot tables

Model of src/common/hashslot/edge.go and src/common/hashslot/hash_slot.go.
Go `int` is modelled by `Int` (no slot computation comes near 2^63; the only
values ever parsed are checked by `Atoi`).
-/

namespace Verif.HashSlot

open Verif

/-- `type Edge struct { Start, End int; Value string }`, src/common/hashslot/edge.go:5-9.
`stop` is `End`.  Edges are Go pointers; see `combineEdges` for the only place where
sharing matters. -/
structure Edge where
  start : Int
  stop : Int
  value : Str
deriving DecidableEq, Repr

/-- `EdgeList.Less`, src/common/hashslot/edge.go:21-26. -/
def Edge.less (a b : Edge) : Bool :=
  if a.start = b.start then a.stop < b.stop else a.start < b.start

/-- The contract of `sort.Sort` (called at hash_slot.go:44 and :185): the result is
a permutation in which no element is `Less` than an earlier one.  `sort.Sort` is
not stable, so the model takes *any* function with this contract. -/
structure Sorter where
  run : List Edge → List Edge
  perm : ∀ l, (run l).Perm l
  sorted : ∀ l, (run l).Pairwise fun a b => b.less a = false

/-- Error classes of the slot parser (messages are not modelled). -/
inductive SlotErr
  | format   -- formatInt: not "a-b", not a number, or negative
  | order    -- start >= end
  | overlap  -- ErrOverlap
  | empty    -- WrapSlots of an empty map
deriving DecidableEq, Repr

/-- `formatInt`, src/common/hashslot/hash_slot.go:21-41. -/
def formatInt (slot : Str) : Except SlotErr (Int × Int) :=
  match splitOn '-' slot with
  | [a, b] =>
    match atoi a with
    | none => .error .format
    | some s =>
      if s < 0 then .error .format
      else
        match atoi b with
        | none => .error .format
        | some e => if e < 0 then .error .format else .ok (s, e)
  | _ => .error .format

/-- The loop of `sortAndValidate` over the sorted list, `pre` being `edges[i-1]`;
src/common/hashslot/hash_slot.go:46-58. -/
def validate : Option Edge → List Edge → Except SlotErr Unit
  | _, [] => .ok ()
  | none, e :: es => if e.start ≥ e.stop then .error .order else validate (some e) es
  | some p, e :: es =>
    if e.start ≥ e.stop then .error .order
    else if p.start = e.start ∨ p.stop > e.start then .error .overlap
    else validate (some e) es

/-- `sortAndValidate`, src/common/hashslot/hash_slot.go:43-59.  The Go function sorts in
place; the model returns the sorted list. -/
def sortAndValidate (S : Sorter) (edges : List Edge) : Except SlotErr (List Edge) :=
  match validate none (S.run edges) with
  | .ok () => .ok (S.run edges)
  | .error e => .error e

/-- `wrapSlotsOriginal`, src/common/hashslot/hash_slot.go:61-75. -/
def wrapSlotsOriginal : List Str → Str → Except SlotErr (List Edge)
  | [], _ => .ok []
  | s :: ss, id =>
    match formatInt s with
    | .error e => .error e
    | .ok (a, b) =>
      match wrapSlotsOriginal ss id with
      | .error e => .error e
      | .ok r => .ok (⟨a, b, id⟩ :: r)

/-- `WrapSlotsToEdges`, src/common/hashslot/hash_slot.go:78-84. -/
def wrapSlotsToEdges (S : Sorter) (slots : List Str) (id : Str) : Except SlotErr (List Edge) :=
  match wrapSlotsOriginal slots id with
  | .error e => .error e
  | .ok r => sortAndValidate S r

/-- The collecting loop of `WrapSlots`, src/common/hashslot/hash_slot.go:92-98.  Go iterates a
map in an unspecified order: the model takes the entries as a list in any order. -/
def collectSlots : List (Str × List Str) → Except SlotErr (List Edge)
  | [] => .ok []
  | (id, ss) :: m =>
    match wrapSlotsOriginal ss id with
    | .error e => .error e
    | .ok r =>
      match collectSlots m with
      | .error e => .error e
      | .ok r' => .ok (r ++ r')

/-- `WrapSlots`, src/common/hashslot/hash_slot.go:87-103. -/
def wrapSlots (S : Sorter) (m : List (Str × List Str)) : Except SlotErr (List Edge) :=
  if m = [] then .error .empty
  else
    match collectSlots m with
    | .error e => .error e
    | .ok r => sortAndValidate S r

/-- The loop of Go's `sort.Search`: `for i < j { h := (i+j)/2; if !f(h) {i = h+1} else {j = h} }`.
`fuel` bounds the number of rounds; `sortSearch` supplies enough. -/
def searchLoop (f : Nat → Bool) : Nat → Nat → Nat → Nat
  | 0, i, _ => i
  | fuel + 1, i, j =>
    if i < j then
      if f ((i + j) / 2) then searchLoop f fuel i ((i + j) / 2)
      else searchLoop f fuel ((i + j) / 2 + 1) j
    else i

/-- Go's `sort.Search(n, f)`. -/
def sortSearch (n : Nat) (f : Nat → Bool) : Nat := searchLoop f n 0 n

/-- The predicate handed to `sort.Search` at hash_slot.go:134-136 and :143-145:
`slot < edges[i].End`.  Indices out of range never occur in the search. -/
def beforeEnd (slot : Int) (edges : List Edge) (i : Nat) : Bool :=
  match edges[i]? with
  | some e => slot < e.stop
  | none => true

/-- `GetSlotIdentify`, src/common/hashslot/hash_slot.go:132-140; `none` is the error. -/
def getSlotIdentify (slot : Int) (edges : List Edge) : Option Str :=
  match edges[sortSearch edges.length (beforeEnd slot edges)]? with
  | some e => if slot ≥ e.start then some e.value else none
  | none => none

/-- `IsSlotInEdges`, src/common/hashslot/hash_slot.go:142-149. -/
def isSlotInEdges (slot : Int) (edges : List Edge) : Bool :=
  match edges[sortSearch edges.length (beforeEnd slot edges)]? with
  | some e => slot ≥ e.start
  | none => false

/-- One bit step of the reflected CRC-32 (IEEE, polynomial 0xEDB88320). -/
def crcBit (c : BitVec 32) : BitVec 32 :=
  if c.getLsbD 0 then (c >>> 1) ^^^ 0xEDB88320#32 else c >>> 1

/-- One byte step of CRC-32. -/
def crcByte (c : BitVec 32) (b : Char) : BitVec 32 :=
  crcBit (crcBit (crcBit (crcBit (crcBit (crcBit (crcBit (crcBit
    (c ^^^ BitVec.ofNat 32 (b.toNat % 256)))))))))

/-- Go's `crc32.ChecksumIEEE`. -/
def crc32 (bt : Str) : BitVec 32 :=
  (bt.foldl crcByte 0xFFFFFFFF#32) ^^^ 0xFFFFFFFF#32

/-- `MaxSlot`, src/common/hashslot/hash_slot.go:15. -/
def maxSlot : Nat := 16383

/-- `CalcBytesSlot`, src/common/hashslot/hash_slot.go:113-115. -/
def calcBytesSlot (bt : Str) : Int := ((crc32 bt &&& BitVec.ofNat 32 maxSlot).toNat : Int)

/-- `GetStringIdentify` / `GetDataIdentify`, src/common/hashslot/hash_slot.go:105-111. -/
def getStringIdentify (s : Str) (edges : List Edge) : Option Str :=
  getSlotIdentify (calcBytesSlot s) edges

/-- `CopyOfEdges`, src/common/hashslot/hash_slot.go:117-130. -/
def copyOfEdges (id : Str) (edges : List Edge) : List Edge :=
  edges.filter fun e => id = [] || e.value = id

/-- The loop of `FindRangeCurrentData`, src/common/hashslot/hash_slot.go:155-164;
returns the pieces and the remaining `rangeLen`. -/
def findRangeLoop (start stop : Int) : List Edge → Int → List Edge × Int
  | [], rl => ([], rl)
  | e :: es, rl =>
    let ed := min e.stop stop
    if e.start < start ∧ start < e.stop then
      let r := findRangeLoop start stop es (rl - (ed - start))
      (⟨start, ed, e.value⟩ :: r.1, r.2)
    else if e.start ≥ start ∧ e.start < stop then
      let r := findRangeLoop start stop es (rl - (ed - e.start))
      (⟨e.start, ed, e.value⟩ :: r.1, r.2)
    else findRangeLoop start stop es rl

/-- `FindRangeCurrentData`, src/common/hashslot/hash_slot.go:152-167. -/
def findRangeCurrentData (start stop : Int) (edges : List Edge) : List Edge × Bool :=
  let r := findRangeLoop start stop edges (stop - start)
  (r.1, r.2 = 0)

/-- `IsValidEdge`, src/common/hashslot/hash_slot.go:170-179. -/
def isValidEdge (e : Edge) (edges : List Edge) : Bool :=
  match findRangeCurrentData e.start e.stop edges with
  | (_, false) => false
  | ([p], true) => p.value = e.value
  | (_, true) => false

/-- The merging loop of `CombineEdges` with `last` the end of `newEdges`;
src/common/hashslot/hash_slot.go:186-198.  The Go code updates `*last` in place, so the
edge objects of the argument lists are changed too; all callers pass freshly parsed
lists that are not used afterwards (src/metaserver/internal/usecase/service/hashslot_service.go). -/
def mergeInto (last : Edge) : List Edge → List Edge
  | [] => [last]
  | e :: es =>
    if e.start ≤ last.stop then
      mergeInto ⟨min last.start e.start, max last.stop e.stop, last.value⟩ es
    else last :: mergeInto e es

/-- `CombineEdges`, src/common/hashslot/hash_slot.go:182-200. -/
def combineEdges (S : Sorter) (src dest : List Edge) : List Edge :=
  match S.run (src ++ dest) with
  | [] => []
  | e :: es => mergeInto e es

/-- The inner body of `RemoveEdges` for one edge, src/common/hashslot/hash_slot.go:209-223. -/
def cutEdge (del e : Edge) : List Edge :=
  if e.stop ≤ del.start ∨ del.stop ≤ e.start then [e]
  else
    (if e.start < del.start then [⟨e.start, del.start, e.value⟩] else []) ++
    (if e.stop > del.stop then [⟨del.stop, e.stop, e.value⟩] else [])

/-- `RemoveEdges`, src/common/hashslot/hash_slot.go:203-229.  The two alternating buffers
never alias the list being read (each round reads one and fills the other), so each round
is a plain map over the current list. -/
def removeEdges (src dest : List Edge) : List Edge :=
  dest.foldl (fun s del => s.flatMap (cutEdge del)) src

/-- One element of `EdgeList.Strings`: `fmt.Sprint(Start, "-", End)`;
src/common/hashslot/edge.go:32-38.  (`Sprint` adds no blanks next to a string operand.) -/
def edgeString (e : Edge) : Str := fmtInt e.start ++ '-' :: fmtInt e.stop

/-- `EdgeList.Strings`, src/common/hashslot/edge.go:32-38. -/
def edgeStrings (l : List Edge) : List Str := l.map edgeString

/-- A concrete sorter (merge sort), showing that the contract is satisfiable. -/
def mergeSorter : Sorter where
  run l := l.mergeSort (fun a b => !(b.less a))
  perm l := List.mergeSort_perm _ _
  sorted l := by
    have h := List.pairwise_mergeSort (le := fun a b : Edge => !(b.less a))
      (by
        intro a b c h1 h2
        simp [Edge.less] at *
        grind)
      (by
        intro a b
        simp [Edge.less]
        grind) l
    simpa using h

end Verif.HashSlot
