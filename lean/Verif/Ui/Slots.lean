import Verif.HashSlot.Props
import Verif.Admin.Commands

/-!
# Slots on the page of the metadata servers of the web console: C119

Models of src/adminserver/ui/src/pages/server/meta.vue: the form for migrations (`startMigrate`, `openMigrateDia`) and
`getSlotRanges`, and of src/adminserver/ui/src/components/SlotsCard.vue: the bar of the slots.  What the form sends
goes to the handler of `Verif.Admin.Commands` and to the parser of `Verif.HashSlot.Model`
(src/metaserver/internal/usecase/service/hashslot_service.go:84-98 parses the slots before anything else is done).

Simplified: numbers of JavaScript are exact (they are below 2^53); colours and the factor 0.9 of the widths are left
out, a width of one stands for one slot.
-/

namespace Verif.Ui.Slots

open Verif Verif.HashSlot

/-! ## The form -/

/-- One or more digits, `\d+`. -/
def Digits (s : Str) : Prop := s ≠ [] ∧ ∀ c ∈ s, c.isDigit = true

/-- `\d+-\d+,?`; meta.vue:250. -/
def Piece (p : Str) : Prop := ∃ a b, Digits a ∧ Digits b ∧ (p = a ++ '-' :: b ∨ p = a ++ '-' :: (b ++ [',']))

/-- The texts that `/^(\d+-\d+,?)+$/` matches; meta.vue:250.  (`$` is the end of the text, there is no flag `m`.) -/
inductive Matches : Str → Prop
  | one {p : Str} : Piece p → Matches p
  | more {p r : Str} : Piece p → Matches r → Matches (p ++ r)

/-- An automaton for `Matches`, see `test_iff`: at the beginning, in the first number, after the dash, after one digit
of the second number, after more digits of it, after the comma, nowhere. -/
inductive St
  | begin | first | dash | one | many | comma | dead
deriving DecidableEq

def next (q : St) (c : Char) : St :=
  match q with
  | .begin | .comma => if c.isDigit then .first else .dead
  | .first => if c.isDigit then .first else if c = '-' then .dash else .dead
  | .dash => if c.isDigit then .one else .dead
  | .one => if c.isDigit then .many else if c = ',' then .comma else .dead
  | .many => if c.isDigit then .many else if c = ',' then .comma else if c = '-' then .dash else .dead
  | .dead => .dead

def final : St → Bool
  | .one | .many | .comma => true
  | _ => false

/-- `RegExp.test`; meta.vue:250. -/
def test (s : Str) : Bool := final (s.foldl next .begin)

/-- What the user chose in the form; `MetaMigrateReq`. -/
structure Form where
  src : Str
  dest : Str
  text : Str

inductive Shown
  | sameServer
  | badFormat
deriving DecidableEq

/-- `startMigrate`; meta.vue:245-254: a message, or the slots of the request. -/
def startMigrate (f : Form) : Except Shown (List Str) :=
  if f.src = f.dest then .error .sameServer
  else if test f.text then .ok (splitOn ',' f.text)
  else .error .badFormat

/-- The request that arrives at the administration server (metadata.ts: startMigrate). -/
def request (f : Form) (slots : List Str) : Admin.Commands.Req := .migration (some (f.src, f.dest, some slots))

/-! ## The bar -/

/-- What `/server/slots` answers for a group: hashslot.SlotInfo, src/common/hashslot/slot_info.go:5-9. -/
structure Info where
  id : Str
  serverId : Str
  slots : List Str

/-- `parseInt(s)`: an optional sign and the digits that follow; none stands for NaN.  (Blanks before and hexadecimal
numbers are left out: `Atoi` refuses them.) -/
def parseInt (s : Str) : Option Int :=
  let num (r : Str) : Option Nat := parseDigits (r.takeWhile Char.isDigit)
  match s with
  | '-' :: r => (num r).map fun m : Nat => -(m : Int)
  | '+' :: r => (num r).map fun m : Nat => (m : Int)
  | r => (num r).map fun m : Nat => (m : Int)

/-- The range of a text; meta.vue:130-135.  none: a number is missing or NaN. -/
def range (id slot : Str) : Option Edge :=
  match splitOn '-' slot with
  | a :: b :: _ =>
    match parseInt a, parseInt b with
    | some x, some y => some ⟨x, y, id⟩
    | _, _ => none
  | _ => none

/-- The ranges of a group; meta.vue:120-136. -/
def groupRanges (i : Info) : Option (List Edge) :=
  if i.slots = [] then some [⟨0, 0, i.id⟩] else i.slots.mapM (range i.id)

/-- `Array.sort` with the comparison of meta.vue:138-140. -/
structure Order where
  run : List Edge → List Edge
  perm : ∀ l, (run l).Perm l
  sorted : ∀ l, (run l).Pairwise fun a b => a.start ≤ b.start

/-- `getSlotRanges`; meta.vue:117-141, for the groups in the order of the keys. -/
def getSlotRanges (S : Order) (l : List Info) : Option (List Edge) := (l.mapM groupRanges).map fun x => S.run x.flatten

/-- `getWid`; SlotsCard.vue:53-56. -/
def width (e : Edge) : Int := e.stop - e.start

/-- Where the next bar begins: the bars stand one after the other (SlotsCard.vue:12-23). -/
def offset (pre : List Edge) : Int := (pre.map width).sum

/-- A click on a bar: `clickSlots` (SlotsCard.vue:49-51) and `openMigrateDia` (meta.vue:177-180). -/
def click (e : Edge) (f : Form) : Form := { f with src := e.value }

/-- The text beside a server in the form, `getSlotsString`; meta.vue:201-208. -/
def slotsString (l : List Info) (id : Str) : Option (List Str) := (l.find? fun i => i.serverId == id).map (·.slots)

/-! ## Specification -/

/-- A text is a list of ranges of numbers below 2^63, separated by commas. -/
def RangeText (s : Str) (l : List (Str × Str)) : Prop :=
  l ≠ [] ∧ splitOn ',' s = l.map (fun p => p.1 ++ '-' :: p.2) ∧
    ∀ p ∈ l, Digits p.1 ∧ Digits p.2 ∧ Nat.ofDigitChars 10 p.1 0 < 2 ^ 63 ∧ Nat.ofDigitChars 10 p.2 0 < 2 ^ 63

/-- The table that the groups publish; `wrapSlots` accepts it if the ranges can be read and no slot has two owners. -/
def table (l : List Info) : List (Str × List Str) := l.map fun i => (i.id, i.slots)

/-- **C119**: the form lets a text pass exactly if it is a list of ranges; and if the metadata servers agree about the
slots, then a click on a bar chooses the server that owns the range, and the bar stands where its first slot is. -/
def C119_statement : Prop :=
  (∀ s, test s = true ↔ ∃ l, RangeText s l) ∧
  (∀ (S : Sorter) (O : Order) (l : List Info) (t pre post : List Edge) (e : Edge) (f : Form), wrapSlots S (table l) = .ok t →
    getSlotRanges O l = some (pre ++ e :: post) → e.start < e.stop →
      (∃ i ∈ l, i.id = e.value ∧ (click e f).src = i.serverId) ∧ offset pre = e.start)

end Verif.Ui.Slots
