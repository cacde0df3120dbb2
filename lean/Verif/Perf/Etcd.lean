import Verif.Perf.Collector

/-!
# The performance store in etcd (C82)

Models src/common/performance/etcd_store.go.

Simplified: costs are natural numbers of nanoseconds; the clock is given with every record; etcd is a sorted
map from keys to values and every request is atomic; the calls of `Put` run one after the other, except that
whatever other processes do shows in the answers (`Env`) and in keys already present.  The lock is taken without
failure; holding it means that its key is in etcd.  `Get` is modelled for the case that etcd answers.

The source of the etcd client is not part of /repo and not at hand.  What it does when `Txn.Then` is called a
second time is therefore a parameter (`Lib`), and theorems that need to know say so in a hypothesis.
-/

namespace Verif.Perf.Etcd

open KMap

/-! ## Costs as text -/

/-- The last `p` decimal digits of `v`. -/
def padDigits : Nat → Nat → Str
  | 0, _ => []
  | p + 1, v => padDigits p (v / 10) ++ [Nat.digitChar (v % 10)]

/-- `fmtFrac` of Go's time package: the fraction `v / 10^p` without trailing zeros, nothing if it is zero. -/
def frac (v p : Nat) : Str :=
  match ((padDigits p v).reverse.dropWhile (· == '0')).reverse with
  | [] => []
  | ds => '.' :: ds

/-- `time.Duration.String` of Go's library for a duration that is not negative; called in etcd_store.go:81. -/
def durString (u : Nat) : Str :=
  if u = 0 then ['0', 's']
  else if u < 1000 then fmtNat u ++ ['n', 's']
  else if u < 1000000 then fmtNat (u / 1000) ++ frac u 3 ++ ['µ', 's']
  else if u < 1000000000 then fmtNat (u / 1000000) ++ frac u 6 ++ ['m', 's']
  else
    (if 0 < u / 1000000000 / 3600 then fmtNat (u / 1000000000 / 3600) ++ ['h'] else []) ++
    (if 0 < u / 1000000000 / 60 then fmtNat (u / 1000000000 / 60 % 60) ++ ['m'] else []) ++
    fmtNat (u / 1000000000 % 60) ++ frac u 9 ++ ['s']

/-- `util.ToInt64`; src/common/util/util.go:141-150.  An error leaves 0; the other value Go gives for a number
out of range does not matter here, no text of a duration is a number. -/
def toInt64 (s : Str) : Int := (atoi s).getD 0

/-! ## The store -/

/-- etcd_store.go:17 `etcdPrefix` -/
def etcdPrefix : Str := "performance-data".toList

/-- etcd_store.go:19 `maxSize` -/
def maxSize : Nat := 1000 * 100

/-- `getKeyPrefix`; etcd_store.go:30-32. -/
def keyOf (action kind : Str) : Str := etcdPrefix ++ '/' :: (action ++ '/' :: kind)

/-- The key of a record; etcd_store.go:80. -/
def recKey (r : Rec) (ms : Nat) : Str := keyOf r.action r.kind ++ '/' :: fmtNat ms

/-- etcd `DeleteRange` of the keys from `a` on and below `b`. -/
def delRange (m : KMap Str) (a b : Str) : KMap Str :=
  ⟨m.entries.filter fun e => strLt e.1 a || !strLt e.1 b, m.sorted.sublist List.filter_sublist⟩

/-- The first `limit` keys below the prefix; the request of etcd_store.go:34-39. -/
def oldest (m : KMap Str) (limit : Nat) : List Str := (m.keys.filter (hasPrefix · etcdPrefix)).take limit

/-- `removeOldKeys` once etcd has answered; etcd_store.go:43-51. -/
def removeOld (m : KMap Str) (limit : Nat) : KMap Str :=
  match (oldest m limit).head?, (oldest m limit).getLast? with
  | some a, some b => delRange m a b
  | _, _ => m

/-- What etcd and the other processes contribute to one call of `Put`. -/
structure Env where
  /-- key of the lock of this process, present while it is held -/
  lock : Str
  /-- what `Size` returned: its goroutines are still counting, so anything up to the right number -/
  size : Nat
  sizeOk : Bool
  getOk : Bool
  delOk : Bool
  commitOk : Bool

/-- `checkSize` between `Lock` and `Unlock`; etcd_store.go:54-67.  The flag tells whether it returned nil.
A failed deletion is taken to delete nothing. -/
def checkSize (e : Env) (m : KMap Str) (added : Nat) : KMap Str × Bool :=
  if e.sizeOk then
    if maxSize < e.size + added then
      if e.getOk then
        if e.delOk then (removeOld m (e.size + added - maxSize), true) else (m, false)
      else (m, false)
    else (m, true)
  else (m, false)

/-- The library's `Txn.Then`: given the operations of the transaction and a new one, the operations after the
call; `none` is a panic. -/
structure Lib where
  more : List (Str × Str) → Str × Str → Option (List (Str × Str))
  /-- the first call sets the operations -/
  first : ∀ op, more [] op = some [op]
  /-- operations are not invented -/
  sound : ∀ ops op ops', more ops op = some ops' → ∀ o ∈ ops', o ∈ ops ∨ o = op

/-- The loop over the records; etcd_store.go:79-82. -/
def build (lib : Lib) : List (Str × Str) → List (Rec × Nat) → Option (List (Str × Str))
  | ops, [] => some ops
  | ops, (r, ms) :: rs =>
    match lib.more ops (recKey r ms, durString r.cost) with
    | none => none
    | some ops' => build lib ops' rs

inductive Out
  | ok
  | err
  | panicked
deriving DecidableEq

/-- Records of allowed actions; etcd_store.go:70-75. -/
def allows (acts : List Str) (rs : List (Rec × Nat)) : List (Rec × Nat) :=
  rs.filter fun r => acts.contains r.1.action

/-- The state in which `Lock` returned. -/
def locked (e : Env) (m : KMap Str) : KMap Str := m.put e.lock []

/-- `Put`; etcd_store.go:69-85.  Each record comes with the milliseconds the clock showed for it. -/
def put (lib : Lib) (acts : List Str) (e : Env) (m : KMap Str) (rs : List (Rec × Nat)) : KMap Str × Out :=
  let c := checkSize e (locked e m) (allows acts rs).length
  let m' := c.1.del e.lock
  if c.2 then
    match build lib [] (allows acts rs) with
    | none => (m', .panicked)
    | some ops => if e.commitOk then (ops.foldl (fun m o => m.put o.1 o.2) m', .ok) else (m', .err)
  else (m', .err)

/-- What `Get` makes of an entry; etcd_store.go:109-118. -/
def readRec (action : Str) (kv : Str × Str) : Option (Str × Str × Int) :=
  match cutLast '/' kv.1 with
  | none => none
  | some (_, rest) => some (rest, action, toInt64 kv.2)

/-- The entries below a prefix, in the order of their keys. -/
def below (m : KMap Str) (p : Str) : List (Str × Str) := m.entries.filter fun e => hasPrefix e.1 p

/-- `Get`; etcd_store.go:88-132, as triples of kind, action and cost.  `order` is the allowed actions in the
order in which the answers arrive. -/
def get (m : KMap Str) (order : List Str) (kind action : Str) : List (Str × Str × Int) :=
  (if action = [] then order else [action]).flatMap fun a => (below m (keyOf a kind)).filterMap (readRec action)

/-- `Size` had it waited for its goroutines; etcd_store.go:145-169. -/
def sizeOf (m : KMap Str) (order : List Str) (kind action : Str) : Nat :=
  ((if action = [] then order else [action]).map fun a => (below m (keyOf a kind)).length).sum

/-- One call of `Put` after the other. -/
def runPuts (lib : Lib) (acts : List Str) (m : KMap Str) : List (Env × List (Rec × Nat)) → KMap Str
  | [] => m
  | (e, rs) :: cs => runPuts lib acts (put lib acts e m rs).1 cs

/-- A library that panics on the second call.  `clientv3` is believed to be like this; its source could not be
consulted. -/
def strict : Lib where
  more ops op := match ops with
    | [] => some [op]
    | _ :: _ => none
  first _ := rfl
  sound ops op ops' h o ho := by
    cases ops with
    | nil => simp only [Option.some.injEq] at h; subst h; exact Or.inr (by simpa using ho)
    | cons a l => simp at h

/-- A library that takes any number of calls. -/
def lenient : Lib where
  more ops op := some (ops ++ [op])
  first _ := rfl
  sound ops op ops' h o ho := by
    simp only [Option.some.injEq] at h; subst h; simpa using ho

end Verif.Perf.Etcd
