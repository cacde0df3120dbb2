import Verif.Perf.EtcdProps

/-!
# Removing performance records (C112)

Models `LocalStore.Clear` and `delete` (src/common/performance/local_store.go:182-230, 252-313) and
`EtcdStore.Clear` (src/common/performance/etcd_store.go:134-145) on top of `Verif.Perf.Store` and
`Verif.Perf.Etcd`.

The sources of bbolt and of the etcd client are not part of /repo.  What a bbolt cursor finds when it goes on
after `Delete` is a parameter (`Cursor`), and so is whether a closed database still knows its path (`Env.path`);
what a second `Txn.Then` does is a parameter as in `Verif.Perf.Etcd`.  Trusted of bbolt: `Bucket.Delete` refuses
a key that is a nested bucket, a transaction that returns an error changes nothing, a closed database refuses
every transaction.

Simplified: as in `Verif.Perf.Store`; one call at a time.
-/

namespace Verif.Perf.Clear

open KMap

/-! ## The local store -/

/-- A cursor that goes on after a deletion: the loops of local_store.go:193-201 and 219-227, given the entries with
the prefix in the order of their keys, leave some of them behind, but never the first. -/
structure Cursor where
  left : List (Str × Nat) → List (Str × Nat)
  sub : ∀ e es, (left (e :: es)).Sublist es

/-- A cursor whose `Next` after `Delete` gives the next key. -/
def exact : Cursor := ⟨fun _ => [], fun _ _ => List.nil_sublist _⟩

/-- Every other one of a list, from the second on. -/
def evens : List (Str × Nat) → List (Str × Nat)
  | [] => []
  | [_] => []
  | _ :: b :: l => b :: evens l

theorem evens_sub : ∀ l : List (Str × Nat), (evens l).Sublist l
  | [] => List.Sublist.slnil
  | [_] => List.nil_sublist _
  | _ :: b :: l => ((evens_sub l).cons₂ b).cons _

/-- A cursor whose `Next` after `Delete` steps over a key, since the keys have moved up. -/
def skipping : Cursor where
  left := evens
  sub e es := by
    cases es with
    | nil => exact List.nil_sublist _
    | cons b l => exact (evens_sub l).cons₂ b

/-- The entries of a bucket whose keys start with `p`. -/
def under (m : KMap Nat) (p : Str) : List (Str × Nat) := m.entries.filter fun e => hasPrefix e.1 p

/-- The loop over the keys with a prefix; local_store.go:191-201, 217-227. -/
def wipe (c : Cursor) (m : KMap Nat) (p : Str) : KMap Nat :=
  ⟨m.entries.filter fun e => !hasPrefix e.1 p || decide (e ∈ c.left (under m p)),
    m.sorted.sublist List.filter_sublist⟩

/-- `delete` with the name of a nested bucket, which is created when missing; local_store.go:183-203. -/
def delNest (c : Cursor) (f : Fam) (nest p : Str) : Fam :=
  f.put nest ⟨(bucketOf f nest).seq, wipe c (bucketOf f nest).data p⟩

/-- `delete` without a name: in every nested bucket; local_store.go:204-229. -/
def delAll (c : Cursor) (f : Fam) (p : Str) : Fam :=
  ⟨f.entries.map fun o => (o.1, ⟨o.2.seq, wipe c o.2.data p⟩), List.pairwise_map.2 f.sorted⟩

/-- `Clear` with at least one argument, one transaction; local_store.go:256-299.  `none`: an error, and nothing has
changed.  With both arguments empty see `clearFile`. -/
def clear (c : Cursor) (d : Db) (kind action : Str) : Option Db :=
  if action = [] then
    -- 256-272; `kindRoot.Delete` (267) is refused when the kind has a bucket
    if (d.kinds.get kind).isSome then none else some { d with acts := delAll c d.acts kind }
  else if kind = [] then
    -- 273-289
    if (d.acts.get action).isSome then none else some { d with kinds := delAll c d.kinds action }
  else
    -- 290-299
    some ⟨delNest c d.acts action kind, delNest c d.kinds kind action⟩

/-! ### The file -/

/-- `LocalStore` (local_store.go:25-29) with its file.  `usable`: `ls.db` is an open database.  It is opened by
the first call (232-250) and never set to nil, so `usable = false` stays so until the process ends. -/
structure Store where
  file : Db
  usable : Bool

/-- What happens to `Clear("", "")`. -/
structure Env where
  closeOk : Bool
  /-- the closed database still knows its path; local_store.go:306 -/
  path : Bool
  /-- `os.Remove` succeeds for a path that is known; local_store.go:307 -/
  rmOk : Bool
  /-- `bolt.Open` succeeds; local_store.go:244 -/
  openOk : Bool

/-- `Clear("", "")`; local_store.go:300-312.  The flag tells whether it returned nil.  A failed `Close` is taken to
change nothing; the file of an empty path cannot be removed. -/
def clearFile (e : Env) (s : Store) : Store × Bool :=
  if e.closeOk then
    if e.path && e.rmOk then
      if e.openOk then (⟨Db.init, true⟩, true) else (⟨Db.init, false⟩, false)
    else ({ s with usable := false }, false)
  else (s, false)

inductive Op
  | put (rs : List Rec)
  | clear (kind action : Str)

/-- One call on an open or closed database, and whether it returned nil. -/
def Store.step (c : Cursor) (e : Env) (s : Store) : Op → Store × Bool
  | .put rs => if s.usable then ({ s with file := put s.file rs }, true) else (s, false)
  | .clear kind action =>
    if s.usable then
      if kind = [] ∧ action = [] then clearFile e s
      else match Clear.clear c s.file kind action with
        | none => (s, false)
        | some d => ({ s with file := d }, true)
    else (s, false)

def Store.run (c : Cursor) (e : Env) (s : Store) (ops : List Op) : Store :=
  ops.foldl (fun s o => (s.step c e o).1) s

/-- `Get` of the store; `none`: the database is closed; `some none`: `errNotExist`. -/
def Store.get (s : Store) (kind action : Str) : Option (Option (List Rec)) :=
  if s.usable then some (getRecs s.file kind action) else none

def Store.init : Store := ⟨Db.init, true⟩

/-! ## The store in etcd -/

/-- Operations of a transaction that deletes: the prefixes. -/
structure DelLib where
  more : List Str → Str → Option (List Str)
  first : ∀ p, more [] p = some [p]
  sound : ∀ ps p ps', more ps p = some ps' → ∀ q ∈ ps', q ∈ ps ∨ q = p

/-- The loop over the actions; etcd_store.go:140-142.  `none`: `Then` panics. -/
def buildDel (lib : DelLib) (kind : Str) : List Str → List Str → Option (List Str)
  | ps, [] => some ps
  | ps, a :: as =>
    match lib.more ps (Etcd.keyOf a kind) with
    | none => none
    | some ps' => buildDel lib kind ps' as

/-- etcd's deletion of a prefix. -/
def delBelow (m : KMap Str) (p : Str) : KMap Str :=
  ⟨m.entries.filter fun e => !hasPrefix e.1 p, m.sorted.sublist List.filter_sublist⟩

/-- `EtcdStore.Clear`; etcd_store.go:134-145.  `order`: the allowed actions in the order of the set. -/
def etcdClear (lib : DelLib) (order : List Str) (ok : Bool) (m : KMap Str) (kind action : Str) : KMap Str × Etcd.Out :=
  match buildDel lib kind [] (if action = [] then order else [action]) with
  | none => (m, .panicked)
  | some ps => if ok then (ps.foldl delBelow m, .ok) else (m, .err)

/-- `Then` panics on the second call (believed of `clientv3`). -/
def strict : DelLib where
  more ps p := match ps with
    | [] => some [p]
    | _ :: _ => none
  first _ := rfl
  sound ps p ps' h q hq := by
    cases ps with
    | nil => simp only [Option.some.injEq] at h; subst h; exact Or.inr (by simpa using hq)
    | cons a l => simp at h

/-- `Then` may be called any number of times. -/
def lenient : DelLib where
  more ps p := some (ps ++ [p])
  first _ := rfl
  sound ps p ps' h q hq := by
    simp only [Option.some.injEq] at h; subst h; simpa using hq

/-! ## Specification -/

/-- What `Store` (store.go:27-51) promises: `Clear` removes the records that meet both conditions. -/
def remaining (kept : List Rec) : Op → List Rec
  | .put rs => kept ++ rs
  | .clear kind action => kept.filter fun r => !wanted kind action r

def remainings (ops : List Op) : List Rec := ops.foldl remaining []

/-- The answer to a query over the records `kept`. -/
def Answers (o : Option (List Rec)) (kept : List Rec) (kind action : Str) : Prop :=
  match o with
  | some rs => rs.Perm (kept.filter (wanted kind action))
  | none => kept.filter (wanted kind action) = []

/-- Names none of which starts another. -/
def Apart (N : Str → Prop) : Prop := ∀ a b, N a → N b → hasPrefix a b = true → a = b

/-- Records with plain names out of `K` and `A`; cleared by both conditions. -/
def Op.Fits (K A : Str → Prop) : Op → Prop
  | .put rs => ∀ r ∈ rs, r.Plain ∧ K r.kind ∧ A r.action
  | .clear kind action => kind ≠ [] ∧ action ≠ [] ∧ '.' ∉ kind ∧ '.' ∉ action ∧ K kind ∧ A action

end Verif.Perf.Clear
