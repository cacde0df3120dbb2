import Verif.Object.PathDb

/-!
# Where a shard lies: drives, path database and existence marks (C67)

Models src/objectserver/internal/usecase/service/objects_service.go (`Exist`, `FindRealStoragePath`,
`Put`, `Get`, `Delete`, `CommitFile`) and `FindMountPath` of component/driver_manager.go, for one
shard name on a server with any number of mount points.  The background goroutines these functions
start are explicit: a state has the goroutines that have not ended, and any of them may run its next
action at any time.

Not modelled here: the contents of files below the level of whole files (that is
`Verif.Object.DataServer`), errors of the file system other than not-exist, the capacity counter, and
the object cache (`global.Cache.Has(name)`, `Verif.Object.DataServer`).  The table of drives is fixed;
`SelectMountPointFallback` may choose any mount point, so the choice is part of the request.
-/

namespace Verif.Paths

open Verif.PathDb (getLast encode Plain)

/-- The server: its mount points, and the full path of the shard under a mount point,
`filepath.Join(mp, StoragePath, name)`. -/
structure Conf where
  drives : List Str
  path : Str → Str

/-- Actions of the background goroutines. -/
inductive Act
  | dbPut (p : Str)      -- PathDB.Put(name, p), objects_service.go:59, 102, 321
  | dbRemove (p : Str)   -- PathDB.Remove(name, p), objects_service.go:42, 167
  | mark                 -- MarkExist(name), objects_service.go:72-74
  | unmark               -- UnMarkExist(name), objects_service.go:77-79
  | stat (p : Str)       -- `if info, err := os.Stat(p); err == nil`, objects_service.go:319
  deriving DecidableEq

/-- The state as far as one shard name is concerned.  `α` are the contents of files. -/
structure St (α : Type) where
  fs : Str → Option α
  cell : Option Str
  mark : Bool
  bg : List (List Act)

def St.empty {α : Type} : St α := ⟨fun _ => none, none, false, []⟩

variable {α : Type}

/-- One action of a goroutine with the remaining actions `rest`. -/
def act (s : St α) (rest : List Act) : Act → St α × List Act
  | .dbPut p => ({ s with cell := PathDb.put s.cell p }, rest)
  | .dbRemove p => ({ s with cell := PathDb.remove s.cell p }, rest)
  | .mark => ({ s with mark := true }, rest)
  | .unmark => ({ s with mark := false }, rest)
  | .stat p => (s, if (s.fs p).isSome then rest else [])

/-- Goroutine `i` takes a step. -/
def bgStep (s : St α) (i : Nat) : Option (St α) :=
  match s.bg[i]? with
  | some (a :: rest) => let r := act s rest a; some { r.1 with bg := s.bg.set i r.2 }
  | _ => none

/-- `FindRealStoragePath`, objects_service.go:49-63, with `FindMountPath`, driver_manager.go:107-115:
the path and the goroutine started. -/
def find (c : Conf) (s : St α) : Option Str × List (List Act) :=
  match getLast s.cell with
  | some p => (some p, [])
  | none =>
    match c.drives.find? fun d => (s.fs (c.path d)).isSome with
    | some d => (some (c.path d), [[.dbPut (c.path d)]])
    | none => (none, [])

/-- `Exist`, objects_service.go:27-46. -/
def exist (c : Conf) (s : St α) : Bool × St α :=
  if s.mark then (true, s)
  else
    match find c s with
    | (none, _) => (false, s)
    | (some p, b) =>
      if (s.fs p).isSome then (true, { s with mark := true, bg := s.bg ++ b })
      else (false, { s with bg := s.bg ++ b ++ [[.dbRemove p]] })

/-- Requests. -/
inductive Req (α : Type)
  | exist
  | put (mp : Str) (d : α)
  | commit (mp : Str) (d : α) (compress : Bool)
  | get
  | delete
  | evict      -- the cache forgets the mark, as bigcache may at any time

/-- Answers. -/
inductive Ans (α : Type)
  | bool (b : Bool)
  | ok
  | content (d : α)
  | notFound
  deriving DecidableEq

def setFs (fs : Str → Option α) (p : Str) (v : Option α) : Str → Option α := fun q => if q = p then v else fs q

/-- One request.  `app` is what appending to a file makes of it (`Put` opens with `O_APPEND`,
objects_service.go:231, 241).

* `put`: objects_service.go:82-106
* `commit`: CommitFile, objects_service.go:286-326; with `compress` it returns before the goroutine
  of lines 317-324 is started
* `get`: objects_service.go:109-125, reading the whole file
* `delete`: objects_service.go:155-187 -/
def step (app : α → α → α) (c : Conf) (s : St α) : Req α → Ans α × St α
  | .exist => let r := exist c s; (.bool r.1, r.2)
  | .put mp d =>
    match exist c s with
    | (true, s) => (.ok, s)
    | (false, s) =>
      (.ok, { s with fs := setFs s.fs (c.path mp) (some (match s.fs (c.path mp) with | some o => app o d | none => d))
                     bg := s.bg ++ [[.dbPut (c.path mp), .mark]] })
  | .commit mp d compress =>
    if (s.fs (c.path mp)).isSome then (.ok, s)
    else
      (.ok, { s with fs := setFs s.fs (c.path mp) (some d)
                     bg := s.bg ++ (if compress then [] else [[.stat (c.path mp), .dbPut (c.path mp), .mark]]) })
  | .get =>
    match exist c s with
    | (false, s) => (.notFound, s)
    | (true, s) =>
      let f := find c s
      match s.fs (f.1.getD []) with
      | some d => (.content d, { s with mark := true, bg := s.bg ++ f.2 })
      | none => (.notFound, { s with bg := s.bg ++ f.2 })
  | .delete =>
    match exist c s with
    | (false, s) => (.ok, s)
    | (true, s) =>
      let f := find c s
      let p := f.1.getD []
      (.ok, { s with fs := setFs s.fs p none, bg := s.bg ++ f.2 ++ [[.dbRemove p, .unmark]] })
  | .evict => (.ok, { s with mark := false })

/-! ## Specification -/

/-- What the clients of the server expect: the shard is stored, with a content, or not. -/
def specStep (m : Option α) : Req α → Ans α × Option α
  | .exist => (.bool m.isSome, m)
  | .put _ d | .commit _ d _ => (.ok, some (m.getD d))
  | .get => (match m with | some d => .content d | none => .notFound, m)
  | .delete => (.ok, none)
  | .evict => (.ok, m)

/-- Goroutines run, in any order, until all have ended. -/
inductive Settles : St α → St α → Prop
  | quiet {s : St α} : (∀ g ∈ s.bg, g = []) → Settles s s
  | run {s s' t : St α} {i : Nat} : bgStep s i = some s' → Settles s' t → Settles s t

/-- The goroutines that have ended are forgotten. -/
def clear (s : St α) : St α := { s with bg := [] }

/-- A run one request after the other: after every request all goroutines end before the next
one. -/
inductive Serial (app : α → α → α) (c : Conf) : List (Req α × Ans α) → St α → Prop
  | nil : Serial app c [] .empty
  | snoc {l : List (Req α × Ans α)} {s t : St α} {r : Req α} : Serial app c l s →
      Settles (step app c s r).2 t → Serial app c (l ++ [(r, (step app c s r).1)]) (clear t)

/-- A run in which requests and goroutines mix in any order. -/
inductive Mixed (app : α → α → α) (c : Conf) : List (Req α × Ans α) → St α → Prop
  | nil : Mixed app c [] .empty
  | req {l : List (Req α × Ans α)} {s : St α} (r : Req α) : Mixed app c l s →
      Mixed app c (l ++ [(r, (step app c s r).1)]) (step app c s r).2
  | bg {l : List (Req α × Ans α)} {s t : St α} {i : Nat} : Mixed app c l s → bgStep s i = some t → Mixed app c l t

/-- What is stored after the requests, and whether all were answered as expected. -/
def specRun (m : Option α) : List (Req α × Ans α) → Option α × Prop
  | [] => (m, True)
  | (r, a) :: l => ((specRun (specStep m r).2 l).1, a = (specStep m r).1 ∧ (specRun (specStep m r).2 l).2)

/-- The server is set up so that its paths can be recorded. -/
def GoodConf (c : Conf) : Prop := ∀ mp, mp ∈ c.drives → Plain (c.path mp)

/-- The requests store on drives of the table; they are not compressed. -/
def Listed (c : Conf) : Req α → Prop
  | .put mp _ => mp ∈ c.drives
  | .commit mp _ compress => mp ∈ c.drives ∧ compress = false
  | _ => True

/-- **C67**, the full statement: every request of every run is answered as expected. -/
def C67_statement : Prop :=
  ∀ (c : Conf) (l : List (Req Nat × Ans Nat)) (s : St Nat), GoodConf c → (∀ x ∈ l, Listed c x.1) →
    Mixed (fun a b => a + b) c l s → (specRun none l).2

/-! ## Lemmas -/

/-- Putting a path makes it the most recent one or leaves none. -/
theorem getLast_put {p : Str} (hp : Plain p) (v : Option Str) :
    getLast (PathDb.put v p) = some p ∨ getLast (PathDb.put v p) = none := by
  match v with
  | none => exact .inr (PathDb.C51_single_not_found p)
  | some [] => exact .inr (PathDb.C51_single_not_found p)
  | some (x :: o) => exact .inl (PathDb.C51_after_put_partial (x :: o) (by simp) p hp)

theorem specRun_append (m : Option α) (l : List (Req α × Ans α)) (r : Req α) (a : Ans α) :
    (specRun m (l ++ [(r, a)])).1 = (specStep (specRun m l).1 r).2 ∧
      ((specRun m (l ++ [(r, a)])).2 ↔ (specRun m l).2 ∧ a = (specStep (specRun m l).1 r).1) := by
  induction l generalizing m with
  | nil => simp [specRun]
  | cons x l ih =>
    obtain ⟨r', a'⟩ := x
    obtain ⟨h1, h2⟩ := ih (specStep m r').2
    simp only [List.cons_append, specRun]
    refine ⟨h1, ?_⟩
    rw [h2]
    constructor
    · rintro ⟨a, b, c⟩; exact ⟨⟨a, b⟩, c⟩
    · rintro ⟨⟨a, b⟩, c⟩; exact ⟨a, b, c⟩

theorem cutStr_infix {p w : Str} (h : p <:+: w) (t : Str) :
    ∃ x y, PathDb.cutStr p (w ++ t) = some (x, y ++ t) := by
  induction w with
  | nil =>
    have : p = [] := by simpa using h
    subst this
    exact ⟨[], [], PathDb.cutStr_here [] t⟩
  | cons c w ih =>
    rw [List.cons_append, PathDb.cutStr]
    by_cases hp : p.isPrefixOf (c :: (w ++ t)) = true
    · refine ⟨[], (c :: w).drop p.length, ?_⟩
      rw [if_pos hp, ← List.cons_append, List.drop_append_of_le_length h.length_le]
    · rw [if_neg hp]
      have hi : p <:+: w := by
        rcases List.infix_cons_iff.1 h with h1 | h1
        · exfalso
          apply hp
          rw [List.isPrefixOf_iff_prefix, ← List.cons_append]
          exact h1.trans (List.prefix_append _ _)
        · exact h1
      obtain ⟨x, y, hxy⟩ := ih hi
      exact ⟨c :: x, y, by rw [hxy]; rfl⟩

/-- The lookup finds `b` or nothing. -/
def GoodFor (b : Str) (cell : Option Str) : Prop := getLast cell = none ∨ getLast cell = some b

theorem good_tail {b : Str} (hb : Plain b) (z : Str) : GoodFor b (some (z ++ ',' :: encode b)) := by
  unfold GoodFor
  simp only [getLast, cutLast_append (PathDb.comma_not_mem_encode b), PathDb.decode_encode hb]
  by_cases h : z = [] <;> simp [h]

theorem good_alone (b : Str) : GoodFor b (some (encode b)) := by
  unfold GoodFor
  simp [getLast, cutLast_none.2 (PathDb.comma_not_mem_encode b)]

theorem good_put {b : Str} (hb : Plain b) (v : Option Str) : GoodFor b (PathDb.put v b) := by
  rcases getLast_put hb v with h | h
  · exact .inr h
  · exact .inl h

/-- A late removal of an older path. -/
theorem good_remove {a b w : Str} (hb : Plain b) (h : encode a <:+: w) :
    GoodFor b (PathDb.remove (some (w ++ ',' :: encode b)) a) := by
  obtain ⟨x, y, hxy⟩ := cutStr_infix h (',' :: encode b)
  simp only [PathDb.remove, hxy]
  have ht : PathDb.trimPrefix (y ++ ',' :: encode b) = encode b ∨
      ∃ z, PathDb.trimPrefix (y ++ ',' :: encode b) = z ++ ',' :: encode b := by
    cases y with
    | nil => exact .inl rfl
    | cons q y =>
      by_cases hq : q = ','
      · subst hq; exact .inr ⟨y, rfl⟩
      · refine .inr ⟨q :: y, ?_⟩
        rw [List.cons_append, PathDb.trimPrefix]
        intro s' he
        injection he with he _
        exact hq he
  rcases ht with ht | ⟨z, ht⟩
  · rw [ht]
    split
    · exact good_tail hb _
    · exact good_alone b
  · rw [ht]
    split
    · rw [show PathDb.trimSuffix x ++ ',' :: (z ++ ',' :: encode b) = (PathDb.trimSuffix x ++ ',' :: z) ++ ',' :: encode b by simp]
      exact good_tail hb _
    · exact good_tail hb _

/-- What may still happen to a shard stored at `b`. -/
def Adding (b : Str) (a : Act) : Prop := a = .dbPut b ∨ a = .mark ∨ a = .stat b

/-- The path database and the running goroutines while the shard is stored at `b`: either no removal
is running, and the lookup finds `b` or nothing or `b` is about to be recorded; or one removal of an
older path is running. -/
def Phase (b : Str) (cell : Option Str) (bg : List (List Act)) : Prop :=
  ((∀ g ∈ bg, ∀ a ∈ g, Adding b a) ∧ (GoodFor b cell ∨ ∃ g ∈ bg, Act.dbPut b ∈ g)) ∨
  ∃ (i : Nat) (a : Str), bg[i]? = some [.dbRemove a] ∧
    (∀ (j : Nat) (g : List Act), j ≠ i → bg[j]? = some g → ∀ x ∈ g, Adding b x) ∧
    ((∃ u, cell = some (u ++ ',' :: encode a) ∧ ∃ g ∈ bg, Act.dbPut b ∈ g) ∨
      ∃ w, cell = some (w ++ ',' :: encode b) ∧ encode a <:+: w)

/-- The state of a run one request after the other, also while goroutines are running. -/
def Inv (c : Conf) (m : Option α) (s : St α) : Prop :=
  match m with
  | none => (∀ p, s.fs p = none) ∧ (∀ g ∈ s.bg, ∀ a ∈ g, a ≠ .mark ∧ ∀ p, a ≠ .stat p) ∧
      (s.mark = true → ∃ g ∈ s.bg, Act.unmark ∈ g)
  | some d => ∃ mp ∈ c.drives, s.fs (c.path mp) = some d ∧ (∀ q, q ≠ c.path mp → s.fs q = none) ∧
      Phase (c.path mp) s.cell s.bg

theorem mem_set_cases {β : Type} {l : List β} {i : Nat} {x y : β} (h : y ∈ l.set i x) : y = x ∨ y ∈ l := by
  rcases List.mem_or_eq_of_mem_set h with h | h
  · exact .inr h
  · exact .inl h

/-- A member of the list is still there after its first action, or was the one that acted. -/
theorem mem_after {bg : List (List Act)} {i : Nat} {a x : Act} {rest : List Act} (hg : bg[i]? = some (a :: rest))
    (h : ∃ g ∈ bg, x ∈ g) (hx : x ≠ a) : ∃ g ∈ bg.set i rest, x ∈ g := by
  obtain ⟨g, hg1, hg2⟩ := h
  obtain ⟨j, hj, rfl⟩ := List.mem_iff_getElem.1 hg1
  by_cases hij : i = j
  · subst hij
    have he : bg[i] = a :: rest := by
      rw [List.getElem?_eq_getElem hj] at hg; exact Option.some.inj hg
    refine ⟨rest, List.mem_iff_getElem.2 ⟨i, by simpa using hj, by simp⟩, ?_⟩
    rw [he] at hg2
    rcases List.mem_cons.1 hg2 with hg2 | hg2
    · exact absurd hg2 hx
    · exact hg2
  · exact ⟨bg[j], List.mem_iff_getElem.2 ⟨j, by simpa using hj, by rw [List.getElem_set_ne hij]⟩, hg2⟩

theorem inv_bgStep {c : Conf} (hc : GoodConf c) {m : Option α} {s t : St α} {i : Nat} (h : Inv c m s)
    (hs : bgStep s i = some t) : Inv c m t := by
  unfold bgStep at hs
  split at hs
  · rename_i a rest hg
    cases hs
    have hmem : (a :: rest) ∈ s.bg := List.mem_of_getElem? hg
    cases m with
    | none =>
      obtain ⟨h1, h2, h3⟩ := h
      have hna := h2 _ hmem a (by simp)
      have hrest : ∀ g ∈ s.bg.set i rest, ∀ a ∈ g, a ≠ .mark ∧ ∀ p, a ≠ .stat p := by
        intro g hgm b hb
        rcases mem_set_cases hgm with rfl | hgm
        · exact h2 _ hmem b (by simp [hb])
        · exact h2 g hgm b hb
      cases a with
      | dbPut p => exact ⟨h1, hrest, fun hm => mem_after hg (h3 hm) (by simp)⟩
      | dbRemove p => exact ⟨h1, hrest, fun hm => mem_after hg (h3 hm) (by simp)⟩
      | mark => exact absurd rfl hna.1
      | unmark => exact ⟨h1, hrest, by simp [act]⟩
      | stat p => exact absurd rfl (hna.2 p)
    | some d =>
      obtain ⟨mp, h0, h1, h2, h3⟩ := h
      have hpl := hc mp h0
      rcases h3 with ⟨h4, h5⟩ | ⟨k, q, hk, h4, h5⟩
      · have ha := h4 _ hmem a (by simp)
        have hrest : ∀ g ∈ s.bg.set i rest, ∀ a ∈ g, Adding (c.path mp) a := by
          intro g hgm b hb
          rcases mem_set_cases hgm with rfl | hgm
          · exact h4 _ hmem b (by simp [hb])
          · exact h4 g hgm b hb
        rcases ha with rfl | rfl | rfl
        · exact ⟨mp, h0, h1, h2, .inl ⟨hrest, .inl (good_put hpl _)⟩⟩
        · refine ⟨mp, h0, h1, h2, .inl ⟨hrest, ?_⟩⟩
          rcases h5 with h5 | h5
          · exact .inl h5
          · exact .inr (mem_after hg h5 (by simp))
        · have : act s rest (.stat (c.path mp)) = (s, rest) := by simp [act, h1]
          rw [this]
          refine ⟨mp, h0, h1, h2, .inl ⟨hrest, ?_⟩⟩
          rcases h5 with h5 | h5
          · exact .inl h5
          · exact .inr (mem_after hg h5 (by simp))
      · by_cases hik : i = k
        · subst hik
          rw [hk] at hg
          cases hg
          have hrest : ∀ g ∈ s.bg.set i [], ∀ a ∈ g, Adding (c.path mp) a := by
            intro g hgm b hb
            obtain ⟨j, hj, rfl⟩ := List.mem_iff_getElem.1 hgm
            by_cases hij : i = j
            · subst hij; simp at hb
            · rw [List.getElem_set_ne hij] at hb
              exact h4 j _ (fun e => hij e.symm) (List.getElem?_eq_getElem (by simpa using hj)) b hb
          refine ⟨mp, h0, h1, h2, .inl ⟨hrest, ?_⟩⟩
          rcases h5 with ⟨u, hu, hp⟩ | ⟨w, hw, hi⟩
          · exact .inr (mem_after hk hp (by simp))
          · refine .inl ?_
            simp only [act, hw]
            exact good_remove hpl hi
        · have ha := h4 i _ hik hg a (by simp)
          have hk' : (s.bg.set i rest)[k]? = some [.dbRemove q] := by
            rw [List.getElem?_set_ne hik]; exact hk
          have hrest : ∀ (j : Nat) (g : List Act), j ≠ k → (s.bg.set i rest)[j]? = some g → ∀ x ∈ g, Adding (c.path mp) x := by
            intro j g hj hgj x hx
            by_cases hij : i = j
            · subst hij
              rw [List.getElem?_set_self (by
                have := (List.getElem?_eq_some_iff.1 hg).1; exact this)] at hgj
              cases hgj
              exact h4 i _ hik hg x (by simp [hx])
            · rw [List.getElem?_set_ne hij] at hgj
              exact h4 j g hj hgj x hx
          rcases ha with rfl | rfl | rfl
          · refine ⟨mp, h0, h1, h2, .inr ⟨k, q, hk', hrest, .inr ?_⟩⟩
            have hput : ∀ (z : Str) (e : Str), PathDb.put (some (z ++ ',' :: e)) (c.path mp)
                = some ((z ++ ',' :: e) ++ ',' :: encode (c.path mp)) := by
              intro z e
              cases hz : z ++ ',' :: e with
              | nil => simp at hz
              | cons x r => rfl
            rcases h5 with ⟨u, hu, _⟩ | ⟨w, hw, hi⟩
            · refine ⟨u ++ ',' :: encode q, ?_, ?_⟩
              · simp only [act, hu, hput]
              · exact ⟨u ++ [','], [], by simp⟩
            · refine ⟨w ++ ',' :: encode (c.path mp), ?_, ?_⟩
              · simp only [act, hw, hput]
              · exact hi.trans (List.prefix_append _ _).isInfix
          · refine ⟨mp, h0, h1, h2, .inr ⟨k, q, hk', hrest, ?_⟩⟩
            rcases h5 with ⟨u, hu, hp⟩ | h5
            · exact .inl ⟨u, hu, mem_after hg hp (by simp)⟩
            · exact .inr h5
          · have : act s rest (.stat (c.path mp)) = (s, rest) := by simp [act, h1]
            rw [this]
            refine ⟨mp, h0, h1, h2, .inr ⟨k, q, hk', hrest, ?_⟩⟩
            rcases h5 with ⟨u, hu, hp⟩ | h5
            · exact .inl ⟨u, hu, mem_after hg hp (by simp)⟩
            · exact .inr h5
  · cases hs

/-- When all goroutines have ended. -/
theorem phase_quiet {b : Str} {cell : Option Str} {bg : List (List Act)} (h : Phase b cell bg)
    (hq : ∀ g ∈ bg, g = []) : GoodFor b cell := by
  rcases h with ⟨_, h | ⟨g, hg, hx⟩⟩ | ⟨i, a, hi, _⟩
  · exact h
  · rw [hq g hg] at hx; cases hx
  · have := hq _ (List.mem_of_getElem? hi)
    cases this

theorem inv_settles {c : Conf} (hc : GoodConf c) {m : Option α} {s t : St α} (hs : Settles s t) (h : Inv c m s) :
    Inv c m (clear t) := by
  induction hs with
  | @quiet s hq =>
    cases m with
    | none =>
      obtain ⟨h1, h2, h3⟩ := h
      refine ⟨h1, by simp [clear], ?_⟩
      intro hm
      obtain ⟨g, hg, hu⟩ := h3 hm
      rw [hq g hg] at hu
      cases hu
    | some d =>
      obtain ⟨mp, h0, h1, h2, h3⟩ := h
      exact ⟨mp, h0, h1, h2, .inl ⟨by simp [clear], .inl (phase_quiet h3 hq)⟩⟩
  | run hb _ ih => exact ih (inv_bgStep hc h hb)

/-- What `find` does when the shard is stored. -/
theorem find_stored {c : Conf} {mp : Str} {d : α} {s : St α} (h0 : mp ∈ c.drives)
    (h1 : s.fs (c.path mp) = some d) (h2 : ∀ q, q ≠ c.path mp → s.fs q = none)
    (h3 : GoodFor (c.path mp) s.cell) :
    (find c s).1 = some (c.path mp) ∧ ∀ g ∈ (find c s).2, g = [.dbPut (c.path mp)] := by
  rcases h3 with h3 | h3
  · cases hf : c.drives.find? fun x => (s.fs (c.path x)).isSome with
    | none =>
      rw [List.find?_eq_none] at hf
      have := hf mp h0
      simp [h1] at this
    | some x =>
      have hx := List.find?_some hf
      have he : c.path x = c.path mp := Classical.byContradiction fun hne => by
        simp [h2 _ hne] at hx
      simp [find, h3, hf, he]
  · simp [find, h3]

theorem find_absent {c : Conf} {s : St α} (h1 : ∀ q, s.fs q = none) : (find c s).1 = getLast s.cell ∧ (find c s).2 = [] := by
  cases h3 : getLast s.cell with
  | none =>
    have : c.drives.find? (fun x => (s.fs (c.path x)).isSome) = none := by
      rw [List.find?_eq_none]; intro x _; simp [h1]
    simp [find, h3, this]
  | some p => simp [find, h3]

theorem exist_marked {c : Conf} {s : St α} (h : s.mark = true) : exist c s = (true, s) := by simp [exist, h]

theorem exist_found {c : Conf} {s : St α} {p : Str} {b : List (List Act)} (h : s.mark = false)
    (hf : find c s = (some p, b)) (hp : (s.fs p).isSome = true) :
    exist c s = (true, { s with mark := true, bg := s.bg ++ b }) := by simp [exist, h, hf, hp]

theorem exist_stale {c : Conf} {s : St α} {p : Str} {b : List (List Act)} (h : s.mark = false)
    (hf : find c s = (some p, b)) (hp : s.fs p = none) :
    exist c s = (false, { s with bg := s.bg ++ b ++ [[.dbRemove p]] }) := by simp [exist, h, hf, hp]

theorem exist_none {c : Conf} {s : St α} {b : List (List Act)} (h : s.mark = false)
    (hf : find c s = (none, b)) : exist c s = (false, s) := by simp [exist, h, hf]

/-- `Exist` when the shard is stored and the server at rest. -/
theorem exist_stored {c : Conf} {mp : Str} {d : α} {s : St α} (h0 : mp ∈ c.drives)
    (h1 : s.fs (c.path mp) = some d) (h2 : ∀ q, q ≠ c.path mp → s.fs q = none)
    (h3 : GoodFor (c.path mp) s.cell) (hs : s.bg = []) :
    ∃ b k, exist c s = (true, ⟨s.fs, s.cell, k, b⟩) ∧ ∀ g ∈ b, g = [Act.dbPut (c.path mp)] := by
  obtain ⟨f1, f2⟩ := find_stored h0 h1 h2 h3
  cases hm : s.mark with
  | true => exact ⟨s.bg, s.mark, exist_marked hm, by simp [hs]⟩
  | false =>
    refine ⟨_, _, exist_found hm (Prod.ext f1 rfl) (by simp [h1]), ?_⟩
    rw [hs, List.nil_append]
    exact f2

/-- `Exist` when the shard is not stored and the server at rest. -/
theorem exist_absent {c : Conf} {s : St α} (h1 : ∀ q, s.fs q = none) (hm : s.mark = false) (hb : s.bg = []) :
    ∃ b, exist c s = (false, { s with bg := b }) ∧
      (b = [] ∨ ∃ p u, b = [[Act.dbRemove p]] ∧ s.cell = some (u ++ ',' :: encode p)) := by
  obtain ⟨f1, f2⟩ := find_absent (c := c) h1
  cases ha : (find c s).1 with
  | none => exact ⟨s.bg, exist_none hm (Prod.ext ha rfl), .inl hb⟩
  | some p =>
    refine ⟨_, exist_stale hm (Prod.ext ha rfl) (h1 p), .inr ⟨p, ?_⟩⟩
    rw [ha] at f1
    unfold getLast at f1
    split at f1
    · cases f1
    · rename_i v hv
      split at f1
      · rename_i x y hxy
        split at f1
        · cases f1
          have := cutLast_some hxy
          refine ⟨x, by simp [hb, f2], ?_⟩
          rw [hv, PathDb.encode_decode this.2, this.1]
        · cases f1
      · cases f1

theorem set_apart {fs : Str → Option α} (h : ∀ q, fs q = none) (p : Str) (d : α) :
    setFs fs p (some d) p = some d ∧ ∀ q, q ≠ p → setFs fs p (some d) q = none := by
  refine ⟨by simp [setFs], ?_⟩
  intro q hq; simp [setFs, hq, h]

/-- One request on a server at rest. -/
theorem inv_step {app : α → α → α} {c : Conf} {m : Option α} {s : St α} (hs : s.bg = []) (h : Inv c m s) (r : Req α)
    (hl : Listed c r) (hst : ∀ mp d z, r = .commit mp d z → m = none) :
    (step app c s r).1 = (specStep m r).1 ∧ Inv c (specStep m r).2 (step app c s r).2 := by
  cases m with
  | none =>
    have hm : s.mark = false := by
      cases hh : s.mark with
      | false => rfl
      | true => obtain ⟨g, hg, _⟩ := h.2.2 hh; rw [hs] at hg; cases hg
    have h1 := h.1
    obtain ⟨b, hb1, hb2⟩ := exist_absent (c := c) h1 hm hs
    have hbn : ∀ g ∈ b, ∀ a ∈ g, a ≠ .mark ∧ ∀ p, a ≠ .stat p := by
      intro g hg a ha
      rcases hb2 with rfl | ⟨p, _, rfl, _⟩
      · cases hg
      · rw [List.mem_singleton.1 hg] at ha
        rw [List.mem_singleton.1 ha]; simp
    have hinv : Inv c none { s with bg := b } := ⟨h1, hbn, by simp [hm]⟩
    cases r with
    | exist => simp only [step, hb1, specStep]; exact ⟨rfl, hinv⟩
    | put mp d =>
      have hst : step app c s (.put mp d) = (.ok, ⟨setFs s.fs (c.path mp) (some d), s.cell, s.mark,
          b ++ [[.dbPut (c.path mp), .mark]]⟩) := by
        simp only [step, hb1, h1]
      rw [hst]
      refine ⟨rfl, mp, hl, (set_apart h1 _ d).1, (set_apart h1 _ d).2, ?_⟩
      rcases hb2 with rfl | ⟨p, u, rfl, hu⟩
      · refine .inl ⟨?_, .inr ⟨[.dbPut (c.path mp), .mark], by simp, by simp⟩⟩
        intro g hg a ha
        simp only [List.nil_append, List.mem_singleton] at hg
        subst hg
        simp only [List.mem_cons, List.not_mem_nil, or_false] at ha
        rcases ha with rfl | rfl
        · exact .inl rfl
        · exact .inr (.inl rfl)
      · refine .inr ⟨0, p, rfl, ?_, .inl ⟨u, hu, [.dbPut (c.path mp), .mark], List.mem_append_right _ (by simp), by simp⟩⟩
        intro j g hj hg x hx
        match j with
        | 0 => exact absurd rfl hj
        | 1 =>
          have : g = [.dbPut (c.path mp), .mark] := by simpa using hg.symm
          subst this
          simp only [List.mem_cons, List.not_mem_nil, or_false] at hx
          rcases hx with rfl | rfl
          · exact .inl rfl
          · exact .inr (.inl rfl)
        | j + 2 => simp at hg
    | commit mp d z =>
      obtain ⟨hd, hz⟩ := hl
      subst hz
      have hst : step app c s (.commit mp d false) = (.ok, ⟨setFs s.fs (c.path mp) (some d), s.cell, s.mark,
          [[.stat (c.path mp), .dbPut (c.path mp), .mark]]⟩) := by
        simp [step, h1, hs]
      rw [hst]
      refine ⟨rfl, mp, hd, (set_apart h1 _ d).1, (set_apart h1 _ d).2, .inl ⟨?_, .inr ⟨[.stat (c.path mp), .dbPut (c.path mp), .mark], by simp, by simp⟩⟩⟩
      intro g hg a ha
      simp only [List.mem_singleton] at hg
      subst hg
      simp only [List.mem_cons, List.not_mem_nil, or_false] at ha
      rcases ha with rfl | rfl | rfl
      · exact .inr (.inr rfl)
      · exact .inl rfl
      · exact .inr (.inl rfl)
    | get => simp only [step, hb1, specStep]; exact ⟨trivial, hinv⟩
    | delete => simp only [step, hb1, specStep]; exact ⟨trivial, hinv⟩
    | evict => simp only [step, specStep]; exact ⟨trivial, h1, h.2.1, by simp⟩
  | some d =>
    obtain ⟨mp, h0, h1, h2, h3⟩ := h
    have hgood := phase_quiet h3 (by simp [hs])
    obtain ⟨b, k, hb1, hb2⟩ := exist_stored h0 h1 h2 hgood hs
    obtain ⟨f1, f2⟩ := find_stored (s := ⟨s.fs, s.cell, k, b⟩) h0 h1 h2 hgood
    have hadd : ∀ l : List (List Act), (∀ g ∈ l, g = [Act.dbPut (c.path mp)]) → ∀ g ∈ l, ∀ a ∈ g, Adding (c.path mp) a := by
      intro l hl' g hg a ha
      rw [hl' g hg] at ha
      exact .inl (List.mem_singleton.1 ha)
    have hinv : ∀ (b' : List (List Act)) (k' : Bool), (∀ g ∈ b', g = [Act.dbPut (c.path mp)]) →
        Inv c (some d) ⟨s.fs, s.cell, k', b'⟩ :=
      fun b' k' hb' => ⟨mp, h0, h1, h2, .inl ⟨hadd b' hb', .inl hgood⟩⟩
    have hbf : ∀ g ∈ b ++ (find c ⟨s.fs, s.cell, k, b⟩).2, g = [Act.dbPut (c.path mp)] := by
      intro g hg
      rcases List.mem_append.1 hg with hg | hg
      · exact hb2 g hg
      · exact f2 g hg
    cases r with
    | exist => simp only [step, hb1, specStep]; exact ⟨rfl, hinv _ _ hb2⟩
    | put mp' d' => simp only [step, hb1, specStep]; exact ⟨trivial, hinv _ _ hb2⟩
    | commit mp' d' z => exact absurd (hst mp' d' z rfl) (by simp)
    | get =>
      simp only [step, hb1, f1, Option.getD_some, h1, specStep]
      exact ⟨trivial, hinv _ _ hbf⟩
    | delete =>
      simp only [step, hb1, f1, Option.getD_some, specStep]
      refine ⟨trivial, ?_, ?_, ?_⟩
      · intro q
        by_cases hq : q = c.path mp
        · simp [setFs, hq]
        · simp [setFs, hq, h2 q hq]
      · intro g hg a ha
        rcases List.mem_append.1 hg with hg | hg
        · rw [hbf g hg] at ha
          rw [List.mem_singleton.1 ha]; simp
        · rw [List.mem_singleton.1 hg] at ha
          simp only [List.mem_cons, List.not_mem_nil, or_false] at ha
          rcases ha with rfl | rfl <;> simp
      · intro _
        exact ⟨_, List.mem_append_right _ (List.mem_singleton.2 rfl), by simp⟩
    | evict =>
      simp only [step, specStep]
      exact ⟨trivial, mp, h0, h1, h2, h3⟩
/-! ### Runs without deletions -/

/-- The state of any run without deletions in which all stored contents are `d`. -/
structure Inv2 (c : Conf) (d : α) (s : St α) : Prop where
  files : ∀ p x, s.fs p = some x → x = d ∧ ∃ mp ∈ c.drives, p = c.path mp
  last : ∀ p, getLast s.cell = some p → s.fs p = some d
  acts : ∀ g ∈ s.bg, ∀ a ∈ g, (∃ mp ∈ c.drives, a = .dbPut (c.path mp) ∧ s.fs (c.path mp) = some d) ∨
    (a = .mark ∧ ∃ p, s.fs p = some d) ∨ ∃ p, a = .stat p
  marked : s.mark = true → ∃ p, s.fs p = some d

theorem inv2_bg {c : Conf} (hc : GoodConf c) {d : α} {s t : St α} {i : Nat} (h : Inv2 c d s)
    (hs : bgStep s i = some t) : Inv2 c d t ∧ t.fs = s.fs := by
  unfold bgStep at hs
  split at hs
  · rename_i a rest hg
    cases hs
    have hmem : (a :: rest) ∈ s.bg := List.mem_of_getElem? hg
    have hrest : ∀ r, (∀ x ∈ r, x ∈ rest) → ∀ g ∈ s.bg.set i r, ∀ a ∈ g,
        (∃ mp ∈ c.drives, a = .dbPut (c.path mp) ∧ s.fs (c.path mp) = some d) ∨
        (a = .mark ∧ ∃ p, s.fs p = some d) ∨ ∃ p, a = .stat p := by
      intro r hr g hgm b hb
      rcases mem_set_cases hgm with rfl | hgm
      · exact h.acts _ hmem b (List.mem_cons_of_mem _ (hr b hb))
      · exact h.acts g hgm b hb
    rcases h.acts _ hmem a (by simp) with ⟨mp, hm, rfl, hf⟩ | ⟨rfl, hp⟩ | ⟨p, rfl⟩
    · refine ⟨⟨h.files, ?_, hrest _ (fun _ hx => hx), h.marked⟩, rfl⟩
      intro p hp
      rcases getLast_put (hc mp hm) s.cell with hh | hh
      · rw [show getLast (act s rest (.dbPut (c.path mp))).1.cell = some (c.path mp) from hh] at hp
        cases hp
        exact hf
      · rw [show getLast (act s rest (.dbPut (c.path mp))).1.cell = none from hh] at hp
        cases hp
    · exact ⟨⟨h.files, h.last, hrest _ (fun _ hx => hx), fun _ => hp⟩, rfl⟩
    · refine ⟨⟨h.files, h.last, hrest _ ?_, h.marked⟩, rfl⟩
      intro x hx
      simp only [act] at hx
      split at hx
      · exact hx
      · cases hx
  · cases hs

/-- Whether something is stored, and what. -/
def Stored (d : α) (s : St α) (m : Option α) : Prop :=
  (m = some d ∧ ∃ p, s.fs p = some d) ∨ m = none ∧ ∀ p, s.fs p = none

theorem find2 {c : Conf} {d : α} {s : St α} (h : Inv2 c d s) {p : Str} (hp : s.fs p = some d) :
    ∃ q b, find c s = (some q, b) ∧ s.fs q = some d ∧
      ∀ g ∈ b, ∃ mp ∈ c.drives, g = [Act.dbPut (c.path mp)] ∧ s.fs (c.path mp) = some d := by
  cases hl : getLast s.cell with
  | some q => exact ⟨q, [], by simp [find, hl], h.last q hl, by simp⟩
  | none =>
    obtain ⟨_, mp, hm, rfl⟩ := h.files p d hp
    cases hf : c.drives.find? fun x => (s.fs (c.path x)).isSome with
    | none =>
      rw [List.find?_eq_none] at hf
      have := hf mp hm
      simp [hp] at this
    | some x =>
      have hx := List.find?_some hf
      have hxm := List.mem_of_find?_eq_some hf
      obtain ⟨y, hy⟩ := Option.isSome_iff_exists.1 hx
      have := (h.files _ _ hy).1
      subst this
      refine ⟨c.path x, [[.dbPut (c.path x)]], by simp [find, hl, hf], hy, ?_⟩
      intro g hg
      exact ⟨x, hxm, List.mem_singleton.1 hg, hy⟩

theorem exist2 {c : Conf} {d : α} {s : St α} (h : Inv2 c d s) :
    (∀ p, s.fs p = some d → ∃ s', exist c s = (true, s') ∧ Inv2 c d s' ∧ s'.fs = s.fs) ∧
    ((∀ p, s.fs p = none) → exist c s = (false, s)) := by
  constructor
  · intro p hp
    cases hm : s.mark with
    | true => exact ⟨s, exist_marked hm, h, rfl⟩
    | false =>
      obtain ⟨q, b, hf, hq, hb⟩ := find2 h hp
      refine ⟨_, exist_found hm hf (by simp [hq]), ⟨h.files, h.last, ?_, fun _ => ⟨p, hp⟩⟩, rfl⟩
      intro g hg a ha
      rcases List.mem_append.1 hg with hg | hg
      · exact h.acts g hg a ha
      · obtain ⟨mp, hm, rfl, hx⟩ := hb g hg
        exact .inl ⟨mp, hm, List.mem_singleton.1 ha, hx⟩
  · intro h1
    have hm : s.mark = false := by
      cases hh : s.mark with
      | false => rfl
      | true => obtain ⟨p, hp⟩ := h.marked hh; rw [h1 p] at hp; cases hp
    obtain ⟨f1, f2⟩ := find_absent (c := c) h1
    have hl : getLast s.cell = none := by
      cases hl : getLast s.cell with
      | none => rfl
      | some p => have := h.last p hl; rw [h1 p] at this; cases this
    exact exist_none hm (Prod.ext (f1.trans hl) rfl)

/-- The request does not delete and stores, if anything, `d` on a drive of the table. -/
def Keeps (c : Conf) (d : α) : Req α → Prop
  | .put mp x | .commit mp x _ => mp ∈ c.drives ∧ x = d
  | .delete => False
  | _ => True

theorem inv2_store {c : Conf} {d : α} {s : St α} (h : Inv2 c d s) {mp : Str} (hm : mp ∈ c.drives)
    (acts : List (List Act)) (ha : ∀ g ∈ acts, ∀ a ∈ g, a = .dbPut (c.path mp) ∨ a = .mark ∨ a = .stat (c.path mp)) :
    Inv2 c d ⟨setFs s.fs (c.path mp) (some d), s.cell, s.mark, s.bg ++ acts⟩ := by
  have hold : ∀ p, s.fs p = some d → setFs s.fs (c.path mp) (some d) p = some d := by
    intro p hp
    unfold setFs
    split
    · rfl
    · exact hp
  have hnew : setFs s.fs (c.path mp) (some d) (c.path mp) = some d := by simp [setFs]
  refine ⟨?_, fun p hp => hold p (h.last p hp), ?_, fun hk => ?_⟩
  · intro p x hx
    simp only [setFs] at hx
    split at hx
    · rename_i he
      cases hx
      exact ⟨rfl, mp, hm, he⟩
    · exact h.files p x hx
  · intro g hg a hag
    rcases List.mem_append.1 hg with hg | hg
    · rcases h.acts g hg a hag with ⟨m', hm', he, hf⟩ | ⟨he, p, hp⟩ | hst
      · exact .inl ⟨m', hm', he, hold _ hf⟩
      · exact .inr (.inl ⟨he, p, hold p hp⟩)
      · exact .inr (.inr hst)
    · rcases ha g hg a hag with he | he | he
      · exact .inl ⟨mp, hm, he, hnew⟩
      · exact .inr (.inl ⟨he, _, hnew⟩)
      · exact .inr (.inr ⟨_, he⟩)
  · obtain ⟨p, hp⟩ := h.marked hk
    exact ⟨p, hold p hp⟩

theorem inv2_step {app : α → α → α} {c : Conf} {d : α} {s : St α} {m : Option α} (h : Inv2 c d s)
    (hm : Stored d s m) (r : Req α) (hr : Keeps c d r) :
    (step app c s r).1 = (specStep m r).1 ∧ Inv2 c d (step app c s r).2 ∧
      Stored d (step app c s r).2 (specStep m r).2 := by
  obtain ⟨e1, e2⟩ := exist2 h
  rcases hm with ⟨rfl, p, hp⟩ | ⟨rfl, hno⟩
  · obtain ⟨s', he, hi, hfs⟩ := e1 p hp
    have hst : Stored d s' (some d) := .inl ⟨rfl, p, by rw [hfs]; exact hp⟩
    cases r with
    | exist => simp only [step, he, specStep]; exact ⟨rfl, hi, hst⟩
    | put mp x => simp only [step, he, specStep]; exact ⟨trivial, hi, hst⟩
    | commit mp x z =>
      obtain ⟨hmp, rfl⟩ := hr
      simp only [step, specStep]
      split
      · exact ⟨rfl, h, .inl ⟨rfl, p, hp⟩⟩
      · refine ⟨rfl, ?_, .inl ⟨rfl, c.path mp, by simp [setFs]⟩⟩
        apply inv2_store h hmp
        intro g hg a ha
        cases z with
        | true => simp at hg
        | false =>
          simp only [Bool.false_eq_true, if_false, List.mem_singleton] at hg
          subst hg
          simp only [List.mem_cons, List.not_mem_nil, or_false] at ha
          rcases ha with rfl | rfl | rfl
          · exact .inr (.inr rfl)
          · exact .inl rfl
          · exact .inr (.inl rfl)
    | get =>
      have hp' : s'.fs p = some d := by rw [hfs]; exact hp
      obtain ⟨q, b, hf, hq, hb⟩ := find2 hi hp'
      simp only [step, he, hf, Option.getD_some, hq, specStep]
      refine ⟨trivial, ⟨hi.files, hi.last, ?_, fun _ => ⟨p, hp'⟩⟩, .inl ⟨rfl, p, hp'⟩⟩
      intro g hg a ha
      rcases List.mem_append.1 hg with hg | hg
      · exact hi.acts g hg a ha
      · obtain ⟨mp, hm', rfl, hx⟩ := hb g hg
        exact .inl ⟨mp, hm', List.mem_singleton.1 ha, hx⟩
    | delete => exact absurd hr id
    | evict =>
      simp only [step, specStep]
      exact ⟨trivial, ⟨h.files, h.last, h.acts, by simp⟩, .inl ⟨rfl, p, hp⟩⟩
  · have he := e2 hno
    cases r with
    | exist => simp only [step, he, specStep]; exact ⟨rfl, h, .inr ⟨rfl, hno⟩⟩
    | put mp x =>
      obtain ⟨hmp, rfl⟩ := hr
      simp only [step, he, hno, specStep]
      refine ⟨trivial, ?_, .inl ⟨rfl, c.path mp, by simp [setFs]⟩⟩
      apply inv2_store h hmp
      intro g hg a ha
      rw [List.mem_singleton.1 hg] at ha
      simp only [List.mem_cons, List.not_mem_nil, or_false] at ha
      rcases ha with rfl | rfl
      · exact .inl rfl
      · exact .inr (.inl rfl)
    | commit mp x z =>
      obtain ⟨hmp, rfl⟩ := hr
      simp only [step, specStep, hno, Option.isSome_none, Bool.false_eq_true, if_false]
      refine ⟨trivial, ?_, .inl ⟨rfl, c.path mp, by simp [setFs]⟩⟩
      apply inv2_store h hmp
      intro g hg a ha
      cases z with
      | true => simp at hg
      | false =>
        simp only [Bool.false_eq_true, if_false, List.mem_singleton] at hg
        subst hg
        simp only [List.mem_cons, List.not_mem_nil, or_false] at ha
        rcases ha with rfl | rfl | rfl
        · exact .inr (.inr rfl)
        · exact .inl rfl
        · exact .inr (.inl rfl)
    | get => simp only [step, he, specStep]; exact ⟨trivial, h, .inr ⟨rfl, hno⟩⟩
    | delete => exact absurd hr id
    | evict =>
      simp only [step, specStep]
      exact ⟨trivial, ⟨h.files, h.last, h.acts, by simp⟩, .inr ⟨rfl, hno⟩⟩

/-! ## Properties -/

/-- Every commit is for a shard that is not stored (what the API server makes sure of by locating the
shard first, except when two uploads of the same content overlap). -/
def Fresh (m : Option α) : List (Req α × Ans α) → Prop
  | [] => True
  | (r, _) :: l => (∀ mp d z, r = .commit mp d z → m = none) ∧ Fresh (specStep m r).2 l

theorem fresh_append {m : Option α} {l : List (Req α × Ans α)} {r : Req α} {a : Ans α}
    (h : Fresh m (l ++ [(r, a)])) : Fresh m l ∧ ∀ mp d z, r = .commit mp d z → (specRun m l).1 = none := by
  induction l generalizing m with
  | nil => exact ⟨trivial, h.1⟩
  | cons x l ih =>
    obtain ⟨r', a'⟩ := x
    obtain ⟨h1, h2⟩ := h
    obtain ⟨h3, h4⟩ := ih h2
    exact ⟨⟨h1, h3⟩, h4⟩

/-- **C67** (one request after the other; partial): if every request comes after the goroutines of the
earlier ones have ended, in whatever order they ran, then a stored shard is found with its content, and
a shard that is not stored or was deleted is not, for every sequence of requests including deletions
and storing again on any drive.

Missing: overlapping requests with deletions (`C67_late_mark`), a commit of a shard that is stored
already (`C67_commit_lost`), compressed commits (`C67_compressed_lost`) and drives that are not in the
table (`C67_unlisted_drive`). -/
theorem C67_serial_partial {app : α → α → α} {c : Conf} (hc : GoodConf c) {l : List (Req α × Ans α)} {s : St α}
    (h : Serial app c l s) (hl : ∀ x ∈ l, Listed c x.1) (hf : Fresh none l) : (specRun none l).2 := by
  have key : (specRun none l).2 ∧ Inv c (specRun none l).1 s ∧ s.bg = [] := by
    induction h with
    | nil => exact ⟨trivial, ⟨fun _ => rfl, by simp [St.empty], by simp [St.empty]⟩, rfl⟩
    | @snoc l s t r _ hs ih =>
      obtain ⟨f1, f2⟩ := fresh_append hf
      obtain ⟨i1, i2, i3⟩ := ih (fun x hx => hl x (by simp [hx])) f1
      obtain ⟨j1, j2⟩ := inv_step (app := app) i3 i2 r (hl (r, (step app c s r).1) (by simp)) f2
      obtain ⟨k1, k2⟩ := specRun_append none l r (step app c s r).1
      refine ⟨k2.2 ⟨i1, j1⟩, ?_, rfl⟩
      rw [k1]
      exact inv_settles hc hs j2
  exact key.1

/-- **C67** (any overlap, no deletion; partial): requests and goroutines in any order, including
several copies of the shard on different drives and compressed ones: once a store has been answered,
the shard is found and read back, wherever the background updates stand.

Missing: deletions, see `C67_serial_partial` and `C67_late_mark`. -/
theorem C67_no_delete_partial {app : α → α → α} {c : Conf} (hc : GoodConf c) (d : α) {l : List (Req α × Ans α)}
    {s : St α} (h : Mixed app c l s) (hl : ∀ x ∈ l, Keeps c d x.1) : (specRun none l).2 := by
  have key : (specRun none l).2 ∧ Inv2 c d s ∧ Stored d s (specRun none l).1 := by
    induction h with
    | nil =>
      exact ⟨trivial, ⟨by simp [St.empty], by simp [St.empty, getLast], by simp [St.empty], by simp [St.empty]⟩,
        .inr ⟨rfl, fun _ => rfl⟩⟩
    | @req l s r _ ih =>
      obtain ⟨i1, i2, i3⟩ := ih (fun x hx => hl x (by simp [hx]))
      obtain ⟨j1, j2, j3⟩ := inv2_step (app := app) i2 i3 r (hl (r, (step app c s r).1) (by simp))
      obtain ⟨k1, k2⟩ := specRun_append none l r (step app c s r).1
      exact ⟨k2.2 ⟨i1, j1⟩, j2, by rw [k1]; exact j3⟩
    | bg _ hb ih =>
      obtain ⟨i1, i2, i3⟩ := ih hl
      obtain ⟨j1, j2⟩ := inv2_bg hc i2 hb
      exact ⟨i1, j1, by unfold Stored; rw [j2]; exact i3⟩
  exact key.1

/-! ## Findings -/

/-- Two drives. -/
def exConf : Conf := ⟨["/a".toList, "/b".toList], fun mp => mp ++ "/s/h.0".toList⟩

theorem exConf_good : GoodConf exConf := by
  intro mp hmp
  apply PathDb.plain_of_not_mem
  rcases List.mem_cons.1 hmp with rfl | hmp
  · decide
  · rcases List.mem_cons.1 hmp with rfl | hmp
    · decide
    · cases hmp

/-- What is done in a run. -/
inductive Do (α : Type)
  | req (r : Req α) | bg (i : Nat)

/-- The run, its answers and its last state. -/
def play (app : α → α → α) (c : Conf) : St α → List (Do α) → Option (List (Req α × Ans α) × St α)
  | s, [] => some ([], s)
  | s, .req r :: l => (play app c (step app c s r).2 l).map fun x => ((r, (step app c s r).1) :: x.1, x.2)
  | s, .bg i :: l => (bgStep s i).bind fun t => play app c t l

theorem play_mixed {app : α → α → α} {c : Conf} (l : List (Do α)) {p : List (Req α × Ans α)} {s : St α}
    (h : Mixed app c p s) {q : List (Req α × Ans α)} {t : St α} (hp : play app c s l = some (q, t)) :
    Mixed app c (p ++ q) t := by
  induction l generalizing s p q with
  | nil =>
    simp only [play, Option.some.injEq, Prod.mk.injEq] at hp
    obtain ⟨rfl, rfl⟩ := hp
    simpa using h
  | cons x l ih =>
    cases x with
    | req r =>
      simp only [play, Option.map_eq_some_iff] at hp
      obtain ⟨⟨q', t'⟩, h1, h2⟩ := hp
      simp only [Prod.mk.injEq] at h2
      obtain ⟨rfl, rfl⟩ := h2
      have := ih (.req r h) h1
      simpa using this
    | bg i =>
      simp only [play] at hp
      cases hb : bgStep s i with
      | none => rw [hb] at hp; cases hp
      | some u => rw [hb] at hp; exact ih (.bg h hb) hp

/-- The answers of a run from the start. -/
def answers (c : Conf) (l : List (Do Nat)) : Option (List (Ans Nat)) :=
  (play (fun a b => a + b) c .empty l).map fun x => x.1.map (·.2)

/-- A serial run as in `C67_serial_partial`: stored on one drive, deleted, stored on the other one. -/
example : answers exConf [.req (.put "/a".toList 1), .bg 0, .bg 0, .req .get, .bg 1, .req .delete, .bg 2, .bg 2,
    .req .exist, .req (.put "/b".toList 2), .bg 3, .bg 3, .req .evict, .req .get] =
    some [.ok, .content 1, .ok, .bool false, .ok, .ok, .content 2] := by decide

/-- **C67** (finding): the goroutine of the store runs after that of the deletion.  The mark stays:
the server says that the shard exists, cannot read it, and answers the next store with success
without storing anything. -/
theorem C67_late_mark :
    answers exConf [.req (.put "/a".toList 1), .req .delete, .bg 3, .bg 3, .bg 0, .bg 0, .bg 1, .bg 2,
      .req .exist, .req .get, .req (.put "/a".toList 1), .req .get] =
      some [.ok, .ok, .bool true, .notFound, .ok, .notFound] := by decide

theorem C67_statement_fails : ¬ C67_statement := by
  intro h
  have hp : ∃ t, play (fun a b => a + b) exConf St.empty [.req (.put "/a".toList 1), .req .delete, .bg 3, .bg 3,
      .bg 0, .bg 0, .bg 1, .bg 2, .req .exist] =
      some ([(.put "/a".toList 1, .ok), (.delete, .ok), (.exist, .bool true)], t) := ⟨_, rfl⟩
  obtain ⟨t, ht⟩ := hp
  have := h exConf _ t exConf_good (by simp [Listed, exConf]) (play_mixed _ .nil ht)
  simp [specRun, specStep] at this

/-- **C67** (finding): the same shard is committed on two drives, one after the other, and deleted.
Only the copy of the second drive is deleted, and the comma left behind in the path database hides
the other one.  Committing it again on the first drive is answered with success, as the file is there,
without recording anything: the shard is not found. -/
theorem C67_commit_lost :
    answers exConf [.req (.commit "/a".toList 1 false), .bg 0, .bg 0, .bg 0,
      .req (.commit "/b".toList 1 false), .bg 1, .bg 1, .bg 1,
      .req .delete, .bg 2, .bg 2,
      .req (.commit "/a".toList 1 false), .req .exist, .bg 3, .req .get] =
      some [.ok, .ok, .ok, .ok, .bool false, .notFound] := by decide

/-- **C67** (finding): a compressed commit records nothing, so it does not displace the remains of
earlier paths: the shard is not found. -/
theorem C67_compressed_lost :
    answers exConf [.req (.put "/a".toList 1), .bg 0, .bg 0, .req .evict, .req .exist, .bg 1,
      .req .delete, .bg 2, .bg 2, .req (.put "/b".toList 1), .bg 3, .bg 3, .req .delete, .bg 4, .bg 4,
      .req (.commit "/a".toList 1 true), .req .exist, .bg 5, .req .get] =
      some [.ok, .ok, .bool true, .ok, .ok, .ok, .ok, .bool false, .notFound] := by decide

/-- **C67** (finding): a shard on a drive that is not in the table (the fallback mount point, or a
drive whose information could not be read at the last update) is lost as soon as the cache forgets it,
because a single recorded path is never found. -/
theorem C67_unlisted_drive :
    answers exConf [.req (.put "/x".toList 1), .bg 0, .bg 0, .req .exist, .req .get, .req .evict, .req .exist, .req .get] =
      some [.ok, .bool true, .notFound, .ok, .bool false, .notFound] := by decide

end Verif.Paths
