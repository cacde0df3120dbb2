import Verif.Common.Str

/-!
# Writes while slots move to another metadata server (C142)

Models, for one object whose slot moves, what becomes of writes that are under way: the middlewares `CheckWritableUnary`, `CheckInNormal` and
`CheckKeySlot` (src/metaserver/internal/controller/grpc/middleware.go:60-74, 101-121, http/middleware.go), which look at the status and at the table of
slots before a handler runs, and `AutoMigrate` with `migrateMetadata`, `FinishReceiveItem` and `Save`
(src/metaserver/internal/usecase/service/hashslot_service.go:160-191, 225-344, usecase/db/hashslot_db.go:174-187).

A write is two steps: it passes the check, and later it is carried out; nothing holds back a migration in between.  Simplified: the transfer itself works
(C32 has its failures) and starts with nothing of the object at the target; an object is the list of its versions; nobody removes it; both groups have one
member; the target's status is part of the phase.  A server has a table of slots that it reads again at times of its own (C81: it may be five minutes
old); reading it is one step.
-/

namespace Verif.MovingWrites

/-! ## Model -/

/-- Writes: `AddMetadata` and `AddVersion`. -/
inductive Op
  | make
  | ver (v : Nat)
  deriving DecidableEq

abbrev Obj := Option (List Nat)

/-- `none`: refused (`ErrExists`, `ErrNotFound`). -/
def Op.apply : Op → Obj → Option Obj
  | .make, none => some (some [])
  | .make, some _ => none
  | .ver _, none => none
  | .ver v, some l => some (some (l ++ [v]))

inductive Side
  | src | dst
  deriving DecidableEq

/-- Where `AutoMigrate` is.  `listed` and `metaSent` say whether the object was among the keys. -/
inductive Phase
  | idle
  /-- the source is in migrate-to, the target in migrate-from -/
  | ready
  /-- after `FilterKeys`, hashslot_service.go:275-277 -/
  | listed (b : Bool)
  /-- after line 303 -/
  | metaSent (b : Bool)
  /-- after line 325 -/
  | sent
  /-- after line 251 -/
  | finished
  /-- after line 262 -/
  | saved
  /-- the target has left migrate-from, line 171 -/
  | closed
  /-- the target has recorded its slots, line 186 -/
  | done
  deriving DecidableEq

structure St where
  src : Obj := none
  dst : Obj := none
  phase : Phase := .idle
  /-- the status of the source is normal -/
  normal : Bool := true
  /-- the owner of the slot in etcd -/
  owner : Option Side := some .src
  /-- the owner in the tables that the servers have -/
  srcView : Option Side := some .src
  dstView : Option Side := some .src
  /-- writes that passed the check -/
  pendS : List Op := []
  pendD : List Op := []
  /-- the goroutine that removes the object, lines 332-337, was started -/
  del : Bool := false
  /-- writes that were answered with success -/
  acked : List Op := []

inductive Ev
  | checkS (o : Op)
  | checkD (o : Op)
  | applyS (k : Nat)
  | applyD (k : Nat)
  | refreshS
  | refreshD
  | ready
  | list
  | sendMeta
  | sendVers
  | remove
  | finishTo
  | save
  | close
  | saveDst
  deriving DecidableEq

/-- One step of the functions named above (lines at `Phase`; checks: middleware.go:60-74, 101-121); what cannot happen changes nothing.  `fixed` is false for the code as it is; true is a source that waits for the writes under way before it
starts, and that records its slots, and takes over the new table, before it leaves migrate-to and removes anything. -/
def step (fixed : Bool) (s : St) : Ev → St
  | .checkS o => if s.normal = true ∧ s.srcView = some .src then { s with pendS := s.pendS ++ [o] } else s
  | .checkD o => if (s.phase = .closed ∨ s.phase = .done) ∧ s.dstView = some .dst then { s with pendD := s.pendD ++ [o] } else s
  | .applyS k =>
    match s.pendS[k]? with
    | none => s
    | some o =>
      match o.apply s.src with
      | none => { s with pendS := s.pendS.eraseIdx k }
      | some x => { s with pendS := s.pendS.eraseIdx k, src := x, acked := s.acked ++ [o] }
  | .applyD k =>
    match s.pendD[k]? with
    | none => s
    | some o =>
      match o.apply s.dst with
      | none => { s with pendD := s.pendD.eraseIdx k }
      | some x => { s with pendD := s.pendD.eraseIdx k, dst := x, acked := s.acked ++ [o] }
  | .refreshS => { s with srcView := s.owner }
  | .refreshD => { s with dstView := s.owner }
  | .ready => if s.phase = .idle ∧ (fixed = true → s.pendS = []) then { s with phase := .ready, normal := false } else s
  | .list => if s.phase = .ready then { s with phase := .listed s.src.isSome } else s
  | .sendMeta =>
    match s.phase with
    | .listed false => { s with phase := .metaSent false }
    | .listed true => if s.src.isSome then { s with dst := some (s.dst.getD []), phase := .metaSent true } else s
    | _ => s
  | .sendVers =>
    match s.phase with
    | .metaSent false => { s with phase := .sent }
    | .metaSent true => { s with dst := some (s.dst.getD [] ++ s.src.getD []), phase := .sent, del := true }
    | _ => s
  | .remove => if s.del = true ∧ (fixed = true → s.phase = .saved ∨ s.phase = .closed ∨ s.phase = .done) then { s with src := none, del := false } else s
  | .finishTo =>
    if fixed then (if s.phase = .saved ∨ s.phase = .closed ∨ s.phase = .done then { s with normal := true } else s)
    else if s.phase = .sent then { s with phase := .finished, normal := true } else s
  | .save =>
    if fixed then (if s.phase = .sent then { s with phase := .saved, owner := none, srcView := none } else s)
    else if s.phase = .finished then { s with phase := .saved, owner := none } else s
  | .close => if s.phase = .saved then { s with phase := .closed } else s
  | .saveDst => if s.phase = .closed then { s with phase := .done, owner := some .dst } else s

def run (fixed : Bool) (s : St) (es : List Ev) : St := es.foldl (step fixed) s

/-! ## Specification -/

/-- The object has what the write wrote. -/
def Has (x : Obj) : Op → Prop
  | .make => x.isSome = true
  | .ver v => ∃ l, x = some l ∧ v ∈ l

/-- What was acknowledged is at the new owner once the migration is done. -/
def Kept (s : St) : Prop := s.phase = .done → ∀ o ∈ s.acked, Has s.dst o

/-- **C142** -/
def Statement : Prop := ∀ es, Kept (run false {} es)

/-! ## Invariant -/

/-- The object has been sent, or there was none. -/
def Phase.over : Phase → Bool
  | .sent | .finished | .saved | .closed | .done => true
  | _ => false

structure Inv (s : St) : Prop where
  before : s.phase.over = false → ∀ o ∈ s.acked, Has s.src o
  after : s.phase.over = true → ∀ o ∈ s.acked, Has s.dst o
  quiet : s.phase ≠ .idle → s.pendS = []
  dstIdle : s.phase.over = false → s.pendD = [] ∧ (∀ b, s.phase = .metaSent b → (b = true → s.dst.isSome = true)) ∧ s.del = false
  lst : ∀ b, s.phase = .listed b ∨ s.phase = .metaSent b → b = s.src.isSome
  normal : s.phase.over = false → (s.normal = true ↔ s.phase = .idle)

theorem inv_init : Inv {} := by
  constructor <;> simp [Phase.over]

theorem has_apply {o o' : Op} {x y : Obj} (h : o.apply x = some y) : (Has x o' → Has y o') ∧ Has y o := by
  cases o with
  | make =>
    cases x with
    | none =>
      simp only [Op.apply, Option.some.injEq] at h
      subst h
      cases o' <;> simp [Has]
    | some l => cases h
  | ver v =>
    cases x with
    | none => cases h
    | some l =>
      simp only [Op.apply, Option.some.injEq] at h
      subst h
      cases o' <;> simp [Has]
      exact Or.inl

/-- Steps that the theorem needs to be careful: the migration starts when no write is under way, and after it has left migrate-to no write passes the check at
the source. -/
def Careful (s : St) : Ev → Prop
  | .ready => s.pendS = []
  | .checkS _ => s.phase = .idle ∨ s.normal = false ∨ s.srcView ≠ some .src
  | _ => True

theorem inv_step (fixed : Bool) {s : St} (h : Inv s) (e : Ev) (hc : Careful s e) : Inv (step fixed s e) := by
  have h0 := h
  obtain ⟨h1, h2, h3, h4, h5, h6⟩ := h
  cases e with
  | checkS o =>
    unfold step
    dsimp only
    split
    · rename_i hb
      have hi : s.phase = .idle := by
        rcases hc with hc | hc | hc
        · exact hc
        · rw [hb.1] at hc; cases hc
        · exact absurd hb.2 hc
      constructor <;> grind
    · exact h0
  | checkD o =>
    unfold step
    dsimp only
    split
    · rename_i hb
      have : s.phase.over = true := by rcases hb.1 with h | h <;> rw [h] <;> rfl
      constructor <;> grind
    · exact h0
  | applyS k =>
    unfold step
    dsimp only
    split
    · exact h0
    · rename_i o ho
      have hm := List.mem_of_getElem? ho
      have hi : s.phase = .idle := by
        by_cases hi : s.phase = .idle
        · exact hi
        · rw [h3 hi] at hm; cases hm
      have ho' : s.phase.over = false := by rw [hi]; rfl
      split
      · constructor <;> grind
      · rename_i x hx
        have hk := fun o' => (has_apply (o' := o') hx).1
        have hk' := (has_apply (o' := o) hx).2
        constructor <;> grind
  | applyD k =>
    unfold step
    dsimp only
    split
    · exact h0
    · rename_i o ho
      have hm := List.mem_of_getElem? ho
      have hi : s.phase.over = true := by
        cases hi : s.phase.over
        · rw [(h4 hi).1] at hm; cases hm
        · rfl
      have hn : s.phase ≠ .idle := by intro hh; rw [hh] at hi; cases hi
      have hl : ∀ b, ¬ (s.phase = .listed b ∨ s.phase = .metaSent b) := by
        rintro b (hh | hh) <;> rw [hh] at hi <;> cases hi
      split
      · constructor <;> grind
      · rename_i x hx
        have hk := fun o' => (has_apply (o' := o') hx).1
        have hk' := (has_apply (o' := o) hx).2
        constructor <;> grind
  | refreshS => exact ⟨h1, h2, h3, h4, h5, h6⟩
  | refreshD => exact ⟨h1, h2, h3, h4, h5, h6⟩
  | ready =>
    unfold step
    dsimp only
    have hc : s.pendS = [] := hc
    split
    · constructor <;> grind [Phase.over]
    · exact h0
  | list =>
    unfold step
    dsimp only
    split
    · constructor <;> grind [Phase.over]
    · exact h0
  | sendMeta =>
    unfold step
    dsimp only
    split
    · constructor <;> grind [Phase.over]
    · split
      · constructor <;> grind [Phase.over]
      · exact h0
    · exact h0
  | sendVers =>
    unfold step
    dsimp only
    split
    · rename_i hp
      have hs := h5 false (.inr hp)
      have ha : ∀ o ∈ s.acked, False := by
        intro o ho
        have := h1 (by rw [hp]; rfl) o ho
        cases hx : s.src with
        | none => rw [hx] at this; cases o <;> simp [Has] at this
        | some l => rw [hx] at hs; cases hs
      constructor <;> grind [Phase.over]
    · rename_i hp
      have ha : ∀ o ∈ s.acked, Has (some (s.dst.getD [] ++ s.src.getD [])) o := by
        intro o ho
        have := h1 (by rw [hp]; rfl) o ho
        cases o with
        | make => rfl
        | ver v =>
          obtain ⟨l, hl, hv⟩ := this
          exact ⟨_, rfl, by rw [hl]; simp [hv]⟩
      constructor <;> grind [Phase.over]
    · exact h0
  | remove =>
    unfold step
    dsimp only
    split
    · rename_i hd
      have hi : s.phase.over = true := by
        cases hi : s.phase.over
        · rw [(h4 hi).2.2] at hd; cases hd.1
        · rfl
      have hl : ∀ b, ¬ (s.phase = .listed b ∨ s.phase = .metaSent b) := by
        rintro b (hh | hh) <;> rw [hh] at hi <;> cases hi
      constructor <;> grind
    · exact h0
  | finishTo =>
    unfold step
    dsimp only
    (repeat' split) <;> first | exact h0 | (constructor <;> grind [Phase.over])
  | save =>
    unfold step
    dsimp only
    (repeat' split) <;> first | exact h0 | (constructor <;> grind [Phase.over])
  | close =>
    unfold step
    dsimp only
    split <;> first | exact h0 | (constructor <;> grind [Phase.over])
  | saveDst =>
    unfold step
    dsimp only
    split <;> first | exact h0 | (constructor <;> grind [Phase.over])

/-! ## Theorems -/

/-- All steps of an execution are careful. -/
def AllCareful (s : St) : List Ev → Prop
  | [] => True
  | e :: es => Careful s e ∧ AllCareful (step false s e) es

theorem inv_run (es : List Ev) : ∀ s, Inv s → AllCareful s es → Inv (run false s es) := by
  induction es with
  | nil => intro s h _; exact h
  | cons e es ih => intro s h hc; exact ih _ (inv_step false h e hc.1) hc.2

/-- **C142, partial** Nothing that was acknowledged is missing at the new owner if no write was between its check and its end when the migration started,
and none passed the check of the source after it had left migrate-to.  Missing: exactly these (`C142_under_way`, `C142_gap`, `C142_old_table`). -/
theorem C142_careful_partial (es : List Ev) (hc : AllCareful {} es) : Kept (run false {} es) := by
  intro hd
  exact (inv_run es _ inv_init hc).after (by rw [hd]; rfl)

def move : List Ev := [.ready, .list, .sendMeta, .sendVers, .remove, .finishTo, .save, .close, .saveDst]

/-- **C142** A write that passed the check before the migration started, and is carried out after the versions were sent: acknowledged, and removed. -/
theorem C142_under_way : let s := run false {} ([.checkS .make, .applyS 0, .checkS (.ver 1)] ++ move.take 4 ++ [.applyS 0] ++ move.drop 4)
    s.acked = [.make, .ver 1] ∧ s.phase = .done ∧ s.dst = some [] ∧ s.src = none := by decide

/-- **C142** A new object that is made after the keys were listed: acknowledged, and only the former owner has it. -/
theorem C142_unlisted : let s := run false {} ([.checkS .make] ++ move.take 2 ++ [.applyS 0] ++ move.drop 2)
    s.acked = [.make] ∧ s.phase = .done ∧ s.dst = none ∧ s.src = some [] := by decide

/-- **C142** Between line 251 and line 262 the source is in normal status and still the owner: writes pass. -/
theorem C142_gap : let s := run false {} (move.take 6 ++ [.checkS .make, .applyS 0, .checkS (.ver 1), .applyS 0] ++ move.drop 6)
    s.acked = [.make, .ver 1] ∧ s.phase = .done ∧ s.dst = none ∧ s.src = some [1] := by decide

/-- **C142** After the migration is done: until the source has read the table again it accepts writes, however many, and all of them are missing at the
owner. -/
theorem C142_old_table (vs : List Nat) : ∃ es, let s := run false (run false {} move) es
    s.phase = .done ∧ s.acked = .make :: vs.map .ver ∧ s.dst = none ∧ s.owner = some .dst := by
  let w (l : List Nat) : List Ev := l.flatMap fun v => [.checkS (.ver v), .applyS 0]
  let s0 := run false {} (move ++ [.checkS .make, .applyS 0])
  have key : ∀ (l a : List Nat) (b : List Op), run false { s0 with src := some a, acked := b } (w l) =
      { s0 with src := some (a ++ l), acked := b ++ l.map .ver } := by
    intro l
    induction l with
    | nil =>
      intro a b
      rw [List.append_nil, List.map_nil, List.append_nil]
      rfl
    | cons v l ih =>
      intro a b
      have h1 : run false { s0 with src := some a, acked := b } (w (v :: l)) =
          run false { s0 with src := some (a ++ [v]), acked := b ++ [.ver v] } (w l) := rfl
      rw [h1, ih, List.append_assoc, List.append_assoc]
      rfl
  refine ⟨[.checkS .make, .applyS 0] ++ w vs, ?_⟩
  have h2 : run false (run false {} move) ([.checkS .make, .applyS 0] ++ w vs) = run false { s0 with src := some [], acked := [.make] } (w vs) := by
    unfold run
    rw [List.foldl_append]
    rfl
  dsimp only
  rw [h2, key]
  exact ⟨rfl, rfl, rfl, rfl⟩

theorem C142_statement_fails : ¬ Statement := by
  intro h
  have := h _ C142_gap.2.1 .make (by rw [C142_gap.1]; simp)
  rw [C142_gap.2.2.1] at this
  cases this

/-- **C142** A server whose table is not older than the recorded slots refuses: no write passes at a source that has read the table since. -/
theorem C142_read_again (s : St) (o : Op) (h : s.owner ≠ some .src) : step false (step false s .refreshS) (.checkS o) = step false s .refreshS := by
  simp [step, h]

/-- Invariant of the repaired source: it is in normal status only before, or without the slot. -/
structure Safe (s : St) : Prop where
  status : s.phase ≠ .idle → s.normal = false ∨ s.phase = .saved ∨ s.phase = .closed ∨ s.phase = .done
  owner : s.phase = .saved ∨ s.phase = .closed ∨ s.phase = .done → s.owner ≠ some .src ∧ s.srcView ≠ some .src
  notFinished : s.phase ≠ .finished

theorem safe_step {s : St} (h : Safe s) (e : Ev) : Safe (step true s e) := by
  have h0 := h
  obtain ⟨h1, h2, h3⟩ := h
  cases e <;> unfold step <;> dsimp only <;> (repeat' split) <;> first | exact h0 | (constructor <;> grind)

/-- Steps of the repaired source that change something are careful. -/
theorem fixed_careful {s : St} (h : Safe s) (e : Ev) : step true s e = s ∨ Careful s e := by
  obtain ⟨h1, h2, h3⟩ := h
  cases e with
  | ready =>
    by_cases hp : s.pendS = []
    · exact .inr hp
    · left
      unfold step
      dsimp only
      rw [if_neg (by rintro ⟨_, hh⟩; exact hp (hh rfl))]
  | checkS o =>
    right
    change s.phase = .idle ∨ s.normal = false ∨ s.srcView ≠ some .src
    by_cases hi : s.phase = .idle
    · exact .inl hi
    · rcases h1 hi with h | h
      · exact .inr (.inl h)
      · exact .inr (.inr (h2 h).2)
  | _ => exact .inr trivial

/-- **C142, repaired** A source that starts when no write is under way, and leaves migrate-to only after it has recorded its slots and taken over the new
table, loses nothing that was acknowledged, for any order of the steps. -/
theorem C142_repair (es : List Ev) : Kept (run true {} es) := by
  have key : ∀ (es : List Ev) (s : St), Inv s → Safe s → Inv (run true s es) := by
    intro es
    induction es with
    | nil => intro s h _; exact h
    | cons e es ih =>
      intro s h hs
      refine ih (step true s e) ?_ (safe_step hs e)
      rcases fixed_careful hs e with h' | h'
      · rw [h']; exact h
      · exact inv_step true h e h'
  intro hd
  exact (key es {} inv_init ⟨by simp, by simp, by simp⟩).after (by rw [hd]; rfl)

/-- The repaired source comes to the end, with the object at the target and writes accepted there. -/
theorem C142_repair_works : let s := run true {} [.checkS .make, .applyS 0, .checkS (.ver 1), .applyS 0, .ready, .checkS (.ver 2), .list, .sendMeta,
      .sendVers, .save, .remove, .finishTo, .checkS (.ver 3), .close, .saveDst, .refreshD, .checkD (.ver 4), .applyD 0]
    s.phase = .done ∧ s.acked = [.make, .ver 1, .ver 4] ∧ s.dst = some [1, 4] ∧ s.src = none ∧ s.normal = true := by decide

/-- Non-vacuity of the partial theorem: writes before, refused writes during, and writes at the new owner after. -/
def carefulRun : List Ev := [.checkS .make, .applyS 0, .checkS (.ver 1), .applyS 0, .ready, .checkS (.ver 2), .list, .sendMeta, .sendVers, .finishTo, .save,
  .refreshS, .checkS (.ver 3), .remove, .close, .saveDst, .refreshD, .checkD (.ver 4), .applyD 0]

example : AllCareful {} carefulRun := by
  simp [AllCareful, carefulRun, Careful, step, Op.apply]

example : (run false {} carefulRun).phase = .done ∧ (run false {} carefulRun).acked = [.make, .ver 1, .ver 4] ∧
    (run false {} carefulRun).dst = some [1, 4] := by decide

/-- Two writes after the migration, acknowledged by the former owner. -/
example : (run false (run false {} move) [.checkS .make, .applyS 0, .checkS (.ver 7), .applyS 0]).src = some [7] := by decide

/-- After it has read the table the former owner refuses. -/
example : (run false (run false {} move) [.refreshS, .checkS .make, .applyS 0]).acked = [] := by decide

end Verif.MovingWrites
