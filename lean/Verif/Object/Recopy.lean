/-!
# C147: shards that are repaired again and again

A read that finds a shard missing writes it to a server it selects, and asks the metadata server to
record that server.  The request is refused (C75), so the next read finds the shard missing again.
Modelled is one object of Reed-Solomon shards: which server holds a file of which shard, and which
server is recorded for it.  Contents (C37, C105), the selection of servers (any choice here) and
compression are left out, and so are migrations, which record where they put files (C32, C105).
-/

namespace Verif.Recopy

/-- One object.  `loc i` is the server recorded for shard `i` (`Version.Locate`), `has a i`: server
`a` holds a file `hash.i`, `down a`: server `a` does not answer. -/
structure St where
  loc : Nat → Nat
  has : Nat → Nat → Bool
  down : Nat → Bool

/-- What happens: the file of a shard is lost, a server stops or starts, or the object is read, where
`pick i` is what `lb.Select` gives for shard `i`. -/
inductive Ev where
  | lose (a i : Nat)
  | stop (a : Nat)
  | start (a : Nat)
  | read (pick : Nat → Nat)

/-- `NewGetStream` fails for the shard, src/apiserver/internal/usecase/service/rs_get_stream.go:38-43. -/
def missing (s : St) (i : Nat) : Bool := s.down (s.loc i) || !s.has (s.loc i) i

/-- All put streams can be opened, rs_get_stream.go:56-64: otherwise the read fails and commits nothing. -/
def opens (n : Nat) (s : St) (pick : Nat → Nat) : Bool :=
  (List.range n).all fun i => !missing s i || !s.down (pick i)

/-- Shard `i` is written by the read, rs_get_stream.go:56-66 and `Close`, 113-131 (all writers are committed;
that commits succeed is an assumption). -/
def writes (n : Nat) (s : St) (pick : Nat → Nat) (i : Nat) : Bool :=
  decide (i < n) && missing s i && opens n s pick

/-- One event.  A read commits the files; `Updater` (rs_get_stream.go:132-137,
object_service.go:235-238, grpcapi/meta_server.go:120-142) is refused for want of a version number
(metadata_server.go:145-148, C75), so the recorded servers stay.  With `fixed` they are recorded. -/
def step (n : Nat) (fixed : Bool) (s : St) : Ev → St
  | .lose a i => { s with has := fun b j => if b = a ∧ j = i then false else s.has b j }
  | .stop a => { s with down := fun b => if b = a then true else s.down b }
  | .start a => { s with down := fun b => if b = a then false else s.down b }
  | .read pick =>
    { s with
      has := fun b j => if writes n s pick j ∧ b = pick j then true else s.has b j
      loc := fun j => if fixed ∧ writes n s pick j then pick j else s.loc j }

def run (n : Nat) (fixed : Bool) (s : St) (es : List Ev) : St := es.foldl (step n fixed) s

/-- After the upload: shard `i` is at `loc i` and nowhere else. -/
def init (n : Nat) (loc : Nat → Nat) : St :=
  ⟨loc, fun a i => decide (i < n ∧ a = loc i), fun _ => false⟩

/-! ## Specification -/

/-- No server stops. -/
def Steady (es : List Ev) : Prop := ∀ a, Ev.stop a ∉ es

/-- In every execution that meets `ok` each shard is stored at most once. -/
def OnceEach (fixed : Bool) (ok : List Ev → Prop) : Prop :=
  ∀ n loc es, ok es → ∀ i a b, (run n fixed (init n loc) es).has a i = true →
    (run n fixed (init n loc) es).has b i = true → a = b

/-! ## Lemmas -/

theorem run_inv (Inv : St → Prop) (n : Nat) (fixed : Bool) (ok : Ev → Prop)
    (hstep : ∀ s e, ok e → Inv s → Inv (step n fixed s e)) (es : List Ev) :
    ∀ s, (∀ e ∈ es, ok e) → Inv s → Inv (run n fixed s es) := by
  induction es with
  | nil => intro s _ h; exact h
  | cons e es ih =>
    intro s hok h
    exact ih _ (fun e' h' => hok e' (List.mem_cons_of_mem _ h')) (hstep s e (hok e (List.mem_cons_self ..)) h)

theorem opens_up {n : Nat} {s : St} (h : ∀ a, s.down a = false) (pick : Nat → Nat) : opens n s pick = true := by
  simp [opens, h]

/-! ## The theorems -/

/-- **C147** Whatever happens, the recorded servers are those of the upload. -/
theorem C147_recorded (n : Nat) (s : St) (es : List Ev) : (run n false s es).loc = s.loc :=
  run_inv (fun t => t.loc = s.loc) n false (fun _ => True)
    (fun t e _ h => by cases e <;> simp [step, h]) es s (fun _ _ => trivial) rfl

/-- **C147** Once the recorded file of a shard is lost, every read that does not happen to select the
recorded server stores the shard again: all servers selected hold it. -/
theorem C147_again (n : Nat) (loc : Nat → Nat) (i : Nat) (hi : i < n) (picks : List (Nat → Nat))
    (hp : ∀ p ∈ picks, p i ≠ loc i) :
    ∀ p ∈ picks, (run n false (init n loc) (.lose (loc i) i :: picks.map .read)).has (p i) i = true := by
  have key : ∀ (ps : List (Nat → Nat)) (s : St), (∀ p ∈ ps, p i ≠ loc i) → s.loc = loc →
      (∀ a, s.down a = false) → s.has (loc i) i = false →
      (∀ a, s.has a i = true → (run n false s (ps.map .read)).has a i = true) ∧
      ∀ p ∈ ps, (run n false s (ps.map .read)).has (p i) i = true := by
    intro ps
    induction ps with
    | nil => intro s _ _ _ _; exact ⟨fun a h => h, fun p h => absurd h List.not_mem_nil⟩
    | cons q ps ih =>
      intro s hq hl hd hm
      have hw : writes n s q i = true := by simp [writes, hi, missing, hl, hm, opens_up hd]
      have hqi := hq q (List.mem_cons_self ..)
      obtain ⟨h1, h2⟩ := ih (step n false s (.read q)) (fun p h => hq p (List.mem_cons_of_mem _ h))
        (by simp [step, hl]) (by simpa [step] using hd)
        (by simp only [step, hw, true_and]; rw [if_neg (fun h => hqi h.symm)]; exact hm)
      refine ⟨fun a ha => h1 a ?_, fun p hmem => ?_⟩
      · simp only [step]; split <;> simp [ha]
      · rcases List.mem_cons.mp hmem with rfl | h
        · exact h1 _ (by simp [step, hw])
        · exact h2 p h
  exact (key picks (step n false (init n loc) (.lose (loc i) i)) hp rfl (fun _ => rfl) (by simp [step])).2

example : ∀ p ∈ [fun _ => 7, fun _ => 8, fun _ => 9],
    (run 3 false (init 3 id) (.lose 1 1 :: [fun _ => 7, fun _ => 8, fun _ => 9].map .read)).has (p 1) 1 = true :=
  C147_again 3 id 1 (by decide) _ (by simp)

/-- **C147** One lost file and `k` reads may leave `k` files of the shard. -/
theorem C147_grows (k : Nat) : ∃ es : List Ev, Steady es ∧ es.length = k + 1 ∧
    ∀ a, 1 ≤ a → a ≤ k → (run 1 false (init 1 fun _ => 0) es).has a 0 = true := by
  refine ⟨.lose 0 0 :: ((List.range k).map fun j _ => j + 1).map .read, ?_, by simp, ?_⟩
  · intro a h; simp at h
  · intro a h1 h2
    have := C147_again 1 (fun _ => 0) 0 (by decide) ((List.range k).map fun j _ => j + 1) (by simp)
      (fun _ => a) (by simp only [List.mem_map, List.mem_range]; exact ⟨a - 1, by omega, by funext _; omega⟩)
    exact this

/-- **C147** The statement fails for the code even if no server ever stops. -/
theorem C147_statement_fails : ¬ OnceEach false Steady := by
  intro h
  obtain ⟨es, h1, _, h3⟩ := C147_grows 2
  have := h 1 (fun _ => 0) es h1 0 1 2 (h3 1 (by decide) (by decide)) (h3 2 (by decide) (by decide))
  omega

/-- **C147** What holds: a read of an object none of whose shards is missing changes nothing. -/
theorem C147_whole_partial (n : Nat) (fixed : Bool) (s : St) (pick : Nat → Nat)
    (h : ∀ i < n, s.down (s.loc i) = false ∧ s.has (s.loc i) i = true) : step n fixed s (.read pick) = s := by
  have hw : ∀ j, writes n s pick j = false := by
    intro j
    by_cases hj : j < n
    · simp [writes, missing, h j hj]
    · simp [writes, hj]
  simp [step, hw]

example : step 3 false (init 3 id) (.read fun _ => 9) = init 3 id :=
  C147_whole_partial 3 false _ _ (fun i hi => by simp [init, hi])

/-- **C147** If the new server were recorded, each shard would be stored at most once while no server stops. -/
theorem C147_repair : OnceEach true Steady := by
  intro n loc es hok i a b ha hb
  have hinv := run_inv (fun t => (∀ a i, t.has a i = true → a = t.loc i) ∧ ∀ a, t.down a = false) n true
    (fun e => ∀ a, e ≠ .stop a)
    (by
      intro t e he h
      obtain ⟨h1, h2⟩ := h
      cases e with
      | lose c j => exact ⟨by intro a i; simp only [step]; split <;> grind, h2⟩
      | stop c => exact absurd rfl (he c)
      | start c => exact ⟨h1, by intro a; simp [step, h2]⟩
      | read pick =>
        refine ⟨?_, h2⟩
        intro a i
        simp only [step, true_and]
        by_cases hw : writes n t pick i = true
        · have hm : missing t i = true := by simp only [writes, Bool.and_eq_true] at hw; exact hw.1.2
          simp only [missing, h2, Bool.false_or, Bool.not_eq_true'] at hm
          grind
        · grind)
    es (init n loc) (fun e he c hc => hok c (hc ▸ he)) ⟨by simp [init], fun _ => rfl⟩
  rw [hinv.1 a i ha, hinv.1 b i hb]

example : Steady [.lose 0 0, .read fun _ => 4, .read fun _ => 5] ∧
    (run 1 true (init 1 fun _ => 0) [.lose 0 0, .read fun _ => 4, .read fun _ => 5]).has 4 0 = true := by
  exact ⟨by intro a h; simp at h, by decide⟩

/-- **C147** Then the next read writes nothing: after a read all shards are where they are recorded. -/
theorem C147_repair_once (n : Nat) (s : St) (pick pick' : Nat → Nat) (hd : ∀ a, s.down a = false) :
    step n true (step n true s (.read pick)) (.read pick') = step n true s (.read pick) := by
  refine C147_whole_partial n true _ pick' (fun i hi => ⟨by simp [step, hd], ?_⟩)
  by_cases hm : missing s i = true
  · have hw : writes n s pick i = true := by simp [writes, hi, hm, opens_up hd]
    simp [step, hw]
  · have hw : writes n s pick i = false := by simp [writes, hm]
    simp only [missing, hd, Bool.false_or, Bool.not_eq_true', Bool.not_eq_false] at hm
    simp [step, hw, hm]

/-- **C147** Recording alone is not enough when servers stop: the file of a server that comes back stays. -/
theorem C147_outage : ¬ OnceEach true (fun _ => True) := by
  intro h
  have := h 1 (fun _ => 0) [.stop 0, .read fun _ => 1, .start 0] trivial 0 0 1 (by decide) (by decide)
  omega

end Verif.Recopy
