import Verif.Common.Str

/-!
# Uploads whose metadata calls fail, and uploads of one object at the same time (C144)

Models the metadata half of `StoreObject` (src/apiserver/internal/usecase/service/object_service.go:112-195) with `SaveMetadata`
(meta_service.go:22-30), for any number of uploads of one object, step by step and in any order: `GetMetadata` (116-125), `Insert` (174, meta_service.go:23),
`GetMetadata` again (177), `AddVersion` (182, meta_service.go:27) and the goroutine that removes a version (185-192).

Every call of the metadata server may be carried out and answered, carried out without an answer (a lost connection, a leader that ended), or not carried
out.  A read may be answered by any member of the group with something older (C99).  Simplified: a version is its number and the upload it came from;
nobody deletes; the content was stored before (C39).
-/

namespace Verif.Half

/-! ## Model -/

/-- Outcome of a call: carried out and answered; carried out, the answer is lost; not carried out. -/
inductive Out
  | ok | lost | refused
  deriving DecidableEq

/-- What an upload read: `Total` and `FirstVersion`. -/
structure Info where
  total : Nat
  first : Nat
  deriving DecidableEq

/-- Where an upload is. -/
inductive Pc
  | start
  /-- after line 121; `none`: not found, or an error, which line 122 drops (it looks at another variable) -/
  | got (m : Option Info)
  /-- after meta_service.go:23 -/
  | inserted
  /-- `ErrMetadataExists`, line 177 -/
  | again
  | failed
  | done (n : Nat)
  deriving DecidableEq

structure St where
  /-- the object is recorded -/
  made : Bool := false
  /-- number and upload of the versions -/
  vers : List (Nat × Nat) := []
  seq : Nat := 0
  pc : Nat → Pc := fun _ => .start
  /-- versions that goroutines will remove -/
  removals : List Nat := []

/-- The bucket, object_service.go:185. -/
structure Bucket where
  versioning : Bool
  remains : Nat

inductive Ev
  | get (i : Nat) (m : Option Info)
  | insert (i : Nat) (o : Out)
  | reget (i : Nat) (m : Option Info)
  | add (i : Nat) (o : Out)
  | remove (k : Nat)

def St.set (s : St) (i : Nat) (p : Pc) : St := { s with pc := fun j => if j = i then p else s.pc j }

/-- `AddVersion` at the metadata server (metaserver metadata_repo.go; C16). -/
def St.push (s : St) (i : Nat) : St := { s with seq := s.seq + 1, vers := s.vers ++ [(s.seq + 1, i)] }

/-- Lines 182-192; `m = none` after `SaveMetadata`, which does not come to line 185. -/
def addVersion (b : Bucket) (s : St) (i : Nat) (m : Option Info) (o : Out) : St :=
  match s.made, o with
  | false, _ => s.set i .failed
  | true, .refused => s.set i .failed
  | true, .lost => (s.push i).set i .failed
  | true, .ok =>
    let s' := (s.push i).set i (.done (s.seq + 1))
    match m with
    | none => s'
    | some m => if (0 < m.total ∧ b.versioning = false) ∨ b.remains ≤ m.total then { s' with removals := s'.removals ++ [m.first] } else s'

/-- One step of `StoreObject`, object_service.go:112-195, of the upload `i`; what cannot happen changes nothing.  `fixed`: not in the code; `Insert` records the object with its first version in one call. -/
def step (fixed : Bool) (b : Bucket) (s : St) : Ev → St
  | .get i m =>
    if s.pc i = .start ∧ (∀ x ∈ m, x.first ≤ s.seq) then s.set i (.got m) else s
  | .insert i o =>
    if s.pc i = .got none then
      match o, s.made with
      | .refused, _ => s.set i .failed
      | .lost, true => s.set i .failed
      | .ok, true => s.set i .again
      | .lost, false => { (if fixed then s.push i else s).set i .failed with made := true }
      | .ok, false => { (if fixed then (s.push i).set i (.done (s.seq + 1)) else s.set i .inserted) with made := true }
    else s
  | .reget i m =>
    if s.pc i = .again ∧ (∀ x ∈ m, x.first ≤ s.seq) then (match m with | none => s.set i .failed | some x => s.set i (.got (some x))) else s
  | .add i o =>
    match s.pc i with
    | .got (some m) => addVersion b s i (some m) o
    | .inserted => addVersion b s i none o
    | _ => s
  | .remove k =>
    match s.removals[k]? with
    | none => s
    | some f => { s with removals := s.removals.eraseIdx k, vers := s.vers.filter fun v => v.1 != f }

def run (fixed : Bool) (b : Bucket) (s : St) (es : List Ev) : St := es.foldl (step fixed b) s

/-! ## Specification -/

/-- **C144** In every state: an object that is recorded has a version as soon as no upload is between its calls; an upload that failed left no version; and
an upload that succeeded is stored, or a later one is. -/
structure Statement : Prop where
  whole : ∀ b es, (∀ i, (run false b {} es).pc i ≠ .inserted) → (run false b {} es).made = true → (run false b {} es).vers ≠ []
  clean : ∀ b es i n, (run false b {} es).pc i = .failed → (n, i) ∉ (run false b {} es).vers
  kept : ∀ b es i n, (run false b {} es).pc i = .done n → ∃ v ∈ (run false b {} es).vers, n ≤ v.1

/-! ## Invariants -/

/-- Numbers. -/
structure Inv (s : St) : Prop where
  top : s.vers = [] ∧ s.seq = 0 ∨ ∃ i, (s.seq, i) ∈ s.vers
  le : ∀ v ∈ s.vers, v.1 ≤ s.seq
  rem : ∀ f ∈ s.removals, f < s.seq
  got : ∀ i m, s.pc i = .got (some m) → m.first ≤ s.seq
  done : ∀ i n, s.pc i = .done n → n ≤ s.seq ∧ 0 < n

theorem inv_init : Inv {} := by constructor <;> simp

theorem inv_add (b : Bucket) {s : St} (h : Inv s) (i : Nat) (m : Option Info) (o : Out) (hm : ∀ x ∈ m, x.first ≤ s.seq) :
    Inv (addVersion b s i m o) := by
  obtain ⟨h1, h2, h3, h4, h5⟩ := h
  unfold addVersion
  (repeat' split) <;> simp only [St.set, St.push] <;> constructor <;> grind

theorem inv_step (fixed : Bool) (b : Bucket) {s : St} (h : Inv s) (e : Ev) : Inv (step fixed b s e) := by
  have h0 := h
  obtain ⟨h1, h2, h3, h4, h5⟩ := h
  cases e with
  | get i m =>
    unfold step; dsimp only; split
    · simp only [St.set]; constructor <;> grind
    · exact h0
  | insert i o =>
    unfold step; dsimp only; (repeat' split) <;> first | exact h0 | (simp only [St.set, St.push]; constructor <;> grind)
  | reget i m =>
    unfold step; dsimp only; (repeat' split) <;> first | exact h0 | (simp only [St.set]; constructor <;> grind)
  | add i o =>
    unfold step; dsimp only; split
    · rename_i m hp; exact inv_add b h0 i _ o (by intro x hx; cases hx; exact h4 i m hp)
    · exact inv_add b h0 i _ o (by intro x hx; cases hx)
    · exact h0
  | remove k =>
    unfold step; dsimp only; split
    · exact h0
    · rename_i f hf
      have hf' := h3 f (List.mem_of_getElem? hf)
      constructor
      · rcases h1 with h | ⟨i, hi⟩
        · left; exact ⟨by simp [h.1], h.2⟩
        · right; exact ⟨i, List.mem_filter.2 ⟨hi, by simp; omega⟩⟩
      · intro v hv; exact h2 v (List.mem_filter.1 hv).1
      · intro g hg; exact h3 g (List.mem_of_mem_eraseIdx hg)
      · exact h4
      · exact h5

theorem run_inv {fixed : Bool} {b : Bucket} (p : St → Prop) (hp : ∀ s e, p s → p (step fixed b s e)) (es : List Ev) : ∀ s, p s → p (run fixed b s es) := by
  induction es with
  | nil => intro s h; exact h
  | cons e es ih => intro s h; exact ih _ (hp s e h)

/-! ## Theorems -/

theorem inv_run (fixed : Bool) (b : Bucket) (es : List Ev) : Inv (run fixed b {} es) :=
  run_inv Inv (fun _ e h => inv_step fixed b h e) es {} inv_init

/-- **C144** What was acknowledged stays, or something newer: uploads of one object at the same time, failing calls and old answers do not matter, and neither
does which version the bucket's limit chooses for removal. -/
theorem C144_kept (b : Bucket) (es : List Ev) (i n : Nat) (h : (run false b {} es).pc i = .done n) : ∃ v ∈ (run false b {} es).vers, n ≤ v.1 := by
  have hi := inv_run false b es
  have hd := hi.done i n h
  rcases hi.top with ht | ⟨j, hj⟩
  · omega
  · exact ⟨_, hj, hd.1⟩

/-- Who has which number. -/
structure Own (s : St) : Prop where
  uniq : ∀ n i j, (n, i) ∈ s.vers → (n, j) ∈ s.vers → i = j
  le : ∀ v ∈ s.vers, v.1 ≤ s.seq
  rem : ∀ f ∈ s.removals, f < s.seq
  got : ∀ i m, s.pc i = .got (some m) → m.first ≤ s.seq
  last : ∀ i, s.pc i = .done s.seq → (s.seq, i) ∈ s.vers
  done : ∀ i n, s.pc i = .done n → n ≤ s.seq

theorem own_step (b : Bucket) {s : St} (h : Own s) (e : Ev) : Own (step false b s e) := by
  have h0 := h
  obtain ⟨h1, h2, h3, h4, h5, h6⟩ := h
  have hadd : ∀ i m o, (∀ x ∈ m, x.first ≤ s.seq) → Own (addVersion b s i m o) := by
    intro i m o hm
    unfold addVersion
    (repeat' split) <;> simp only [St.set, St.push] <;> constructor <;> grind
  cases e with
  | get i m => unfold step; dsimp only; (repeat' split) <;> first | exact h0 | (simp only [St.set]; constructor <;> grind)
  | insert i o =>
    unfold step; dsimp only; (repeat' split) <;> first | exact h0 | (simp only [St.set, St.push]; constructor <;> grind)
  | reget i m => unfold step; dsimp only; (repeat' split) <;> first | exact h0 | (simp only [St.set]; constructor <;> grind)
  | add i o =>
    unfold step; dsimp only; split
    · rename_i m hp; exact hadd i _ o (by intro x hx; cases hx; exact h4 i m hp)
    · exact hadd i _ o (by intro x hx; cases hx)
    · exact h0
  | remove k =>
    unfold step; dsimp only; split
    · exact h0
    · rename_i f hf
      have hf' := h3 f (List.mem_of_getElem? hf)
      refine ⟨?_, ?_, ?_, h4, ?_, h6⟩
      · intro n i j hi hj; exact h1 n i j (List.mem_filter.1 hi).1 (List.mem_filter.1 hj).1
      · intro v hv; exact h2 v (List.mem_filter.1 hv).1
      · intro g hg; exact h3 g (List.mem_of_mem_eraseIdx hg)
      · intro i hi; exact List.mem_filter.2 ⟨h5 i hi, by simp; omega⟩

/-- **C144** The newest version is never removed: if the upload with the highest number was acknowledged, it is what a reader of the latest version gets, and
nothing else has its number. -/
theorem C144_latest (b : Bucket) (es : List Ev) (i : Nat) (h : (run false b {} es).pc i = .done (run false b {} es).seq) :
    ((run false b {} es).seq, i) ∈ (run false b {} es).vers ∧ (∀ v ∈ (run false b {} es).vers, v.1 ≤ (run false b {} es).seq) ∧
      ∀ j, ((run false b {} es).seq, j) ∈ (run false b {} es).vers → j = i := by
  have ho := run_inv (fixed := false) (b := b) Own (fun _ e h => own_step b h e) es {} (by constructor <;> simp)
  exact ⟨ho.last i h, ho.le, fun j hj => ho.uniq _ _ _ hj (ho.last i h)⟩

/-- **C144** A version goes away only by a removal that names it, and a removal is started only by an upload that was acknowledged, read the version as the
first one, and found the limit reached. -/
theorem C144_limit (b : Bucket) (s : St) (e : Ev) :
    (∀ v ∈ s.vers, v ∉ (step false b s e).vers → ∃ k, e = .remove k ∧ s.removals[k]? = some v.1) ∧
    ∀ f ∈ (step false b s e).removals, f ∉ s.removals →
      ∃ i m n, e = .add i .ok ∧ s.pc i = .got (some m) ∧ m.first = f ∧ (step false b s e).pc i = .done n ∧
        ((0 < m.total ∧ b.versioning = false) ∨ b.remains ≤ m.total) := by
  cases e with
  | get i m => unfold step; dsimp only; (repeat' split) <;> grind [St.set]
  | insert i o => unfold step; dsimp only; (repeat' split) <;> grind [St.set, St.push]
  | reget i m => unfold step; dsimp only; (repeat' split) <;> grind [St.set]
  | add i o =>
    unfold step; dsimp only; split
    · rename_i m hp
      unfold addVersion
      split
      · grind [St.set]
      · grind [St.set]
      · grind [St.set, St.push]
      · dsimp only
        split
        · rename_i hl
          refine ⟨by grind [St.set, St.push], fun f hf hn => ⟨i, m, s.seq + 1, rfl, hp, ?_, by simp [St.set], hl⟩⟩
          rcases List.mem_append.1 hf with h | h
          · exact absurd h hn
          · exact (List.mem_singleton.1 h).symm
        · grind [St.set, St.push]
    · unfold addVersion
      (repeat' split) <;> grind [St.set, St.push]
    · grind
  | remove k =>
    unfold step; dsimp only; split
    · grind
    · rename_i f hf
      refine ⟨?_, ?_⟩
      · intro v hv hn
        refine ⟨k, rfl, ?_⟩
        rw [hf]
        by_cases h : v.1 = f
        · rw [h]
        · exact absurd (List.mem_filter.2 ⟨hv, by simp [h]⟩) hn
      · intro g hg hn
        exact absurd (List.mem_of_mem_eraseIdx hg) hn

/-- No answer of the metadata server gets lost. -/
def answered : Ev → Prop
  | .insert _ .lost => False
  | .add _ .lost => False
  | _ => True

theorem run_inv' {fixed : Bool} {b : Bucket} (p : St → Prop) (q : Ev → Prop) (hp : ∀ s e, q e → p s → p (step fixed b s e)) (es : List Ev) :
    ∀ s, (∀ e ∈ es, q e) → p s → p (run fixed b s es) := by
  induction es with
  | nil => intro s _ h; exact h
  | cons e es ih =>
    intro s hq h
    exact ih _ (fun e' he' => hq e' (List.mem_cons_of_mem _ he')) (hp s e (hq e List.mem_cons_self) h)

/-- **C144, partial** If no answer gets lost, every version belongs to an upload that succeeded, with this number.  Missing: lost answers (`C144_lost`). -/
theorem C144_clean_partial (b : Bucket) (es : List Ev) (ha : ∀ e ∈ es, answered e) (n i : Nat) (h : (n, i) ∈ (run false b {} es).vers) :
    (run false b {} es).pc i = .done n := by
  refine run_inv' (fixed := false) (b := b) (fun s => ∀ n i, (n, i) ∈ s.vers → s.pc i = .done n) answered ?_ es {} ha (by simp) n i h
  intro s e he hs
  have hadd : ∀ i m o, o ≠ .lost → (∀ n, s.pc i ≠ .done n) → ∀ n j, (n, j) ∈ (addVersion b s i m o).vers → (addVersion b s i m o).pc j = .done n := by
    intro i m o ho hp
    unfold addVersion
    (repeat' split) <;> simp only [St.set, St.push] <;> grind
  cases e with
  | get i m => unfold step; dsimp only; (repeat' split) <;> first | exact hs | (simp only [St.set]; grind)
  | insert i o =>
    unfold step; dsimp only; (repeat' split) <;> first | exact hs | (simp only [St.set, St.push]; grind)
  | reget i m => unfold step; dsimp only; (repeat' split) <;> first | exact hs | (simp only [St.set]; grind)
  | add i o =>
    have ho : o ≠ .lost := by rintro rfl; exact he
    unfold step; dsimp only; split
    · rename_i m hp; exact hadd i _ o ho (by rw [hp]; nofun)
    · rename_i hp; exact hadd i _ o ho (by rw [hp]; nofun)
    · exact hs
  | remove k =>
    unfold step; dsimp only; split
    · exact hs
    · intro n i hn; exact hs n i (List.mem_filter.1 hn).1

/-- All calls succeed. -/
def works : Ev → Prop
  | .insert _ o => o = .ok
  | .add _ o => o = .ok
  | _ => True

/-- **C144, partial** If no call fails, an object that is recorded has a version once no upload is between its calls.  Missing: failing calls
(`C144_half`). -/
theorem C144_whole_partial (b : Bucket) (es : List Ev) (hw : ∀ e ∈ es, works e) (hn : ∀ i, (run false b {} es).pc i ≠ .inserted)
    (hm : (run false b {} es).made = true) : (run false b {} es).vers ≠ [] := by
  have h := run_inv' (fixed := false) (b := b) (fun s => Inv s ∧ (s.made = true → (∃ i, s.pc i = .inserted) ∨ 0 < s.seq)) works ?_ es {} hw
    ⟨inv_init, by simp⟩
  · rcases h.2 hm with ⟨i, hi⟩ | h'
    · exact absurd hi (hn i)
    · rcases h.1.top with ht | ⟨i, hi⟩
      · omega
      · intro he; rw [he] at hi; cases hi
  · intro s e he hs
    refine ⟨inv_step false b hs.1 e, ?_⟩
    obtain ⟨-, hs⟩ := hs
    have hadd : ∀ i m, s.made = true → 0 < (addVersion b s i m .ok).seq := by
      intro i m hm
      unfold addVersion
      rw [hm]
      cases m with
      | none => simp [St.set, St.push]
      | some m => dsimp only; split <;> simp [St.set, St.push]
    have hmade : ∀ i m o, (addVersion b s i m o).made = s.made := by
      intro i m o
      unfold addVersion
      (repeat' split) <;> simp_all [St.set, St.push]
    cases e with
    | get i m => unfold step; dsimp only; (repeat' split) <;> first | exact hs | (simp only [St.set]; grind)
    | insert i o =>
      cases he
      unfold step; dsimp only; (repeat' split) <;> first | exact hs | (simp only [St.set]; grind)
    | reget i m => unfold step; dsimp only; (repeat' split) <;> first | exact hs | (simp only [St.set]; grind)
    | add i o =>
      cases he
      unfold step; dsimp only; split
      · intro h; rw [hmade] at h; exact .inr (hadd i _ h)
      · intro h; rw [hmade] at h; exact .inr (hadd i _ h)
      · exact hs
    | remove k => unfold step; dsimp only; split <;> exact hs

/-- An upload of a new object by itself. -/
def new (i : Nat) (o p : Out) : List Ev := [.get i none, .insert i o, .add i p]

/-- **C144** The second call fails: the upload is answered with an error, and the object is recorded, listed, and has no version. -/
theorem C144_half (b : Bucket) : let s := run false b {} (new 0 .ok .refused)
    s.pc 0 = .failed ∧ s.made = true ∧ s.vers = [] := ⟨rfl, rfl, rfl⟩

/-- **C144** The same if the answer of the first call is lost: the second one is never made. -/
theorem C144_insert_lost (b : Bucket) (p : Out) : let s := run false b {} (new 0 .lost p)
    s.pc 0 = .failed ∧ s.made = true ∧ s.vers = [] := ⟨rfl, rfl, rfl⟩

/-- **C144** Of two uploads of a new object at the same time the later one reads the object again; if that fails, so does the upload, and it has stored its
content for nothing. -/
theorem C144_second_read (b : Bucket) : let s := run false b {} [.get 0 none, .get 1 none, .insert 0 .ok, .insert 1 .ok, .reget 1 none, .add 1 .ok]
    s.pc 1 = .failed ∧ s.pc 0 = .inserted ∧ s.vers = [] := ⟨rfl, rfl, rfl⟩

/-- **C144** The answer of the second call is lost: the upload is answered with an error, and readers get it. -/
theorem C144_lost (b : Bucket) : let s := run false b {} (new 0 .ok .lost)
    s.pc 0 = .failed ∧ s.vers = [(1, 0)] := ⟨rfl, rfl⟩

/-- **C144** Who tries again then stores the same thing twice, and a bucket without versions has two of them. -/
theorem C144_twice : let s := run false ⟨false, 1⟩ {} (new 0 .ok .lost ++ [.get 1 none, .insert 1 .ok, .reget 1 (some ⟨0, 0⟩), .add 1 .ok])
    s.pc 1 = .done 2 ∧ s.vers = [(1, 0), (2, 1)] ∧ s.removals = [] := ⟨rfl, rfl, rfl⟩

/-- **C144** Every failed upload can be repeated: from any state, by an upload that has not begun, whose calls are answered. -/
theorem C144_again (b : Bucket) (es : List Ev) (i : Nat) (h : (run false b {} es).pc i = .start) :
    ∃ es' n, (run false b (run false b {} es) es').pc i = .done n ∧ (n, i) ∈ (run false b (run false b {} es) es').vers := by
  generalize run false b {} es = s at h
  cases hm : s.made with
  | false =>
    refine ⟨new i .ok .ok, s.seq + 1, ?_⟩
    simp [new, run, step, h, hm, St.set, addVersion, St.push]
  | true =>
    refine ⟨[.get i (some ⟨0, 0⟩), .add i .ok], s.seq + 1, ?_⟩
    have h1 : step false b s (.get i (some ⟨0, 0⟩)) = s.set i (.got (some ⟨0, 0⟩)) := by simp [step, h]
    simp only [run, List.foldl_cons, List.foldl_nil, h1]
    have h2 : (s.set i (.got (some ⟨0, 0⟩))).pc i = .got (some ⟨0, 0⟩) := by simp [St.set]
    have h3 : (s.set i (.got (some ⟨0, 0⟩))).made = true := hm
    simp only [step, h2, addVersion, h3]
    split <;> simp [St.set, St.push]

theorem C144_statement_fails : ¬ Statement := by
  intro h
  have := C144_half ⟨true, 3⟩
  refine h.whole ⟨true, 3⟩ (new 0 .ok .refused) ?_ this.2.1 this.2.2
  intro i hi
  by_cases h0 : i = 0
  · subst h0; rw [this.1] at hi; cases hi
  · have : (run false ⟨true, 3⟩ {} (new 0 .ok .refused)).pc i = .start := by
      simp [run, new, step, St.set, addVersion, h0]
    rw [this] at hi; cases hi

theorem C144_clean_fails : ¬ ∀ b es i n, (run false b {} es).pc i = .failed → (n, i) ∉ (run false b {} es).vers := by
  intro h
  have := C144_lost ⟨true, 3⟩
  exact h _ _ 0 1 this.1 (by rw [this.2]; simp)

/-- **C144, repaired** With one call that records an object and its first version, an object that is recorded has a version, whatever fails. -/
theorem C144_repair (b : Bucket) (es : List Ev) (hm : (run true b {} es).made = true) : (run true b {} es).vers ≠ [] := by
  have h := run_inv (fixed := true) (b := b) (fun s => Inv s ∧ (s.made = true → 0 < s.seq)) ?_ es {} ⟨inv_init, by simp⟩
  · have h' := h.2 hm
    rcases h.1.top with ht | ⟨i, hi⟩
    · omega
    · intro he; rw [he] at hi; cases hi
  · intro s e hs
    refine ⟨inv_step true b hs.1 e, ?_⟩
    obtain ⟨-, hs⟩ := hs
    have hadd : ∀ i m o, (addVersion b s i m o).made = true → 0 < (addVersion b s i m o).seq := by
      intro i m o
      unfold addVersion
      (repeat' split) <;> simp only [St.set, St.push] <;> grind
    cases e with
    | get i m => unfold step; dsimp only; split <;> exact hs
    | insert i o => unfold step; dsimp only; (repeat' split) <;> first | exact hs | (simp only [St.set, St.push]; grind)
    | reget i m => unfold step; dsimp only; (repeat' split) <;> exact hs
    | add i o =>
      unfold step; dsimp only; split
      · exact hadd i _ o
      · exact hadd i _ o
      · exact hs
    | remove k => unfold step; dsimp only; split <;> exact hs

theorem C144_repair_works (b : Bucket) : let s := run true b {} [.get 0 none, .insert 0 .ok]
    s.pc 0 = .done 1 ∧ s.made = true ∧ s.vers = [(1, 0)] := ⟨rfl, rfl, rfl⟩

/-! ## Non-vacuity -/

/-- Two uploads of a new object at the same time, then one that removes the oldest version, chosen from an old answer. -/
def sample : List Ev := [.get 0 none, .get 1 none, .insert 1 .ok, .insert 0 .ok, .add 1 .ok, .reget 0 (some ⟨1, 1⟩), .add 0 .ok, .get 2 (some ⟨2, 1⟩),
  .add 2 .ok, .remove 0]

example : let s := run false ⟨true, 2⟩ {} sample
    s.pc 1 = .done 1 ∧ s.pc 0 = .done 2 ∧ s.pc 2 = .done 3 ∧ s.seq = 3 ∧ s.made = true ∧ s.vers = [(2, 0), (3, 2)] := ⟨rfl, rfl, rfl, rfl, rfl, rfl⟩

/-- A removal that was started, and its end. -/
example : (run false ⟨true, 2⟩ {} (sample.take 9)).removals = [1] ∧ (run false ⟨true, 2⟩ {} (sample.take 9)).vers = [(1, 1), (2, 0), (3, 2)] := ⟨rfl, rfl⟩

example : (∀ e ∈ sample, answered e) ∧ ∀ e ∈ sample, works e := by
  constructor <;> simp [sample, answered, works]

end Verif.Half
