import Verif.Common.Str

/-!
# Requests that continue one resumable upload at the same time (C146)

Models `Patch` (src/apiserver/internal/controller/http/big_api.go:138-203) with `CurrentSize` (service/rs_resumable_stream.go:65-78) and `Flush`
(service/rs_encoder.go:59-112) for any number of requests with one token, at the level of blocks: a request asks the first data server for the size, compares
it with the place where its part begins, and then appends block after block, each as one piece per shard, to the temporary files.  A client that gave up
waiting and sends its part again has two such requests.  C40 has requests one after another, with the bytes.

Simplified: all requests carry parts of one object of `total` blocks, from whole blocks on; no call fails (C40); the appends of one block to the shards happen
in any order, each in one step; committing is one step.
-/

namespace Verif.Overlap

/-! ## Model -/

/-- A request that passed the check: the block it writes next and the shards that still lack it. -/
structure Req where
  block : Nat
  todo : List Nat
  deriving DecidableEq

structure St where
  /-- numbers of the blocks whose pieces the temporary files have -/
  shard : Nat → List Nat := fun _ => []
  reqs : Nat → Option Req := fun _ => none
  committed : Bool := false

/-- Number of shards and of blocks. -/
structure Conf where
  shards : Nat
  total : Nat

inductive Ev
  /-- big_api.go:150-159 for a part that begins with block `off` -/
  | start (r off : Nat)
  /-- one append of `Flush` -/
  | write (r i : Nat)
  /-- the next block of the body -/
  | next (r : Nat)
  /-- the end of the body: 206 -/
  | stop (r : Nat)
  /-- the end of the body at the announced size: lines 180-202 -/
  | commit (r : Nat)

/-- `CurrentSize`, rs_resumable_stream.go:65-78, in blocks. -/
def size (c : Conf) (s : St) : Nat := min (s.shard 0).length c.total

def St.setReq (s : St) (r : Nat) (q : Option Req) : St := { s with reqs := fun j => if j = r then q else s.reqs j }

def St.append (s : St) (i b : Nat) : St := { s with shard := fun j => if j = i then s.shard j ++ [b] else s.shard j }

/-- One step of `Patch`, big_api.go:138-203; what cannot happen changes nothing; nothing happens after the commit.  `fixed`: not in the code; all data servers are asked for the size, and a
data server is told the place of a piece and refuses any other, which ends the request. -/
def step (fixed : Bool) (c : Conf) (s : St) (e : Ev) : St :=
  if s.committed then s else
  match e with
  | .start r off =>
    if s.reqs r = none ∧ size c s = off ∧ (fixed = true → ∀ i, i < c.shards → (s.shard i).length = off) then
      s.setReq r (some ⟨off, List.range c.shards⟩)
    else s
  | .write r i =>
    match s.reqs r with
    | none => s
    | some q =>
      if q.block < c.total ∧ i ∈ q.todo then
        if fixed = true ∧ (s.shard i).length ≠ q.block then s.setReq r none
        else (s.append i q.block).setReq r (some ⟨q.block, q.todo.erase i⟩)
      else s
  | .next r =>
    match s.reqs r with
    | none => s
    | some q => if q.block < c.total ∧ q.todo = [] then s.setReq r (some ⟨q.block + 1, List.range c.shards⟩) else s
  | .stop r =>
    match s.reqs r with
    | none => s
    | some q => if q.block < c.total ∧ q.todo = List.range c.shards then s.setReq r none else s
  | .commit r =>
    match s.reqs r with
    | none => s
    | some q => if q.block = c.total then { s.setReq r none with committed := true } else s

def run (fixed : Bool) (c : Conf) (s : St) (es : List Ev) : St := es.foldl (step fixed c) s

/-! ## Specification -/

/-- A temporary file has the pieces of the first blocks, in order. -/
def Prefix (l : List Nat) : Prop := l = List.range l.length

/-- The shards of the object. -/
def Object (c : Conf) (s : St) : Prop := ∀ i, i < c.shards → s.shard i = List.range c.total

/-- **C146** What is committed is the object. -/
def Statement : Prop := ∀ c es, (run false c {} es).committed = true → Object c (run false c {} es)

/-! ## Theorems -/

/-- **C146** A part that is sent again while the first request is still at work is written twice; the next block completes the size that the request counts,
and a file of three blocks is committed as the object of two. -/
theorem C146_twice : let s := run false ⟨2, 2⟩ {} [.start 0 0, .start 1 0, .write 0 0, .write 0 1, .write 1 0, .write 1 1, .next 0, .write 0 0, .write 0 1,
      .next 0, .commit 0]
    s.committed = true ∧ s.shard 0 = [0, 0, 1] ∧ s.shard 1 = [0, 0, 1] := by decide

/-- **C146** The shards need not even belong together: the orders at two data servers differ. -/
theorem C146_mixed : let s := run false ⟨2, 2⟩ {} [.start 0 0, .start 1 0, .write 0 0, .write 0 1, .write 1 0, .next 0, .write 0 0, .write 0 1, .write 1 1,
      .next 0, .commit 0]
    s.committed = true ∧ s.shard 0 = [0, 0, 1] ∧ s.shard 1 = [0, 1, 0] := by decide

/-- **C146** Only the first data server is asked: while it has the last block and another has not, an empty request commits. -/
theorem C146_early : let s := run false ⟨2, 1⟩ {} [.start 0 0, .write 0 0, .start 1 1, .commit 1]
    s.committed = true ∧ s.shard 0 = [0] ∧ s.shard 1 = [] := by decide

/-- **C146** A file that is too long passes for complete: the size is cut off at the announced one, and an empty request commits. -/
theorem C146_cut_off : let s := run false ⟨2, 2⟩ {} [.start 0 0, .start 1 0, .write 0 0, .write 0 1, .write 1 0, .write 1 1, .next 0, .write 0 0, .write 0 1,
      .start 2 2, .commit 2]
    s.committed = true ∧ s.shard 0 = [0, 0, 1] := by decide

theorem C146_statement_fails : ¬ Statement := by
  intro h
  have := h ⟨2, 1⟩ _ C146_early.1 1 (by decide)
  rw [C146_early.2.2] at this
  cases this

/-- A request begins when no other is at work. -/
def Alone (s : St) : Ev → Prop
  | .start _ _ => ∀ r, s.reqs r = none
  | _ => True

def AllAlone (c : Conf) (s : St) : List Ev → Prop
  | [] => True
  | e :: es => Alone s e ∧ AllAlone c (step false c s e) es

/-- One request at most, and every shard has the blocks before the one it writes, and this one if it is through with it. -/
structure Inv (c : Conf) (s : St) : Prop where
  one : ∀ r q r' q', s.reqs r = some q → s.reqs r' = some q' → r = r'
  le : ∀ r q, s.reqs r = some q → q.block ≤ c.total ∧ q.todo.Nodup ∧ ∀ i ∈ q.todo, i < c.shards
  full : ∀ r q, s.reqs r = some q → q.block = c.total → q.todo = List.range c.shards
  at_ : ∀ r q, s.reqs r = some q → ∀ i, i < c.shards → s.shard i = List.range (if i ∈ q.todo then q.block else q.block + 1)
  idle : (∀ r, s.reqs r = none) → ∃ k, k ≤ c.total ∧ ∀ i, i < c.shards → s.shard i = List.range k
  done : s.committed = true → Object c s

theorem inv_step (c : Conf) (hc : 0 < c.shards) {s : St} (h : Inv c s) (e : Ev) (ha : Alone s e) : Inv c (step false c s e) := by
  have h0 := h
  obtain ⟨h1, h2, h3, h4, h5, h6⟩ := h
  unfold step
  split
  · exact h0
  rename_i hcm
  cases e with
  | start r off =>
    dsimp only
    split
    · rename_i hs
      have ha : ∀ r, s.reqs r = none := ha
      obtain ⟨k, hk, hk'⟩ := h5 ha
      have hoff : off = k := by
        have := hs.2.1
        unfold size at this
        rw [hk' 0 hc, List.length_range] at this
        omega
      subst hoff
      have hset : ∀ r', (s.setReq r (some ⟨off, List.range c.shards⟩)).reqs r' = if r' = r then some ⟨off, List.range c.shards⟩ else none := by
        intro r'
        simp only [St.setReq, ha]
      constructor
      · intro r1 q1 r2 q2 hq1 hq2
        rw [hset] at hq1 hq2
        split at hq1 <;> split at hq2 <;> simp_all
      · intro r1 q1 hq1
        rw [hset] at hq1
        split at hq1
        · cases hq1
          exact ⟨hk, List.nodup_range, fun i hi => List.mem_range.1 hi⟩
        · cases hq1
      · intro r1 q1 hq1 _
        rw [hset] at hq1
        split at hq1
        · cases hq1; rfl
        · cases hq1
      · intro r1 q1 hq1 i hi
        rw [hset] at hq1
        split at hq1
        · cases hq1
          dsimp only
          rw [if_pos (List.mem_range.2 hi)]
          exact hk' i hi
        · cases hq1
      · intro hn
        have := hn r
        rw [hset, if_pos rfl] at this
        cases this
      · intro hd; exact absurd hd hcm
    · exact h0
  | write r i =>
    dsimp only
    split
    · exact h0
    · rename_i q hq
      split
      · rename_i hw
        rw [if_neg (by simp)]
        have hset : ∀ r', ((s.append i q.block).setReq r (some ⟨q.block, q.todo.erase i⟩)).reqs r' =
            if r' = r then some ⟨q.block, q.todo.erase i⟩ else s.reqs r' := fun _ => rfl
        have hother : ∀ r', r' ≠ r → s.reqs r' = none := by
          intro r' hr'
          cases hx : s.reqs r' with
          | none => rfl
          | some q' => exact absurd (h1 r' q' r q hx hq) hr'
        constructor
        · intro r1 q1 r2 q2 hq1 hq2
          rw [hset] at hq1 hq2
          grind
        · intro r1 q1 hq1
          rw [hset] at hq1
          split at hq1
          · cases hq1
            have := h2 r q hq
            exact ⟨this.1, this.2.1.erase i, fun j hj => this.2.2 j (List.mem_of_mem_erase hj)⟩
          · rename_i hr; rw [hother r1 hr] at hq1; cases hq1
        · intro r1 q1 hq1 hb
          rw [hset] at hq1
          split at hq1
          · cases hq1
            have := hw.1
            dsimp only at hb
            omega
          · rename_i hr; rw [hother r1 hr] at hq1; cases hq1
        · intro r1 q1 hq1 j hj
          rw [hset] at hq1
          split at hq1
          · cases hq1
            have h4' := h4 r q hq j hj
            have hnd := (h2 r q hq).2.1
            change (if j = i then s.shard j ++ [q.block] else s.shard j) = _
            by_cases hji : j = i
            · subst hji
              rw [if_pos rfl, h4', if_pos hw.2]
              dsimp only
              rw [if_neg (fun hm => (List.Nodup.mem_erase_iff hnd).1 hm |>.1 rfl), List.range_succ]
            · rw [if_neg hji, h4']
              dsimp only
              have : j ∈ q.todo.erase i ↔ j ∈ q.todo := List.mem_erase_of_ne hji
              simp only [this]
          · rename_i hr; rw [hother r1 hr] at hq1; cases hq1
        · intro hn
          have := hn r
          rw [hset, if_pos rfl] at this
          cases this
        · intro hd; exact absurd hd hcm
      · exact h0
  | next r =>
    dsimp only
    split
    · exact h0
    · rename_i q hq
      split
      · rename_i hw
        have hset : ∀ r', (s.setReq r (some ⟨q.block + 1, List.range c.shards⟩)).reqs r' =
            if r' = r then some ⟨q.block + 1, List.range c.shards⟩ else s.reqs r' := fun _ => rfl
        have hother : ∀ r', r' ≠ r → s.reqs r' = none := by
          intro r' hr'
          cases hx : s.reqs r' with
          | none => rfl
          | some q' => exact absurd (h1 r' q' r q hx hq) hr'
        constructor
        · intro r1 q1 r2 q2 hq1 hq2
          rw [hset] at hq1 hq2
          grind
        · intro r1 q1 hq1
          rw [hset] at hq1
          split at hq1
          · cases hq1
            exact ⟨hw.1, List.nodup_range, fun i hi => List.mem_range.1 hi⟩
          · rename_i hr; rw [hother r1 hr] at hq1; cases hq1
        · intro r1 q1 hq1 _
          rw [hset] at hq1
          split at hq1
          · cases hq1; rfl
          · rename_i hr; rw [hother r1 hr] at hq1; cases hq1
        · intro r1 q1 hq1 j hj
          rw [hset] at hq1
          split at hq1
          · cases hq1
            have h4' := h4 r q hq j hj
            rw [hw.2, if_neg (by simp)] at h4'
            dsimp only
            rw [if_pos (List.mem_range.2 hj)]
            exact h4'
          · rename_i hr; rw [hother r1 hr] at hq1; cases hq1
        · intro hn
          have := hn r
          rw [hset, if_pos rfl] at this
          cases this
        · intro hd; exact absurd hd hcm
      · exact h0
  | stop r =>
    dsimp only
    split
    · exact h0
    · rename_i q hq
      split
      · rename_i hw
        have hset : ∀ r', (s.setReq r none).reqs r' = none := by
          intro r'
          change (if r' = r then none else s.reqs r') = none
          split
          · rfl
          · rename_i hr'
            cases hx : s.reqs r' with
            | none => rfl
            | some q' => exact absurd (h1 r' q' r q hx hq) hr'
        refine ⟨?_, ?_, ?_, ?_, ?_, fun hd => absurd hd hcm⟩
        · intro r1 q1 r2 q2 hq1; rw [hset] at hq1; cases hq1
        · intro r1 q1 hq1; rw [hset] at hq1; cases hq1
        · intro r1 q1 hq1; rw [hset] at hq1; cases hq1
        · intro r1 q1 hq1; rw [hset] at hq1; cases hq1
        · intro _
          refine ⟨q.block, (h2 r q hq).1, fun i hi => ?_⟩
          have := h4 r q hq i hi
          rw [hw.2, if_pos (List.mem_range.2 hi)] at this
          exact this
      · exact h0
  | commit r =>
    dsimp only
    split
    · exact h0
    · rename_i q hq
      split
      · rename_i hw
        have hset : ∀ r', (s.setReq r none).reqs r' = none := by
          intro r'
          change (if r' = r then none else s.reqs r') = none
          split
          · rfl
          · rename_i hr'
            cases hx : s.reqs r' with
            | none => rfl
            | some q' => exact absurd (h1 r' q' r q hx hq) hr'
        have ho : ∀ i, i < c.shards → s.shard i = List.range c.total := by
          intro i hi
          have := h4 r q hq i hi
          rw [h3 r q hq hw, if_pos (List.mem_range.2 hi), hw] at this
          exact this
        refine ⟨?_, ?_, ?_, ?_, ?_, fun _ => ho⟩
        · intro r1 q1 r2 q2 hq1; have := hset r1; rw [show _ = some q1 from hq1] at this; cases this
        · intro r1 q1 hq1; have := hset r1; rw [show _ = some q1 from hq1] at this; cases this
        · intro r1 q1 hq1; have := hset r1; rw [show _ = some q1 from hq1] at this; cases this
        · intro r1 q1 hq1; have := hset r1; rw [show _ = some q1 from hq1] at this; cases this
        · intro _; exact ⟨c.total, Nat.le_refl _, ho⟩
      · exact h0

theorem inv_init (c : Conf) : Inv c {} := by
  refine ⟨nofun, nofun, nofun, nofun, fun _ => ⟨0, Nat.zero_le _, fun _ _ => rfl⟩, nofun⟩

/-- **C146, partial** Requests one after another: what is committed is the object, and between requests every shard has the same first blocks.  Missing:
requests at the same time (`C146_twice`, `C146_mixed`, `C146_early`). -/
theorem C146_alone_partial (c : Conf) (hc : 0 < c.shards) (es : List Ev) (ha : AllAlone c {} es) :
    ((run false c {} es).committed = true → Object c (run false c {} es)) ∧
    ((∀ r, (run false c {} es).reqs r = none) → ∃ k, k ≤ c.total ∧ ∀ i, i < c.shards → (run false c {} es).shard i = List.range k) := by
  have key : ∀ (es : List Ev) (s : St), Inv c s → AllAlone c s es → Inv c (run false c s es) := by
    intro es
    induction es with
    | nil => intro s h _; exact h
    | cons e es ih => intro s h ha; exact ih _ (inv_step c hc h e ha.1) ha.2
  have h := key es {} (inv_init c) ha
  exact ⟨h.done, h.idle⟩

/-- Invariant of the repaired requests. -/
structure Safe (c : Conf) (s : St) : Prop where
  pre : ∀ i, Prefix (s.shard i) ∧ (s.shard i).length ≤ c.total
  req : ∀ r q, s.reqs r = some q → q.block ≤ c.total ∧ (∀ i, i < c.shards → q.block ≤ (s.shard i).length) ∧
    (q.block < c.total → ∀ i, i < c.shards → i ∉ q.todo → q.block + 1 ≤ (s.shard i).length)
  done : s.committed = true → Object c s

theorem safe_step (c : Conf) {s : St} (h : Safe c s) (e : Ev) : Safe c (step true c s e) := by
  have h0 := h
  obtain ⟨h1, h2, h3⟩ := h
  unfold step
  split
  · exact h0
  rename_i hcm
  cases e with
  | start r off =>
    dsimp only
    split
    · rename_i hs
      refine ⟨h1, ?_, h3⟩
      intro r1 q1 hq1
      have hq1 : (if r1 = r then some ⟨off, List.range c.shards⟩ else s.reqs r1) = some q1 := hq1
      split at hq1
      · cases hq1
        have hoff : off ≤ c.total := by have := hs.2.1; unfold size at this; omega
        refine ⟨hoff, fun i hi => ?_, fun _ i hi hn => absurd (List.mem_range.2 hi) hn⟩
        change off ≤ (s.shard i).length
        rw [hs.2.2 rfl i hi]
        exact Nat.le_refl _
      · exact h2 r1 q1 hq1
    · exact h0
  | write r i =>
    dsimp only
    split
    · exact h0
    · rename_i q hq
      split
      · rename_i hw
        split
        · refine ⟨h1, ?_, h3⟩
          intro r1 q1 hq1
          have hq1 : (if r1 = r then none else s.reqs r1) = some q1 := hq1
          split at hq1
          · cases hq1
          · exact h2 r1 q1 hq1
        · rename_i hl
          have hl : (s.shard i).length = q.block := by
            by_cases hl' : (s.shard i).length = q.block
            · exact hl'
            · exact absurd ⟨rfl, hl'⟩ hl
          have hsh : ∀ j, ((s.append i q.block).setReq r (some ⟨q.block, q.todo.erase i⟩)).shard j =
              if j = i then s.shard j ++ [q.block] else s.shard j := fun _ => rfl
          have hlen : ∀ j, (s.shard j).length ≤ (((s.append i q.block).setReq r (some ⟨q.block, q.todo.erase i⟩)).shard j).length := by
            intro j; rw [hsh]; split <;> simp
          refine ⟨?_, ?_, fun hd => absurd hd hcm⟩
          · intro j
            rw [hsh]
            split
            · rename_i hji
              subst hji
              have hp := (h1 j).1
              unfold Prefix at hp ⊢
              rw [List.length_append, List.length_singleton, List.range_succ, ← hp, hl]
              exact ⟨rfl, hw.1⟩
            · exact h1 j
          · intro r1 q1 hq1
            have hq1 : (if r1 = r then some ⟨q.block, q.todo.erase i⟩ else s.reqs r1) = some q1 := hq1
            split at hq1
            · cases hq1
              have h2' := h2 r q hq
              refine ⟨h2'.1, fun j hj => Nat.le_trans (h2'.2.1 j hj) (hlen j), fun hb j hj hn => ?_⟩
              by_cases hji : j = i
              · subst hji
                rw [hsh, if_pos rfl, List.length_append, hl]
                exact Nat.le_refl _
              · exact Nat.le_trans (h2'.2.2 hb j hj (fun hm => hn ((List.mem_erase_of_ne hji).2 hm))) (hlen j)
            · have h2' := h2 r1 q1 hq1
              exact ⟨h2'.1, fun j hj => Nat.le_trans (h2'.2.1 j hj) (hlen j), fun hb j hj hn => Nat.le_trans (h2'.2.2 hb j hj hn) (hlen j)⟩
      · exact h0
  | next r =>
    dsimp only
    split
    · exact h0
    · rename_i q hq
      split
      · rename_i hw
        refine ⟨h1, ?_, h3⟩
        intro r1 q1 hq1
        have hq1 : (if r1 = r then some ⟨q.block + 1, List.range c.shards⟩ else s.reqs r1) = some q1 := hq1
        split at hq1
        · cases hq1
          refine ⟨hw.1, fun i hi => (h2 r q hq).2.2 hw.1 i hi (by rw [hw.2]; simp), fun _ i hi hn => absurd (List.mem_range.2 hi) hn⟩
        · exact h2 r1 q1 hq1
      · exact h0
  | stop r =>
    dsimp only
    split
    · exact h0
    · split
      · refine ⟨h1, ?_, h3⟩
        intro r1 q1 hq1
        have hq1 : (if r1 = r then none else s.reqs r1) = some q1 := hq1
        split at hq1
        · cases hq1
        · exact h2 r1 q1 hq1
      · exact h0
  | commit r =>
    dsimp only
    split
    · exact h0
    · rename_i q hq
      split
      · rename_i hw
        refine ⟨h1, ?_, ?_⟩
        · intro r1 q1 hq1
          have hq1 : (if r1 = r then none else s.reqs r1) = some q1 := hq1
          split at hq1
          · cases hq1
          · exact h2 r1 q1 hq1
        · intro _ i hi
          change s.shard i = _
          have ha := h1 i
          have hb := (h2 r q hq).2.1 i hi
          have : (s.shard i).length = c.total := by omega
          rw [ha.1, this]
      · exact h0

/-- **C146, repaired** With data servers that know the place of a piece, and all of them asked for the size: whatever requests run at the same time, every
temporary file has the first blocks in order, and what is committed is the object. -/
theorem C146_repair (c : Conf) (es : List Ev) : (∀ i, Prefix ((run true c {} es).shard i)) ∧
    ((run true c {} es).committed = true → Object c (run true c {} es)) := by
  have key : ∀ (es : List Ev) (s : St), Safe c s → Safe c (run true c s es) := by
    intro es
    induction es with
    | nil => intro s h; exact h
    | cons e es ih => intro s h; exact ih _ (safe_step c h e)
  have h := key es {} ⟨fun _ => ⟨rfl, Nat.zero_le _⟩, nofun, nofun⟩
  exact ⟨fun i => (h.pre i).1, h.done⟩

/-! ## Non-vacuity -/

/-- An upload in two requests. -/
def proper : List Ev := [.start 0 0, .write 0 1, .write 0 0, .next 0, .stop 0, .start 1 1, .write 1 0, .write 1 1, .next 1, .commit 1]

example : (run false ⟨2, 2⟩ {} proper).committed = true ∧ (run false ⟨2, 2⟩ {} proper).shard 1 = [0, 1] := by decide

example : AllAlone ⟨2, 2⟩ {} proper := by
  refine ⟨fun _ => rfl, trivial, trivial, trivial, trivial, ?_, trivial, trivial, trivial, trivial, trivial⟩
  intro r
  by_cases h : r = 0
  · subst h; decide
  · simp [step, size, St.setReq, St.append, h, List.range_succ]

/-- The repaired requests commit too, and one of two that overlap is refused. -/
example : (run true ⟨2, 2⟩ {} proper).committed = true ∧
    (run true ⟨2, 2⟩ {} [.start 0 0, .start 1 0, .write 0 0, .write 1 0, .write 0 1, .next 0, .write 0 0, .write 0 1, .next 0, .commit 0]).committed = true ∧
    (run true ⟨2, 2⟩ {} [.start 0 0, .start 1 0, .write 0 0, .write 1 0, .write 0 1, .next 0, .write 0 0, .write 0 1, .next 0, .commit 0]).shard 0 = [0, 1] := by
  decide

end Verif.Overlap
