/-!
# Connections to metadata servers (C96)

Model of `getConn` of src/apiserver/internal/usecase/grpcapi/base.go:12-45, and of
src/adminserver/internal/usecase/logic/conn.go:12-45, which has the same text: a map of connections that is first
read without and then with a lock (`Close` of the same files is not modelled).  Any number of goroutines; every read or write of the map, of the lock, and
`grpc.Dial` is a step.

Trusted: a read of a Go map while another goroutine writes it may end the process (`fatal error: concurrent map
read and map write`); `grpc.Dial` returns a new connection or an error.
-/

namespace Verif.ConnPool

/-- What `grpc.Dial` of base.go:29 gives: the address it was dialled for, and which one it is. -/
structure Conn where
  addr : Nat
  id : Nat
  deriving DecidableEq, Repr

/-- Where a goroutine is in `getConn(addr)`, base.go:17-35. -/
inductive Pc
  | idle
  /-- line 18 -/
  | first (a : Nat)
  /-- line 22 -/
  | wait (a : Nat)
  /-- line 24, holds the lock -/
  | second (a : Nat)
  /-- line 29 -/
  | dial (a : Nat)
  /-- in the middle of line 33 -/
  | writing (a : Nat) (c : Conn)
  deriving DecidableEq, Repr

/-- The goroutine holds the lock, base.go:22-23. -/
def Pc.holds : Pc → Bool
  | .second _ | .dial _ | .writing _ _ => true
  | _ => false

/-- The variables of base.go:12-15 and what happened so far. -/
structure St where
  pool : Nat → Option Conn
  lock : Option Nat
  pc : Nat → Pc
  /-- connections made -/
  dials : List Conn
  /-- what calls returned; `none` is an error -/
  log : List (Nat × Option Conn)
  /-- the runtime may have ended the process -/
  fatal : Bool

/-- Nothing has been called. -/
def St.init : St := ⟨fun _ => none, none, fun _ => .idle, [], [], false⟩

/-- What may happen next. -/
inductive Ev
  /-- goroutine `i` calls `getConn(a)` -/
  | call (i a : Nat)
  /-- it goes on; `ok` says whether `Dial` succeeds -/
  | go (i : Nat) (ok : Bool)
  deriving DecidableEq, Repr

/-- A goroutine is in the middle of the write of base.go:33. -/
def St.written (s : St) : Bool :=
  match s.lock with
  | none => false
  | some j => match s.pc j with
    | .writing .. => true
    | _ => false

/-- Goroutine `i` goes to `p`. -/
def St.at (s : St) (i : Nat) (p : Pc) : St := { s with pc := fun j => if j = i then p else s.pc j }

/-- base.go:17-35, one access of the map or the lock, or one `Dial`, at a time. -/
def step (s : St) : Ev → St
  | .call i a => if s.pc i = .idle then s.at i (.first a) else s
  | .go i ok =>
    match s.pc i with
    | .idle => s
    | .first a =>
      let s := { s with fatal := s.fatal || s.written }
      match s.pool a with
      | some c => { s.at i .idle with log := (a, some c) :: s.log }
      | none => s.at i (.wait a)
    | .wait a => if s.lock = none then { s.at i (.second a) with lock := some i } else s
    | .second a =>
      match s.pool a with
      | some c => { s.at i .idle with log := (a, some c) :: s.log, lock := none }
      | none => s.at i (.dial a)
    | .dial a =>
      if ok then
        let c : Conn := ⟨a, s.dials.length⟩
        { s.at i (.writing a c) with dials := c :: s.dials }
      else { s.at i .idle with log := (a, none) :: s.log, lock := none }
    | .writing a c =>
      { s.at i .idle with
        pool := fun b => if b = a then some c else s.pool b
        log := (a, some c) :: s.log
        lock := none }

/-- A trace. -/
def run (s : St) : List Ev → St
  | [] => s
  | e :: es => run (step s e) es

/-! ## Properties -/

structure Inv (s : St) : Prop where
  lock : ∀ i, (s.pc i).holds = true ↔ s.lock = some i
  addr : ∀ a c, s.pool a = some c → c.addr = a ∧ c ∈ s.dials
  made : ∀ c ∈ s.dials, s.pool c.addr = some c ∨ ∃ i, s.pc i = .writing c.addr c
  dial : ∀ i a, s.pc i = .dial a → s.pool a = none
  writing : ∀ i a c, s.pc i = .writing a c → c.addr = a ∧ s.pool a = none ∧ c ∈ s.dials
  log : ∀ a c, (a, some c) ∈ s.log → s.pool a = some c

theorem Inv.init : Inv .init := by
  constructor <;> simp [St.init, Pc.holds]

theorem Inv.step {s : St} (h : Inv s) (e : Ev) : Inv (ConnPool.step s e) := by
  obtain ⟨h1, h2, h3, h4, h5, h6⟩ := h
  cases e with
  | call i a =>
    simp only [ConnPool.step]
    split
    · rename_i hi
      constructor
      · intro j; have := h1 j; simp only [St.at]; grind [Pc.holds]
      · exact h2
      · intro c hc
        rcases h3 c hc with h | ⟨j, hj⟩
        · exact .inl h
        · refine .inr ⟨j, ?_⟩; simp only [St.at]; grind
      · intro j b hb; simp only [St.at] at hb ⊢; grind
      · intro j b c hb; simp only [St.at] at hb ⊢; grind
      · exact h6
    · exact ⟨h1, h2, h3, h4, h5, h6⟩
  | go i ok =>
    have hi := h1 i
    simp only [ConnPool.step]
    cases hp : s.pc i with
    | idle => exact ⟨h1, h2, h3, h4, h5, h6⟩
    | first a =>
      simp only
      cases hq : s.pool a with
      | some c =>
        refine ⟨?_, h2, ?_, ?_, ?_, ?_⟩
        · intro j; have := h1 j; simp only [St.at]; grind [Pc.holds]
        · intro c' hc
          rcases h3 c' hc with h | ⟨j, hj⟩
          · exact .inl h
          · refine .inr ⟨j, ?_⟩; simp only [St.at]; grind
        · intro j b hb; simp only [St.at] at hb ⊢; grind
        · intro j b c hb; simp only [St.at] at hb ⊢; grind
        · intro b c' hb; simp only [St.at] at hb ⊢; grind
      | none =>
        refine ⟨?_, h2, ?_, ?_, ?_, h6⟩
        · intro j; have := h1 j; simp only [St.at]; grind [Pc.holds]
        · intro c' hc
          rcases h3 c' hc with h | ⟨j, hj⟩
          · exact .inl h
          · refine .inr ⟨j, ?_⟩; simp only [St.at]; grind
        · intro j b hb; simp only [St.at] at hb ⊢; grind
        · intro j b c hb; simp only [St.at] at hb ⊢; grind
    | wait a =>
      simp only
      split
      · rename_i hl
        refine ⟨?_, h2, ?_, ?_, ?_, h6⟩
        · intro j; have := h1 j; simp only [St.at]; grind [Pc.holds]
        · intro c' hc
          rcases h3 c' hc with h | ⟨j, hj⟩
          · exact .inl h
          · refine .inr ⟨j, ?_⟩; simp only [St.at]; grind
        · intro j b hb; simp only [St.at] at hb ⊢; grind
        · intro j b c hb; simp only [St.at] at hb ⊢; grind
      · exact ⟨h1, h2, h3, h4, h5, h6⟩
    | second a =>
      simp only
      cases hq : s.pool a with
      | some c =>
        refine ⟨?_, h2, ?_, ?_, ?_, ?_⟩
        · intro j; have := h1 j; simp only [St.at]; grind [Pc.holds]
        · intro c' hc
          rcases h3 c' hc with h | ⟨j, hj⟩
          · exact .inl h
          · refine .inr ⟨j, ?_⟩; simp only [St.at]; grind
        · intro j b hb; simp only [St.at] at hb ⊢; grind
        · intro j b c hb; simp only [St.at] at hb ⊢; grind
        · intro b c' hb; simp only [St.at] at hb ⊢; grind
      | none =>
        refine ⟨?_, h2, ?_, ?_, ?_, h6⟩
        · intro j; have := h1 j; simp only [St.at]; grind [Pc.holds]
        · intro c' hc
          rcases h3 c' hc with h | ⟨j, hj⟩
          · exact .inl h
          · refine .inr ⟨j, ?_⟩; simp only [St.at]; grind
        · intro j b hb; simp only [St.at] at hb ⊢; grind
        · intro j b c hb; simp only [St.at] at hb ⊢; grind
    | dial a =>
      have hd := h4 i a hp
      simp only
      split
      · refine ⟨?_, ?_, ?_, ?_, ?_, h6⟩
        · intro j; have := h1 j; simp only [St.at]; grind [Pc.holds]
        · intro b c hb; have := h2 b c hb; simp only [List.mem_cons]; exact ⟨this.1, .inr this.2⟩
        · intro c' hc
          rcases List.mem_cons.1 hc with hc | hc
          · exact .inr ⟨i, by simp [St.at, hc]⟩
          · rcases h3 c' hc with h | ⟨j, hj⟩
            · exact .inl h
            · refine .inr ⟨j, ?_⟩; simp only [St.at]; grind
        · intro j b hb; simp only [St.at] at hb ⊢; grind
        · intro j b c hb; simp only [St.at, List.mem_cons] at hb ⊢; grind
      · refine ⟨?_, h2, ?_, ?_, ?_, ?_⟩
        · intro j; have := h1 j; simp only [St.at]; grind [Pc.holds]
        · intro c' hc
          rcases h3 c' hc with h | ⟨j, hj⟩
          · exact .inl h
          · refine .inr ⟨j, ?_⟩; simp only [St.at]; grind
        · intro j b hb; simp only [St.at] at hb ⊢; grind
        · intro j b c hb; simp only [St.at] at hb ⊢; grind
        · intro b c' hb; simp only [St.at] at hb ⊢; grind
    | writing a c =>
      obtain ⟨hw1, hw2, hw3⟩ := h5 i a c hp
      have hl : s.lock = some i := (h1 i).1 (by rw [hp]; rfl)
      have hother : ∀ j, j ≠ i → (s.pc j).holds = false := by
        intro j hj
        cases hh : (s.pc j).holds with
        | false => rfl
        | true => have := (h1 j).1 hh; rw [hl] at this; exact absurd (Option.some.inj this).symm hj
      simp only
      refine ⟨?_, ?_, ?_, ?_, ?_, ?_⟩
      · intro j; have := h1 j; have := hother j; simp only [St.at]; grind [Pc.holds]
      · intro b c' hb; simp only at hb ⊢; have := h2 b c'; simp only [St.at] at *; grind
      · intro c' hc
        rcases h3 c' hc with h | ⟨j, hj⟩
        · refine .inl ?_; simp only; grind
        · by_cases hji : j = i
          · subst hji; rw [hp] at hj; cases hj; left; simp
          · have := hother j hji; rw [hj] at this; cases this
      · intro j b hb; have := hother j; simp only [St.at] at hb ⊢; grind [Pc.holds]
      · intro j b c hb; have := hother j; simp only [St.at] at hb ⊢; grind [Pc.holds]
      · intro b c' hb; simp only [St.at] at hb ⊢; grind

theorem Inv.run (es : List Ev) : ∀ {s : St}, Inv s → Inv (ConnPool.run s es) := by
  induction es with
  | nil => exact id
  | cons e es ih => intro s h; exact ih (h.step e)

/-- **C96** However calls overlap, at most one connection is ever made to an address, -/
theorem C96_one (es : List Ev) : ∀ c ∈ (run .init es).dials, ∀ c' ∈ (run .init es).dials, c.addr = c'.addr → c = c' := by
  have h := Inv.init.run es
  intro c hc c' hc' ha
  rcases h.made c hc with h1 | ⟨i, h1⟩ <;> rcases h.made c' hc' with h2 | ⟨j, h2⟩
  · rw [ha, h2] at h1; exact (Option.some.inj h1).symm
  · have := (h.writing j _ _ h2).2.1; rw [← ha, h1] at this; cases this
  · have := (h.writing i _ _ h1).2.1; rw [ha, h2] at this; cases this
  · have hi := (h.lock i).1 (by rw [h1]; rfl)
    have hj := (h.lock j).1 (by rw [h2]; rfl)
    rw [hi] at hj
    cases hj
    rw [h1] at h2
    exact (Pc.writing.inj h2).2

/-- **C96** and all calls that succeed return this one, which is a connection to the address asked for. -/
theorem C96_same (es : List Ev) {a : Nat} {c c' : Conn} (h : (a, some c) ∈ (run .init es).log)
    (h' : (a, some c') ∈ (run .init es).log) : c = c' ∧ c.addr = a := by
  have hi := Inv.init.run es
  have h1 := hi.log a c h
  have h2 := hi.log a c' h'
  rw [h1] at h2
  exact ⟨Option.some.inj h2, (hi.addr a c h1).1⟩

/-- What a goroutine has still to do, at most. -/
def Pc.left : Pc → Nat
  | .idle => 0
  | .first _ => 5
  | .wait _ => 4
  | .second _ => 3
  | .dial _ => 2
  | .writing _ _ => 1

/-- **C96** The lock is never left behind: whoever has it comes nearer to its release with every step, and a goroutine
that waits gets on as soon as it is free. -/
theorem C96_no_deadlock (es : List Ev) (i : Nat) (ok : Bool) (hi : (run .init es).pc i ≠ .idle)
    (hl : (run .init es).lock = none ∨ (run .init es).lock = some i ∨ ∀ a, (run .init es).pc i ≠ .wait a) :
    ((step (run .init es) (.go i ok)).pc i).left < ((run .init es).pc i).left := by
  have h := (Inv.init.run es).lock i
  generalize run .init es = s at *
  simp only [step]
  cases hp : s.pc i with
  | idle => exact absurd hp hi
  | first a => simp only; split <;> simp [St.at, Pc.left]
  | wait a =>
    simp only
    have : s.lock = none := by
      rcases hl with hl | hl | hl
      · exact hl
      · rw [← h, hp] at hl; cases hl
      · exact absurd hp (hl a)
    rw [if_pos this]
    simp [St.at, Pc.left]
  | second a => simp only; split <;> simp [St.at, Pc.left]
  | dial a => simp only; split <;> simp [St.at, Pc.left]
  | writing a c => simp [St.at, Pc.left]

/-- **C96** A failed dial is not remembered: the next call dials again. -/
theorem C96_error_forgotten (es : List Ev) {i a : Nat} (h : (run .init es).pc i = .dial a) :
    (step (run .init es) (.go i false)).pool a = none ∧ (step (run .init es) (.go i false)).dials = (run .init es).dials := by
  have hi := Inv.init.run es
  generalize run .init es = s at *
  simp [step, h, St.at, hi.dial i a h]

/-- A dial fails and the next call dials. -/
example : (run .init [.call 1 7, .go 1 true, .go 1 true, .go 1 true]).pc 1 = .dial 7 ∧
    (run .init [.call 1 7, .go 1 true, .go 1 true, .go 1 true, .go 1 false, .call 1 7, .go 1 true, .go 1 true, .go 1 true,
      .go 1 true, .go 1 true]).log = [(7, some ⟨7, 0⟩), (7, none)] := by decide

/-- One that waits for the lock does not move, one that has it does. -/
example : (run .init [.call 1 7, .call 2 7, .go 1 true, .go 2 true, .go 1 true, .go 2 true]).pc 2 = .wait 7 ∧
    (run .init [.call 1 7, .call 2 7, .go 1 true, .go 2 true, .go 1 true, .go 2 true]).lock = some 1 ∧
    (run .init [.call 1 7, .call 2 7, .go 1 true, .go 2 true, .go 1 true, .go 2 true, .go 1 true]).pc 1 = .dial 7 := by decide

/-- Two goroutines ask for the same address; both are past the first look before any connection is there. -/
def overlap : List Ev :=
  [.call 1 7, .call 2 7, .go 1 true, .go 2 true, .go 1 true, .go 1 true, .go 1 true, .go 2 true, .go 1 true, .go 2 true,
   .go 2 true]

example : (run .init overlap).log = [(7, some ⟨7, 0⟩), (7, some ⟨7, 0⟩)] ∧ (run .init overlap).dials = [⟨7, 0⟩] ∧
    (run .init overlap).fatal = false := by decide

/-- **C96, refuted.** The first look at the map is not protected: a call for whatever address while a connection is
stored may end the process. -/
theorem C96_race :
    (run .init [.call 1 7, .go 1 true, .go 1 true, .go 1 true, .go 1 true, .call 2 8, .go 2 true]).fatal = true := by
  decide

/-- **C96** This is the only way: a process in which no call begins while a connection is being stored is safe. -/
theorem C96_race_partial (es : List Ev) (hn : ∀ n i ok a, es[n]? = some (.go i ok) →
      (run .init (es.take n)).pc i = .first a → (run .init (es.take n)).written = false) :
    (run .init es).fatal = false := by
  have key : ∀ n, n ≤ es.length → (run .init (es.take n)).fatal = false := by
    intro n
    induction n with
    | zero => intro _; rfl
    | succ n ih =>
      intro hle
      have hlt : n < es.length := hle
      have hrun : ∀ (es : List Ev) (e : Ev) (s : St), run s (es ++ [e]) = step (run s es) e := by
        intro es e
        induction es with
        | nil => intro s; rfl
        | cons e' es ih => intro s; exact ih (step s e')
      rw [List.take_succ_eq_append_getElem hlt, hrun]
      have ih' := ih (by omega)
      have hnn := hn n
      rw [List.getElem?_eq_getElem hlt] at hnn
      generalize run .init (es.take n) = s at *
      cases he : es[n] with
      | call i a => simp only [step]; split <;> simp [St.at, ih']
      | go i ok =>
        simp only [step]
        cases hp : s.pc i with
        | idle => exact ih'
        | first a =>
          have := hnn i ok a (by rw [he]) hp
          simp only [ih', this]
          cases s.pool a <;> simp [St.at]
        | wait a => simp only; split <;> simp [St.at, ih']
        | second a => simp only; split <;> simp [St.at, ih']
        | dial a => simp only; split <;> simp [St.at, ih']
        | writing a c => simp [St.at, ih']
  have := key es.length (Nat.le_refl _)
  rwa [List.take_length] at this

end Verif.ConnPool
