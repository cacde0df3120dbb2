/-!
# The routing table of a metadata server and its refresh (C81)

Models `GetEdgeProvider`, `IsExpired` and `reloadProvider` of
src/metaserver/internal/usecase/db/hashslot_db.go:76-118.  Any number of goroutines call `GetEdgeProvider`;
every access to shared data and every read of the clock or of etcd is a step of its own, so all
interleavings are covered.  Time is counted in ticks, `k` ticks to the second.

What etcd holds is given as a function of time (`World.hist`), a read returns what is there at that moment.
`World.wrap` stands for decoding the entries and `WrapSlots` (`Verif.HashSlot`), `none` is an error.
`updatedAt` is a plain field that several goroutines access; reads and writes of it are taken to be atomic.
-/

namespace Verif.Meta.Route

/-- The world around the server: ticks per second, etcd over time, and what becomes of its contents. -/
structure World (σ ρ : Type) where
  k : Nat
  hist : Nat → σ
  wrap : σ → Option ρ

/-- hashslot_db.go:18 `MaxExpireUnix`, in seconds -/
def maxExpire : Nat := 300

/-- A routing table with the time at which etcd was read for it. -/
abbrev Table (ρ : Type) := Nat × ρ

/-- Where a call of `GetEdgeProvider` stands. -/
inductive Pc (ρ : Type)
  /-- after `item := h.provider.Load()` -/
  | loaded
  /-- in `reloadProvider`, before etcd is read -/
  | need
  /-- the table is built, before `CompareAndSwap` -/
  | built (t : Table ρ)
  /-- `CompareAndSwap` succeeded with a table read at `τ` -/
  | swapped (τ : Nat)
  /-- `time.Now().Unix()` returned `v`, before it is stored to `updatedAt` -/
  | timed (τ v : Nat)
  /-- before the last `h.provider.Load()` -/
  | last
  /-- returned a table -/
  | done (t : Table ρ)
  | failed
  /-- dereferenced nil -/
  | panicked

/-- A call: when it loaded the pointer, its argument, and the pointer it loaded. -/
structure Call (ρ : Type) where
  start : Nat
  reload : Bool
  old : Nat
  pc : Pc ρ

/-- The server.  Pointers are numbered in the order in which they were stored, 0 is nil. -/
structure St (ρ : Type) where
  now : Nat
  ptr : Nat
  prov : Option (Table ρ)
  updatedAt : Nat
  calls : Nat → Option (Call ρ)

/-- Nothing loaded yet: hashslot_db.go:53-62. -/
def St.init {ρ : Type} (now : Nat) : St ρ := ⟨now, 0, none, 0, fun _ => none⟩

inductive Ev
  | tick
  | call (i : Nat) (reload : Bool)
  /-- `h.IsExpired() || reload` -/
  | check (i : Nat)
  /-- etcd is read; `ok = false`: it fails -/
  | fetch (i : Nat) (ok : Bool)
  | swap (i : Nat)
  | clock (i : Nat)
  | store (i : Nat)
  | ret (i : Nat)

def setPc {ρ : Type} (s : St ρ) (i : Nat) (c : Call ρ) (pc : Pc ρ) : Nat → Option (Call ρ) :=
  fun j => if j = i then some { c with pc := pc } else s.calls j

variable {σ ρ : Type}

/-- hashslot_db.go:76-78 -/
def expired (w : World σ ρ) (s : St ρ) : Bool := decide (s.now / w.k > s.updatedAt + maxExpire)

/-- One step; `none`: not possible now. -/
def step (w : World σ ρ) (s : St ρ) : Ev → Option (St ρ)
  | .tick => some { s with now := s.now + 1 }
  | .call i reload =>
    match s.calls i with
    | some _ => none
    | none => some { s with calls := fun j => if j = i then some ⟨s.now, reload, s.ptr, .loaded⟩ else s.calls j }
  | .check i =>
    match s.calls i with
    | some ⟨t, r, o, .loaded⟩ =>
      some { s with calls := setPc s i ⟨t, r, o, .loaded⟩ (if expired w s || r then .need else .last) }
    | _ => none
  | .fetch i ok =>
    match s.calls i with
    | some ⟨t, r, o, .need⟩ =>
      match ok, w.wrap (w.hist s.now) with
      | true, some d => some { s with calls := setPc s i ⟨t, r, o, .need⟩ (.built (s.now, d)) }
      | _, _ => some { s with calls := setPc s i ⟨t, r, o, .need⟩ .failed }
    | _ => none
  | .swap i =>
    match s.calls i with
    | some ⟨t, r, o, .built b⟩ =>
      if s.ptr = o then
        some { s with ptr := s.ptr + 1, prov := some b, calls := setPc s i ⟨t, r, o, .built b⟩ (.swapped b.1) }
      else some { s with calls := setPc s i ⟨t, r, o, .built b⟩ .last }
    | _ => none
  | .clock i =>
    match s.calls i with
    | some ⟨t, r, o, .swapped τ⟩ =>
      some { s with calls := setPc s i ⟨t, r, o, .swapped τ⟩ (.timed τ (s.now / w.k)) }
    | _ => none
  | .store i =>
    match s.calls i with
    | some ⟨t, r, o, .timed τ v⟩ =>
      some { s with updatedAt := v, calls := setPc s i ⟨t, r, o, .timed τ v⟩ .last }
    | _ => none
  | .ret i =>
    match s.calls i with
    | some ⟨t, r, o, .last⟩ =>
      match s.prov with
      | some b => some { s with calls := setPc s i ⟨t, r, o, .last⟩ (.done b) }
      | none => some { s with calls := setPc s i ⟨t, r, o, .last⟩ .panicked }
    | _ => none

/-- A read of etcd is used within `D` ticks: the table is stored, and the clock read, no later than that. -/
def Timely (D : Nat) (s : St ρ) : Ev → Prop
  | .swap i => ∀ c b, s.calls i = some c → c.pc = .built b → s.now ≤ b.1 + D
  | .clock i => ∀ c τ, s.calls i = some c → c.pc = .swapped τ → s.now ≤ τ + D
  | _ => True

/-- Histories in which reads of etcd are used within `D` ticks. -/
inductive Steps (w : World σ ρ) (D : Nat) : St ρ → St ρ → Prop
  | refl (s : St ρ) : Steps w D s s
  | tail {s s' s'' : St ρ} (e : Ev) : Steps w D s s' → Timely D s' e → step w s' e = some s'' → Steps w D s s''

end Verif.Meta.Route
