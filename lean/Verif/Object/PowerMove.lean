import Verif.Object.PowerProps

/-!
# Shards that move while servers lose power (C139)

Models the files of the two data servers while one shard moves from one to the other: `writeStream`, `sendFileTo`, the deletion in `SendingTo`,
`FinishObject` and `OpenFile`, src/objectserver/internal/usecase/service/migration_service.go:94-160, 208-226, 265-279, 318-337, and `ReceiveData`,
src/objectserver/internal/controller/grpc/migration_server.go:30-63, over the kernel of `Verif.Object.Power`.  The receiver writes under the final
name and never calls `Sync`; its file is never closed either (line 33 closes what `file` was then, nil), which changes nothing here.

Simplified: one sender and one stream at a time, a new stream ends the one before; the records of the metadata servers are C68, empty files C68 too
(`writeStream` does not end for them), the answers of the receiver that get lost are a sender that does not go on.
-/

namespace Verif.Object.PowerMove

open Verif Verif.Object.Power

/-! ## Model -/

/-- The two servers, and where the transfer is. -/
structure Mv (α : Type) where
  snd : St α
  rcv : St α
  /-- `info.Size()`, read when the transfer starts, migration_service.go:212 -/
  size : Nat := 0
  /-- the file `ReceiveData` has open, and what was not sent yet -/
  stream : Option (Nat × List α) := none
  /-- `writeStream` returned without error -/
  sent : Bool := false
  /-- `FinishReceive` answered with success -/
  ok : Bool := false

/-- What the kernel does. -/
inductive Kev
  | kdata (i k : Nat)
  | kentry (n : Nm)
  | kdir
  | kall
  | power

def Kev.ev {α : Type} : Kev → Ev α
  | .kdata i k => .kdata i k
  | .kentry n => .kentry n
  | .kdir => .kdir
  | .kall => .kall
  | .power => .power

inductive Mev
  | atSender (e : Kev)
  | atReceiver (e : Kev)
  /-- the first piece arrives -/
  | start
  | write (k : Nat)
  | close
  | finish
  /-- the sender deletes its file -/
  | unlink

/-- `OpenFile` at the receiver, migration_service.go:318-337: a file of this size is taken for the shard, any other is replaced. -/
def openFile {α : Type} (r : St α) (n : Str) (size : Nat) : Option Nat × St α :=
  match r.live (.obj n) with
  | none => (some r.next, create r (.obj n))
  | some j => if (r.ino j).data.length = size then (none, r) else (some r.next, create r (.obj n))

/-- The part of `FinishObject` that looks at the file, migration_service.go:267-277. -/
def sizeFits {α : Type} (r : St α) (n : Str) (size : Nat) : Bool :=
  match r.live (.obj n) with
  | none => false
  | some j => (r.ino j).data.length == size

/-- `sync` is false for the code as it is; true makes `FinishObject` write the file and its name back before it answers. -/
def mstep {α : Type} (sync : Bool) (n : Str) (m : Mv α) : Mev → Mv α
  -- a sender that stopped does not go on with the transfer; a connection does not outlive either server
  | .atSender .power => { m with snd := step false m.snd .power, stream := none, sent := false, ok := false }
  | .atSender e => { m with snd := step false m.snd e.ev }
  -- `FinishReceive` is another request over a connection that is made again: `sent` stays
  | .atReceiver .power => { m with rcv := step false m.rcv .power, stream := none }
  | .atReceiver e => { m with rcv := step false m.rcv e.ev }
  | .start =>
    match read m.snd n with
    | none => m
    | some c =>
      match openFile m.rcv n c.length with
      | (none, r) => { m with rcv := r, size := c.length, stream := none, sent := true, ok := false }
      | (some j, r) => { m with rcv := r, size := c.length, stream := some (j, c), sent := false, ok := false }
  | .write k =>
    match m.stream with
    | none => m
    | some (j, rest) => { m with rcv := append m.rcv j (rest.take k), stream := some (j, rest.drop k) }
  | .close =>
    match m.stream with
    | some (_, []) => { m with stream := none, sent := true }
    | _ => m
  | .finish =>
    if m.sent && sizeFits m.rcv n m.size then
      match m.rcv.live (.obj n) with
      | none => m
      | some j => { m with rcv := if sync then fsync m.rcv (.obj n) j else m.rcv, ok := true }
    else m
  -- `Delete`, migration_service.go:217-226
  | .unlink => if m.ok then { m with snd := step false m.snd (.del n), ok := false, sent := false } else m

def mrun {α : Type} (sync : Bool) (n : Str) (m : Mv α) (es : List Mev) : Mv α := es.foldl (mstep sync n) m

/-! ## Specification -/

/-- The content is read at one of the servers. -/
def Safe {α : Type} (n : Str) (c : List α) (m : Mv α) : Prop := read m.snd n = some c ∨ read m.rcv n = some c

/-- Where a transfer can start: the shard is on the drive of the sender; the receiver has nothing under its name, or beginnings of it
(`C132_short`). -/
structure Ready {α : Type} (n : Str) (c : List α) (m : Mv α) : Prop where
  here : ∃ i, m.snd.live (.obj n) = some i ∧ m.snd.disk (.obj n) = some i ∧ (m.snd.ino i).data = c ∧ (m.snd.ino i).disk = c
  wf : Wf m.rcv
  there : ∀ j, m.rcv.live (.obj n) = some j ∨ m.rcv.disk (.obj n) = some j → (m.rcv.ino j).data <+: c ∧ (m.rcv.ino j).disk <+: c
  idle : m.stream = none ∧ m.sent = false ∧ m.ok = false

/-- **C139** A shard that is on the drive of a data server is not lost by moving it, whatever the kernels write back and whichever server loses
power. -/
def Statement : Prop := ∀ (n : Str) (c : List Nat) (m : Mv Nat) (es : List Mev), Ready n c m → Safe n c (mrun false n m es)

/-! ## Invariants -/

structure SndOk {α : Type} (n : Str) (c : List α) (i : Nat) (s : St α) : Prop where
  data : (s.ino i).data = c
  ondisk : (s.ino i).disk = c
  live : s.live (.obj n) = none ∨ s.live (.obj n) = some i
  disk : s.disk (.obj n) = none ∨ s.disk (.obj n) = some i
  both : s.live (.obj n) = some i → s.disk (.obj n) = some i

structure RcvOk {α : Type} (n : Str) (c : List α) (m : Mv α) : Prop where
  wlive : ∀ a j, m.rcv.live a = some j → j < m.rcv.next
  wdisk : ∀ a j, m.rcv.disk a = some j → j < m.rcv.next
  named : ∀ j, m.rcv.live (.obj n) = some j ∨ m.rcv.disk (.obj n) = some j → (m.rcv.ino j).data <+: c ∧ (m.rcv.ino j).disk <+: c
  stream : ∀ j rest, m.stream = some (j, rest) → m.rcv.live (.obj n) = some j ∧ (m.rcv.ino j).data ++ rest = c ∧ m.size = c.length
  sent : m.sent = true → m.size = c.length

/-- The receiver has it. -/
def Whole {α : Type} (n : Str) (c : List α) (s : St α) : Prop := ∃ j, s.live (.obj n) = some j ∧ (s.ino j).data = c

/-- The receiver has it on the drive. -/
def Firm {α : Type} (n : Str) (c : List α) (s : St α) : Prop :=
  ∃ j, s.live (.obj n) = some j ∧ s.disk (.obj n) = some j ∧ (s.ino j).data = c ∧ (s.ino j).disk = c

theorem take_max {α : Type} (c : List α) (k : Nat) : c.take (max k c.length) = c := List.take_of_length_le (by omega)

theorem snd_kernel {α : Type} {n : Str} {c : List α} {i : Nat} {s : St α} (h : SndOk n c i s) (e : Kev) : SndOk n c i (step false s e.ev) := by
  obtain ⟨h1, h2, h3, h4, h5⟩ := h
  have ht := take_max c
  cases e <;> simp only [Kev.ev, step, Ino.back] <;> constructor <;> grind [upd]

theorem snd_live {α : Type} {n : Str} {c : List α} {i : Nat} {s : St α} (h : SndOk n c i s) (e : Kev) (hl : s.live (.obj n) = some i) :
    (step false s e.ev).live (.obj n) = some i := by
  obtain ⟨h1, h2, h3, h4, h5⟩ := h
  cases e <;> simp only [Kev.ev, step] <;> grind [upd]

theorem snd_step {α : Type} (sync : Bool) {n : Str} {c : List α} {i : Nat} {m : Mv α} (h : SndOk n c i m.snd) (e : Mev) :
    SndOk n c i (mstep sync n m e).snd := by
  cases e with
  | atSender e =>
    cases e with
    | power => exact snd_kernel h .power
    | kdata a b => exact snd_kernel h (.kdata a b)
    | kentry a => exact snd_kernel h (.kentry a)
    | kdir => exact snd_kernel h .kdir
    | kall => exact snd_kernel h .kall
  | unlink =>
    unfold mstep
    obtain ⟨h1, h2, h3, h4, h5⟩ := h
    dsimp only
    split
    · simp only [step]; constructor <;> grind [upd]
    · constructor <;> assumption
  | atReceiver e => cases e <;> exact h
  | _ => unfold mstep; dsimp only; (repeat' split) <;> exact h

theorem snd_stays {α : Type} (sync : Bool) {n : Str} {c : List α} {i : Nat} {m : Mv α} (h : SndOk n c i m.snd) (hl : m.snd.live (.obj n) = some i)
    (e : Mev) (he : e ≠ .unlink) : (mstep sync n m e).snd.live (.obj n) = some i := by
  cases e with
  | atSender e =>
    cases e with
    | power => exact snd_live h .power hl
    | kdata a b => exact snd_live h (.kdata a b) hl
    | kentry a => exact snd_live h (.kentry a) hl
    | kdir => exact snd_live h .kdir hl
    | kall => exact snd_live h .kall hl
  | unlink => exact absurd rfl he
  | atReceiver e => cases e <;> exact hl
  | _ => unfold mstep; dsimp only; (repeat' split) <;> exact hl

theorem read_snd {α : Type} {n : Str} {c d : List α} {i : Nat} {s : St α} (h : SndOk n c i s) (hr : read s n = some d) : d = c := by
  obtain ⟨h1, h2, h3, h4, h5⟩ := h
  unfold Power.read at hr
  grind

theorem rcv_start {α : Type} {n : Str} {c : List α} {m : Mv α} (h : RcvOk n c m) (r : St α) (o : Option Nat)
    (ho : openFile m.rcv n c.length = (o, r)) :
    (o = none → r = m.rcv ∧ Whole n c m.rcv) ∧
    (∀ j, o = some j → ¬ Whole n c m.rcv ∧ j = m.rcv.next ∧ r = create m.rcv (.obj n)) := by
  obtain ⟨h1, h2, h3, h4, h5⟩ := h
  unfold openFile at ho
  unfold Whole
  split at ho
  · grind
  · rename_i j hj
    have hp := (h3 j (.inl hj)).1
    split at ho
    · rename_i hlen
      have := hp.eq_of_length hlen
      grind
    · grind

theorem rcv_step {α : Type} (sync : Bool) {n : Str} {c : List α} {i : Nat} {m : Mv α} (hs : SndOk n c i m.snd) (h : RcvOk n c m) (e : Mev) :
    RcvOk n c (mstep sync n m e) := by
  have h0 := h
  obtain ⟨h1, h2, h3, h4, h5⟩ := h
  cases e with
  | atSender e =>
    cases e <;> (unfold mstep; constructor <;> grind [upd])
  | atReceiver e =>
    have hpre : ∀ (l : List α) k, l <+: c → l.take k <+: c := fun l k hl => (List.take_prefix k l).trans hl
    cases e <;> (simp only [mstep, Kev.ev, step, Ino.back]; constructor <;> grind [upd])
  | start =>
    unfold mstep
    dsimp only
    split
    · exact h0
    · rename_i d hd
      have := read_snd hs hd
      subst this
      split
      · rename_i r ho
        have := (rcv_start h0 r none ho).1 rfl
        rw [this.1]
        constructor <;> grind [upd]
      · rename_i j r ho
        obtain ⟨_, rfl, rfl⟩ := (rcv_start h0 r _ ho).2 j rfl
        simp only [create]
        constructor <;> grind [upd]
  | write k =>
    unfold mstep
    dsimp only
    split
    · exact h0
    · rename_i j rest hst
      obtain ⟨a1, a2, a3⟩ := h4 j rest hst
      have hd := List.take_append_drop k rest
      have hp : (m.rcv.ino j).data ++ rest.take k <+: c := ⟨rest.drop k, by rw [List.append_assoc, hd, a2]⟩
      simp only [append]
      constructor <;> grind [upd]
  | close =>
    unfold mstep
    dsimp only
    split
    · constructor <;> grind [upd]
    · exact h0
  | finish =>
    unfold mstep
    dsimp only
    split
    · split
      · exact h0
      · cases sync
        · constructor <;> grind [upd]
        · simp only [fsync, ↓reduceIte]
          constructor <;> grind [upd]
    · exact h0
  | unlink =>
    unfold mstep
    dsimp only
    split <;> constructor <;> grind [upd]

/-- A file of the right size is the whole. -/
theorem whole_of_size {α : Type} {n : Str} {c : List α} {m : Mv α} (h : RcvOk n c m) (hs : m.sent = true) (hz : sizeFits m.rcv n m.size = true) :
    Whole n c m.rcv := by
  unfold sizeFits at hz
  split at hz
  · cases hz
  · rename_i j hj
    refine ⟨j, hj, (h.named j (.inl hj)).1.eq_of_length ?_⟩
    rw [← h.sent hs]
    simpa using hz

theorem whole_step {α : Type} (sync : Bool) {n : Str} {c : List α} {i : Nat} {m : Mv α} (hs : SndOk n c i m.snd) (h : RcvOk n c m) (hw : Whole n c m.rcv)
    (e : Mev) (he : e ≠ .atReceiver .power) : Whole n c (mstep sync n m e).rcv := by
  obtain ⟨j, hj, hc⟩ := hw
  cases e with
  | atSender e => cases e <;> exact ⟨j, hj, hc⟩
  | atReceiver e =>
    cases e with
    | power => exact absurd rfl he
    | _ => simp only [mstep, Kev.ev, step, Ino.back]; refine ⟨j, ?_, ?_⟩ <;> grind [upd]
  | start =>
    unfold mstep
    dsimp only
    split
    · exact ⟨j, hj, hc⟩
    · rename_i d hd
      have := read_snd hs hd
      subst this
      split
      · rename_i r ho
        rw [((rcv_start h r none ho).1 rfl).1]
        exact ⟨j, hj, hc⟩
      · rename_i k r ho
        exact absurd ⟨j, hj, hc⟩ ((rcv_start h r _ ho).2 k rfl).1
  | write k =>
    unfold mstep
    dsimp only
    split
    · exact ⟨j, hj, hc⟩
    · rename_i j' rest hst
      obtain ⟨a1, a2, a3⟩ := h.stream j' rest hst
      have : j' = j := by rw [hj] at a1; exact (Option.some.inj a1).symm
      subst this
      have : rest = [] := by
        rw [hc] at a2
        exact List.append_cancel_left (a2.trans (List.append_nil c).symm)
      subst this
      refine ⟨j', ?_, ?_⟩ <;> simp [append, upd, hj, hc]
  | close => unfold mstep; dsimp only; split <;> exact ⟨j, hj, hc⟩
  | finish =>
    unfold mstep
    dsimp only
    split
    · split
      · exact ⟨j, hj, hc⟩
      · cases sync
        · exact ⟨j, hj, hc⟩
        · refine ⟨j, ?_, ?_⟩ <;> simp only [fsync, ↓reduceIte] <;> grind [upd]
    · exact ⟨j, hj, hc⟩
  | unlink => unfold mstep; dsimp only; split <;> exact ⟨j, hj, hc⟩

theorem firm_step {α : Type} (sync : Bool) {n : Str} {c : List α} {i : Nat} {m : Mv α} (hs : SndOk n c i m.snd) (h : RcvOk n c m) (hw : Firm n c m.rcv)
    (e : Mev) : Firm n c (mstep sync n m e).rcv := by
  obtain ⟨j, hj, hd, hc, hk⟩ := hw
  have ht := take_max c
  cases e with
  | atSender e => cases e <;> exact ⟨j, hj, hd, hc, hk⟩
  | atReceiver e =>
    cases e <;> (simp only [mstep, Kev.ev, step, Ino.back]; refine ⟨j, ?_, ?_, ?_, ?_⟩ <;> grind [upd])
  | start =>
    unfold mstep
    dsimp only
    split
    · exact ⟨j, hj, hd, hc, hk⟩
    · rename_i d hd'
      have := read_snd hs hd'
      subst this
      split
      · rename_i r ho
        rw [((rcv_start h r none ho).1 rfl).1]
        exact ⟨j, hj, hd, hc, hk⟩
      · rename_i k r ho
        exact absurd ⟨j, hj, hc⟩ ((rcv_start h r _ ho).2 k rfl).1
  | write k =>
    unfold mstep
    dsimp only
    split
    · exact ⟨j, hj, hd, hc, hk⟩
    · rename_i j' rest hst
      obtain ⟨a1, a2, a3⟩ := h.stream j' rest hst
      have : j' = j := by rw [hj] at a1; exact (Option.some.inj a1).symm
      subst this
      have : rest = [] := by
        rw [hc] at a2
        exact List.append_cancel_left (a2.trans (List.append_nil c).symm)
      subst this
      refine ⟨j', ?_, ?_, ?_, ?_⟩ <;> simp [append, upd, hj, hd, hc, hk]
  | close => unfold mstep; dsimp only; split <;> exact ⟨j, hj, hd, hc, hk⟩
  | finish =>
    unfold mstep
    dsimp only
    split
    · split
      · exact ⟨j, hj, hd, hc, hk⟩
      · cases sync
        · exact ⟨j, hj, hd, hc, hk⟩
        · refine ⟨j, ?_, ?_, ?_, ?_⟩ <;> simp only [fsync, ↓reduceIte] <;> grind [upd]
    · exact ⟨j, hj, hd, hc, hk⟩
  | unlink => unfold mstep; dsimp only; split <;> exact ⟨j, hj, hd, hc, hk⟩

/-- `ok` is set by `finish` only. -/
theorem ok_step {α : Type} (sync : Bool) {n : Str} {m : Mv α} (e : Mev) (ho : (mstep sync n m e).ok = true) :
    m.ok = true ∨ (e = .finish ∧ m.sent = true ∧ sizeFits m.rcv n m.size = true) := by
  cases e with
  | atSender e => cases e <;> simp_all [mstep]
  | atReceiver e => cases e <;> simp_all [mstep]
  | finish =>
    unfold mstep at ho
    dsimp only at ho
    split at ho
    · rename_i hb; simp at hb; exact .inr ⟨rfl, hb⟩
    · exact .inl ho
  | unlink => unfold mstep at ho; dsimp only at ho; split at ho <;> simp_all
  | _ => unfold mstep at ho; dsimp only at ho; (repeat' split at ho) <;> simp_all

/-! ## Theorems -/

theorem ready_ok {α : Type} {n : Str} {c : List α} {m : Mv α} (h : Ready n c m) :
    (∃ i, SndOk n c i m.snd ∧ m.snd.live (.obj n) = some i) ∧ RcvOk n c m := by
  obtain ⟨⟨i, a1, a2, a3, a4⟩, hw, ht, b1, b2, b3⟩ := h
  exact ⟨⟨i, ⟨a3, a4, .inr a1, .inr a2, fun _ => a2⟩, a1⟩, ⟨hw.live, hw.disk, ht, by simp [b1], by simp [b2]⟩⟩

theorem keeps_run {α : Type} (sync : Bool) {n : Str} {c : List α} {i : Nat} (es : List Mev) : ∀ {m : Mv α}, SndOk n c i m.snd → RcvOk n c m →
    SndOk n c i (mrun sync n m es).snd ∧ RcvOk n c (mrun sync n m es) := by
  induction es with
  | nil => intro m a b; exact ⟨a, b⟩
  | cons e es ih => intro m a b; exact ih (snd_step sync a e) (rcv_step sync a b e)

theorem stays_run {α : Type} (sync : Bool) {n : Str} {c : List α} {i : Nat} (es : List Mev) : ∀ {m : Mv α}, SndOk n c i m.snd →
    m.snd.live (.obj n) = some i → (∀ e ∈ es, e ≠ .unlink) → (mrun sync n m es).snd.live (.obj n) = some i := by
  induction es with
  | nil => intro m _ b _; exact b
  | cons e es ih =>
    intro m a b he
    exact ih (snd_step sync a e) (snd_stays sync a b e (he e (by simp))) (fun x hx => he x (by simp [hx]))

theorem run_append {α : Type} (sync : Bool) (n : Str) (m : Mv α) (xs ys : List Mev) :
    mrun sync n m (xs ++ ys) = mrun sync n (mrun sync n m xs) ys := List.foldl_append

/-- **C139** Until the sender deletes its file nothing is lost, whoever loses power and however often. -/
theorem C139_until_deleted {α : Type} (n : Str) (c : List α) (m : Mv α) (es : List Mev) (h : Ready n c m) (he : ∀ e ∈ es, e ≠ .unlink) :
    read (mrun false n m es).snd n = some c := by
  obtain ⟨⟨i, hs, hl⟩, hr⟩ := ready_ok h
  have h1 := stays_run false es hs hl he
  have h2 := (keeps_run false es hs hr).1.data
  unfold Power.read
  rw [h1]
  simp only [Option.map_some, h2]

/-- **C139** When the receiver answers that it has the shard, it has all of it: after any losses of power in between too. -/
theorem C139_answer {α : Type} (n : Str) (c : List α) (m : Mv α) (es : List Mev) (h : Ready n c m) (hb : (mrun false n m es).ok = false)
    (ha : (mrun false n m (es ++ [.finish])).ok = true) : read (mrun false n m (es ++ [.finish])).rcv n = some c := by
  obtain ⟨⟨i, hs, hl⟩, hr⟩ := ready_ok h
  obtain ⟨k1, k2⟩ := keeps_run false es hs hr
  rw [run_append] at ha ⊢
  rcases ok_step false .finish ha with h' | ⟨_, h1, h2⟩
  · rw [hb] at h'; cases h'
  · obtain ⟨j, hj, hc⟩ := whole_step false k1 k2 (whole_of_size k2 h1 h2) .finish (by simp)
    unfold mrun at hj hc ⊢
    unfold Power.read
    simp only [List.foldl_cons, List.foldl_nil]
    rw [hj]
    simp only [Option.map_some, hc]

theorem safe_run {α : Type} {n : Str} {c : List α} {i : Nat} (es : List Mev) : ∀ {m : Mv α}, SndOk n c i m.snd → RcvOk n c m →
    (m.snd.live (.obj n) = some i ∨ Whole n c m.rcv) → (m.ok = true → Whole n c m.rcv) → (∀ e ∈ es, e ≠ .atReceiver .power) →
    (mrun false n m es).snd.live (.obj n) = some i ∨ Whole n c (mrun false n m es).rcv := by
  induction es with
  | nil => intro m _ _ a _ _; exact a
  | cons e es ih =>
    intro m hs hr ha ho he
    have he1 := he e (by simp)
    refine ih (snd_step false hs e) (rcv_step false hs hr e) ?_ ?_ (fun x hx => he x (by simp [hx]))
    · rcases ha with ha | ha
      · by_cases hu : e = .unlink
        · subst hu
          by_cases hk : m.ok = true
          · exact .inr (whole_step false hs hr (ho hk) _ he1)
          · left
            unfold mstep
            simp only [hk, Bool.false_eq_true, ↓reduceIte]
            exact ha
        · exact .inl (snd_stays false hs ha e hu)
      · exact .inr (whole_step false hs hr ha e he1)
    · intro hk
      rcases ok_step false e hk with hk | ⟨_, h1, h2⟩
      · exact whole_step false hs hr (ho hk) e he1
      · exact whole_step false hs hr (whole_of_size hr h1 h2) e he1

/-- **C139** (partial) What is missing: losses of power at the receiver after its answer.  The receiver may lose power before it answered, the sender
at any time. -/
theorem C139_before_answer_partial {α : Type} (n : Str) (c : List α) (m : Mv α) (pre es : List Mev) (h : Ready n c m) (hp : ∀ e ∈ pre, e ≠ .unlink)
    (hk : (mrun false n m pre).ok = false) (he : ∀ e ∈ es, e ≠ .atReceiver .power) : Safe n c (mrun false n m (pre ++ es)) := by
  obtain ⟨⟨i, hs, hl⟩, hr⟩ := ready_ok h
  obtain ⟨k1, k2⟩ := keeps_run false pre hs hr
  have hl' := stays_run false pre hs hl hp
  have hd := (keeps_run false es k1 k2).1.data
  rw [run_append]
  rcases safe_run es k1 k2 (.inl hl') (by simp [hk]) he with h1 | ⟨j, h1, h2⟩
  · left; unfold Power.read; rw [h1]; simp only [Option.map_some, hd]
  · right; unfold Power.read; rw [h1]; simp only [Option.map_some, h2]

/-- **C139** (partial) The same after any losses of power before the last attempt: an attempt does not rely on answers to earlier ones. -/
theorem C139_again_partial {α : Type} (n : Str) (c : List α) (m : Mv α) (pre es : List Mev) (h : Ready n c m) (hp : ∀ e ∈ pre, e ≠ .unlink)
    (he : ∀ e ∈ es, e ≠ .atReceiver .power) : Safe n c (mrun false n m (pre ++ .start :: es)) := by
  have hr := C139_until_deleted n c m pre h hp
  have hk : (mrun false n m (pre ++ [.start])).ok = false := by
    rw [run_append]
    change (mstep false n (mrun false n m pre) .start).ok = false
    unfold mstep
    dsimp only
    rw [hr]
    dsimp only
    split <;> rfl
  have := C139_before_answer_partial n c m (pre ++ [.start]) es h (by grind) hk he
  simpa using this

theorem firm_run {α : Type} (sync : Bool) {n : Str} {c : List α} {i : Nat} (es : List Mev) : ∀ {m : Mv α}, SndOk n c i m.snd → RcvOk n c m →
    Firm n c m.rcv → Firm n c (mrun sync n m es).rcv := by
  induction es with
  | nil => intro m _ _ a; exact a
  | cons e es ih => intro m hs hr ha; exact ih (snd_step sync hs e) (rcv_step sync hs hr e) (firm_step sync hs hr ha e)

/-- **C139** Once the kernel of the receiver wrote back the file and its name, the shard stays there, whatever happens. -/
theorem C139_written_back {α : Type} (n : Str) (c : List α) (m : Mv α) (pre es : List Mev) (h : Ready n c m)
    (hw : read (mrun false n m pre).rcv n = some c) : read (mrun false n m (pre ++ [.atReceiver .kall] ++ es)).rcv n = some c := by
  obtain ⟨⟨i, hs, hl⟩, hr⟩ := ready_ok h
  obtain ⟨k1, k2⟩ := keeps_run false pre hs hr
  obtain ⟨j, hj, hc⟩ := Option.map_eq_some_iff.1 hw
  have hf : Firm n c (mstep false n (mrun false n m pre) (.atReceiver .kall)).rcv := ⟨j, hj, hj, hc, hc⟩
  rw [run_append, run_append]
  obtain ⟨j, h1, _, h2, _⟩ := firm_run false es (snd_step false k1 (.atReceiver .kall)) (rcv_step false k1 k2 (.atReceiver .kall)) hf
  change (((mrun false n (mstep false n (mrun false n m pre) (.atReceiver .kall)) es).rcv.live (.obj n)).map fun i => _) = _
  rw [h1]
  simp only [Option.map_some]
  exact congrArg some h2

theorem sync_run {α : Type} {n : Str} {c : List α} {i : Nat} (es : List Mev) : ∀ {m : Mv α}, SndOk n c i m.snd → RcvOk n c m →
    (m.snd.live (.obj n) = some i ∨ Firm n c m.rcv) → (m.ok = true → Firm n c m.rcv) →
    (mrun true n m es).snd.live (.obj n) = some i ∨ Firm n c (mrun true n m es).rcv := by
  induction es with
  | nil => intro m _ _ a _; exact a
  | cons e es ih =>
    intro m hs hr ha ho
    refine ih (snd_step true hs e) (rcv_step true hs hr e) ?_ ?_
    · rcases ha with ha | ha
      · by_cases hu : e = .unlink
        · subst hu
          by_cases hk : m.ok = true
          · exact .inr (firm_step true hs hr (ho hk) _)
          · left
            unfold mstep
            simp only [hk, Bool.false_eq_true, ↓reduceIte]
            exact ha
        · exact .inl (snd_stays true hs ha e hu)
      · exact .inr (firm_step true hs hr ha e)
    · intro hk
      rcases ok_step true e hk with hk | ⟨rfl, h1, h2⟩
      · exact firm_step true hs hr (ho hk) e
      · obtain ⟨j, hj, hc⟩ := whole_of_size hr h1 h2
        unfold mstep
        simp only [h1, h2, Bool.and_self, ↓reduceIte, hj, fsync]
        refine ⟨j, ?_, ?_, ?_, ?_⟩ <;> simp [hj, hc, upd]

/-- **C139** With the file and its name written back before `FinishObject` answers the statement holds. -/
theorem C139_repair {α : Type} (n : Str) (c : List α) (m : Mv α) (es : List Mev) (h : Ready n c m) : Safe n c (mrun true n m es) := by
  obtain ⟨⟨i, hs, hl⟩, hr⟩ := ready_ok h
  have hd := (keeps_run true es hs hr).1.data
  rcases sync_run es hs hr (.inl hl) (by simp [h.idle.2.2]) with h1 | ⟨j, h1, _, h2, _⟩
  · left; unfold Power.read; rw [h1]; simp only [Option.map_some, hd]
  · right; unfold Power.read; rw [h1]; simp only [Option.map_some, h2]

/-! ## The statement fails -/

/-- A server that has the shard on its drive, and one that has nothing. -/
def sample : Mv Nat :=
  { snd := run false {} [.post "h.0".toList, .patch 0 [1, 2], .commit 0, .kall], rcv := {} }

theorem sample_ready : Ready "h.0".toList [1, 2] sample :=
  ⟨⟨0, by decide, by decide, by decide, by decide⟩, wf_init, by intro j h; simp [sample] at h, by decide⟩

def move : List Mev := [.start, .write 1, .write 9, .close, .finish, .unlink]

/-- **C139** The shard was on the drive of the sender; the receiver loses power after the move, and no server has it. -/
theorem C139_lost : read sample.snd "h.0".toList = some [1, 2] ∧ read (mrun false "h.0".toList sample move).rcv "h.0".toList = some [1, 2] ∧
    read (mrun false "h.0".toList sample (move ++ [.atSender .kall, .atReceiver .power])).snd "h.0".toList = none ∧
    read (mrun false "h.0".toList sample (move ++ [.atSender .kall, .atReceiver .power])).rcv "h.0".toList = none := by decide

/-- **C139** The same when the power is lost between the answer and the deletion, and only the name was written back: an empty file is left. -/
theorem C139_between :
    read (mrun false "h.0".toList sample [.start, .write 2, .close, .finish, .atReceiver .kdir, .atReceiver .power, .unlink]).snd "h.0".toList = none ∧
    read (mrun false "h.0".toList sample [.start, .write 2, .close, .finish, .atReceiver .kdir, .atReceiver .power, .unlink]).rcv "h.0".toList =
      some [] := by decide

theorem C139_statement_fails : ¬ Statement := by
  intro h
  rcases h _ _ sample (move ++ [.atSender .kall, .atReceiver .power]) sample_ready with h | h
  · rw [C139_lost.2.2.1] at h; cases h
  · rw [C139_lost.2.2.2] at h; cases h

/-! ## Non-vacuity -/

/-- The receiver loses power while it writes; the size does not fit and the shard stays; the next attempt succeeds. -/
example : let pre := [.start, .write 1, .atReceiver .kall, .atReceiver .power, .finish]
    (mrun false "h.0".toList sample pre).ok = false ∧ read (mrun false "h.0".toList sample pre).rcv "h.0".toList = some [1] ∧
    read (mrun false "h.0".toList sample (pre ++ move)).rcv "h.0".toList = some [1, 2] ∧
    read (mrun false "h.0".toList sample (pre ++ move)).snd "h.0".toList = none := by decide

/-- The receiver lost power after an answer that the sender did not act upon, and the next attempt is on its way. -/
example : let pre := [.start, .write 2, .close, .finish, .atReceiver .power]
    (mrun false "h.0".toList sample pre).ok = true ∧ read (mrun false "h.0".toList sample pre).rcv "h.0".toList = none ∧
    read (mrun false "h.0".toList sample (pre ++ [.start, .unlink])).snd "h.0".toList = some [1, 2] := by decide

/-- A shard that came back after the sender lost power is sent again and found to be there. -/
example : let es := move ++ [.atSender .power, .start, .finish]
    read (mrun false "h.0".toList sample es).snd "h.0".toList = some [1, 2] ∧ (mrun false "h.0".toList sample es).ok = true ∧
    (mrun false "h.0".toList sample es).stream = none := by decide

example : Safe "h.0".toList [1, 2] (mrun true "h.0".toList sample (move ++ [.atSender .kall, .atReceiver .power])) :=
  C139_repair _ _ _ _ sample_ready

end Verif.Object.PowerMove
