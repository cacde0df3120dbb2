import Verif.Object.DataServer
import Verif.Api.Store

/-!
# Files under direct I/O (C114)

Models `GetFile` and `AppendFileAligned` (src/objectserver/internal/usecase/service/objects_service.go:127-152,
229-237), the readers of src/common/system/disk/aligend_reader.go and `DisableDirectIO`
(src/common/system/disk/direct_io_unix.go:37-47) as a sequence of calls to the kernel, which refuses calls on
files opened with `O_DIRECT` that are not aligned.  In `Verif.Object.Disk` and `Verif.Object.DataServer` the
kernel accepts every call.
-/

namespace Verif.Object.Direct

/-- The result of a call that copies a file to a client, with what the client got. -/
inductive Out
  | ok (b : Bytes)
  | inval (b : Bytes)
  | panic (b : Bytes)
  | stuck
  deriving DecidableEq

/-- One call of `read(2)` or `write(2)`. -/
structure Call where
  direct : Bool
  pos : Nat
  len : Nat
  addr : Nat
  deriving DecidableEq

/-- The rule of open(2) for `O_DIRECT`: position, length and address are multiples of the block size `L` of
the device (512 or 4096). -/
def Call.refused (L : Nat) (c : Call) : Bool :=
  c.direct && (c.pos % L != 0 || c.len % L != 0 || c.addr % L != 0)

/-- `read(2)` on a regular file: as much as is asked for, less only at the end of the file.  `none`:
`EINVAL`. -/
def kread (L : Nat) (f : Bytes) (c : Call) : Option Bytes :=
  if c.refused L then none else some ((f.drop c.pos).take c.len)

/-- `io.CopyBuffer` with the limited reader of aligend_reader.go:53-68: `N` bytes are still to be copied, the
file is at `pos`, the buffer has length `blen`, capacity `cap` and address `addr`.  (The destination is gin's
writer, or an `io.MultiWriter`; neither has `ReadFrom`, so the given buffer is used.) -/
def copyLoop (L : Nat) (f : Bytes) (direct : Bool) (blen cap addr : Nat) : Nat → Nat → Nat → Bytes → Out
  | 0, _, _, _ => .stuck
  | fuel + 1, pos, N, out =>
    if N = 0 then .ok out
    else if cap < limLen N blen then .panic out
    else
      match kread L f ⟨direct, pos, limLen N blen, addr⟩ with
      | none => .inval out
      | some b =>
        if b = [] then .ok out
        else copyLoop L f direct blen cap addr fuel (pos + b.length) (N - min b.length N)
          (out ++ b.take (min b.length N))

/-- `GetFile`, objects_service.go:127-152.  `L`: block size of the device; `page`: the page at which
`AlignedBlock` begins the buffer; `lost`: how many of the 4096 additional bytes it allocates lie before it.  A
negative size panics in `AlignedBlock`; the size 0 is refused by the handlers (`binding:"required"`), and would
panic in `io.CopyBuffer`. -/
def getFile (L page lost : Nat) (f : Bytes) (off : Nat) (size : Int) : Out :=
  if size ≤ 0 then .panic []
  else
    let n := size.toNat
    let B := min n (8 * pageSize)
    copyLoop L f (off % pageSize == 0) B (B + (pageSize - lost)) (page * pageSize) (n + 1) off n []

/-- Writing under direct I/O: `io.CopyBuffer` of the padded reader (aligend_reader.go:36-46), one write for
every piece read, at the end of the file (`O_APPEND`).  Result: the file, the calls, and whether one was
refused or the source failed. -/
def writeLoop (L addr : Nat) : List Nat → Src → Bytes → Bytes × List Call × Bool
  | [], _, f => (f, [], false)
  | n :: ns, s, f =>
    let r := padRead s n
    let c : Call := ⟨true, f.length, r.1.length, addr⟩
    if r.1 = [] then (f, [], r.2.1 == some .fail)
    else if c.refused L then (f, [c], true)
    else
      match r.2.1 with
      | some e => (f ++ r.1, [c], e == .fail)
      | none => let w := writeLoop L addr ns r.2.2 (f ++ r.1); (w.1, c :: w.2.1, w.2.2)

/-- `AppendFileAligned`, objects_service.go:229-237.  `addr`: the address of the buffer, which is not the one
that the code aligns but one that `os.File.ReadFrom` allocates, with 32 KB. -/
def appendFile (L addr B : Nat) (f : Bytes) (body : Src) : Bytes × List Call × Bool :=
  writeLoop L addr (passes B body.data.length) body f

/-- A file after a sequence of requests that append to it, and all calls. -/
def appendAll (L addr B : Nat) : List Src → Bytes → Bytes × List Call
  | [], f => (f, [])
  | s :: ss, f =>
    let r := appendFile L addr B f s
    let t := appendAll L addr B ss r.1
    (t.1, r.2.1 ++ t.2)

/-! ## What is to be shown -/

/-- The kernel accepts the call. -/
def Accepted (L : Nat) (c : Call) : Prop :=
  c.direct = true → L ∣ c.pos ∧ L ∣ c.len ∧ L ∣ c.addr

/-- Every part of a stored file can be read. -/
def C114_statement : Prop :=
  ∀ (L page lost : Nat) (f : Bytes) (off size : Nat), L ∣ pageSize → pageSize ∣ f.length →
    0 < size → off + size ≤ f.length → getFile L page lost f off size = .ok ((f.drop off).take size)

theorem refused_iff (L : Nat) (c : Call) : c.refused L = false ↔ Accepted L c := by
  unfold Call.refused Accepted
  cases c.direct <;> simp [Nat.dvd_iff_mod_eq_zero, and_assoc]

/-! ## Reading -/

/-- The loop, if no call is refused and the file is long enough. -/
theorem copyLoop_ok {L : Nat} {f : Bytes} {direct : Bool} {blen cap addr : Nat} (hb : 0 < blen)
    (hcap : blen ≤ cap) (hb' : pageSize ∣ blen) (hdir : direct = true → L ∣ pageSize ∧ L ∣ addr)
    (hf : direct = true → pageSize ∣ f.length) :
    ∀ (fuel pos N : Nat) (out : Bytes), N < fuel → (direct = true → pageSize ∣ pos) →
      pos + N ≤ f.length →
      copyLoop L f direct blen cap addr fuel pos N out = .ok (out ++ (f.drop pos).take N) := by
  intro fuel
  induction fuel with
  | zero => intro pos N out h; omega
  | succ fuel ih =>
    intro pos N out hN hpos hlen
    by_cases h0 : N = 0
    · simp [copyLoop, h0]
    have hl : pageSize ∣ limLen N blen := C49_requests_aligned N blen hb'
    have hle : limLen N blen ≤ blen := by
      unfold limLen
      split
      · exact alignedSize_le hb' (by omega)
      · exact Nat.le_refl _
    have hpos' : 0 < limLen N blen := by
      unfold limLen
      split
      · have := le_alignedSize N; omega
      · exact hb
    have hr : (Call.mk direct pos (limLen N blen) addr).refused L = false := by
      rw [refused_iff]
      intro hd
      obtain ⟨h1, h2⟩ := hdir hd
      exact ⟨Nat.dvd_trans h1 (hpos hd), Nat.dvd_trans h1 hl, h2⟩
    have hne : (f.drop pos).take (limLen N blen) ≠ [] := by
      intro h
      have := congrArg List.length h
      simp only [List.length_take, List.length_drop, List.length_nil] at this
      omega
    simp only [copyLoop, kread, hr]
    rw [if_neg h0, if_neg (by omega)]
    simp only [Bool.false_eq_true, if_false]
    rw [if_neg hne]
    have hblen : ((f.drop pos).take (limLen N blen)).length = min (limLen N blen) (f.length - pos) := by
      simp
    by_cases hlast : N ≤ limLen N blen
    · -- the last read
      have hm : min ((f.drop pos).take (limLen N blen)).length N = N := by rw [hblen]; omega
      rw [hm, Nat.sub_self]
      have : ∀ fuel p o, 0 < fuel → copyLoop L f direct blen cap addr fuel p 0 o = .ok o := by
        intro fuel p o h
        cases fuel with
        | zero => omega
        | succ k => simp [copyLoop]
      rw [this _ _ _ (by omega), List.take_take, Nat.min_eq_left hlast]
    · have hlim : limLen N blen = blen := by
        unfold limLen at hlast ⊢
        split
        · next h => rw [if_pos h] at hlast; have := le_alignedSize N; omega
        · rfl
      rw [hlim] at hblen hlast ⊢
      have hbl : ((f.drop pos).take blen).length = blen := by rw [hblen]; omega
      have hm : min ((f.drop pos).take blen).length N = blen := by rw [hbl]; omega
      rw [hm, hbl]
      rw [ih (pos + blen) (N - blen) _ (by omega) (fun hd => Nat.dvd_add (hpos hd) hb') (by omega)]
      rw [List.append_assoc, List.take_take, Nat.min_self]
      congr 2
      rw [← List.drop_drop]
      have : N = blen + (N - blen) := by omega
      conv => rhs; rw [this, List.take_add]

/-- The loop with a buffer as long as what is to be read: one call. -/
theorem copyLoop_one {L : Nat} {f : Bytes} {direct : Bool} {cap addr : Nat} {pos n fuel : Nat} (hn : 0 < n)
    (hcap : n ≤ cap) (hdir : direct = true → L ∣ pos ∧ L ∣ n ∧ L ∣ addr) (hlen : pos + n ≤ f.length) :
    copyLoop L f direct n cap addr (fuel + 2) pos n [] = .ok ((f.drop pos).take n) := by
  have hl : limLen n n = n := by simp [limLen]
  have hr : (Call.mk direct pos n addr).refused L = false := by rw [refused_iff]; exact hdir
  have hbl : ((f.drop pos).take n).length = n := by simp; omega
  have hne : (f.drop pos).take n ≠ [] := by
    intro h
    rw [h] at hbl
    simp at hbl
    omega
  simp only [copyLoop, kread, hl, hr]
  rw [if_neg (by omega), if_neg (by omega)]
  simp only [Bool.false_eq_true, if_false]
  rw [if_neg hne, hbl, Nat.min_self, Nat.sub_self]
  simp [List.take_take]

/-- **C114** Which requests for a part of a stored file are answered, for every block size, buffer and file:
those from a place that is not a multiple of 4096 (direct I/O is switched off), those for at least 32 KB, and
those for a multiple of the block size.  The others get nothing but an error. -/
theorem C114_read_iff {L page lost : Nat} (hL : L ∣ pageSize) (f : Bytes)
    (hf : pageSize ∣ f.length) (off size : Nat) (hs : 0 < size) (hlen : off + size ≤ f.length) :
    (getFile L page lost f off size = .ok ((f.drop off).take size) ∧
      (¬ pageSize ∣ off ∨ 8 * pageSize ≤ size ∨ L ∣ size)) ∨
    (getFile L page lost f off size = .inval [] ∧
      pageSize ∣ off ∧ size < 8 * pageSize ∧ ¬ L ∣ size) := by
  have hz : ¬ ((size : Int) ≤ 0) := by omega
  have hdo : (off % pageSize == 0) = true ↔ pageSize ∣ off := by
    simp [Nat.dvd_iff_mod_eq_zero]
  have haddr : L ∣ page * pageSize := Nat.dvd_mul_left_of_dvd hL page
  simp only [getFile, if_neg hz, Int.toNat_natCast]
  by_cases hbig : 8 * pageSize ≤ size
  · left
    refine ⟨?_, .inr (.inl hbig)⟩
    rw [Nat.min_eq_right hbig]
    rw [copyLoop_ok (by decide) (by omega) (Nat.dvd_mul_left _ _) (fun _ => ⟨hL, haddr⟩) (fun _ => hf)
      (size + 1) off size [] (by omega) (fun h => hdo.1 h) hlen]
    simp
  · rw [Nat.min_eq_left (by omega)]
    obtain ⟨k, rfl⟩ : ∃ k, size = k + 1 := ⟨size - 1, by omega⟩
    by_cases hd : pageSize ∣ off
    · by_cases hs' : L ∣ k + 1
      · left
        refine ⟨?_, .inr (.inr hs')⟩
        exact copyLoop_one hs (by omega) (fun _ => ⟨Nat.dvd_trans hL hd, hs', haddr⟩) hlen
      · right
        refine ⟨?_, hd, by omega, hs'⟩
        have hr : (Call.mk (off % pageSize == 0) off (k + 1) (page * pageSize)).refused L = true := by
          cases h : (Call.mk (off % pageSize == 0) off (k + 1) (page * pageSize)).refused L with
          | true => rfl
          | false =>
            rw [refused_iff] at h
            exact absurd (h (hdo.2 hd)).2.1 hs'
        have hl1 : limLen (k + 1) (k + 1) = k + 1 := by simp [limLen]
        simp only [copyLoop, hl1, kread, hr]
        rw [if_neg (by omega), if_neg (by omega)]
        simp
    · left
      refine ⟨?_, .inl hd⟩
      exact copyLoop_one hs (by omega) (fun h => absurd (hdo.1 h) hd) hlen

/-- A file of two pages: its first page can be read, 5 bytes at its start cannot, 5 bytes from byte 1 can. -/
example : getFile 512 3 0 (List.replicate 8192 7) 0 512 = .ok (List.replicate 512 7) ∧
    getFile 512 3 0 (List.replicate 8192 7) 0 5 = .inval [] ∧
    getFile 512 3 0 (List.replicate 8192 7) 1 5 = .ok (List.replicate 5 7) := by
  refine ⟨?_, ?_, ?_⟩
  · rcases C114_read_iff (L := 512) (page := 3) (lost := 0) (by decide) (List.replicate 8192 7)
      (by rw [List.length_replicate]; decide) 0 512 (by decide) (by rw [List.length_replicate]; decide)
      with ⟨h, _⟩ | ⟨_, _, _, h⟩
    · rw [show ((512 : Nat) : Int) = 512 from rfl] at h
      rw [h, List.drop_zero, List.take_replicate]
      rfl
    · exact absurd (by decide) h
  · rcases C114_read_iff (L := 512) (page := 3) (lost := 0) (by decide) (List.replicate 8192 7)
      (by rw [List.length_replicate]; decide) 0 5 (by decide) (by rw [List.length_replicate]; decide)
      with ⟨_, h | h | h⟩ | ⟨h, _⟩
    · exact absurd (by decide) h
    · exact absurd h (by decide)
    · exact absurd h (by decide)
    · exact h
  · rcases C114_read_iff (L := 512) (page := 3) (lost := 0) (by decide) (List.replicate 8192 7)
      (by rw [List.length_replicate]; decide) 1 5 (by decide) (by rw [List.length_replicate]; decide)
      with ⟨h, _⟩ | ⟨_, h, _⟩
    · rw [show ((5 : Nat) : Int) = 5 from rfl] at h
      rw [h, List.drop_replicate, List.take_replicate]
      rfl
    · exact absurd h (by decide)

/-- **C114 fails**: the first 5 bytes of a file of one page, on a device with blocks of 512 bytes. -/
theorem C114_statement_fails : ¬ C114_statement := by
  intro h
  have h1 := h 512 0 0 (List.replicate 4096 0) 0 5 (by decide)
    (by rw [List.length_replicate]; decide) (by decide) (by rw [List.length_replicate]; decide)
  rcases C114_read_iff (L := 512) (page := 0) (lost := 0) (by decide) (List.replicate 4096 0)
    (by rw [List.length_replicate]; decide) 0 5 (by decide) (by rw [List.length_replicate]; decide)
    with ⟨_, h2 | h2 | h2⟩ | ⟨h2, _⟩
  · exact absurd (by decide) h2
  · exact absurd h2 (by decide)
  · exact absurd h2 (by decide)
  · rw [h2] at h1; exact Out.noConfusion h1

/-- A negative size, whatever the file: the handler panics. -/
theorem C114_negative (L page lost : Nat) (f : Bytes) (off : Nat) (size : Int) (h : size ≤ 0) :
    getFile L page lost f off size = .panic [] := by
  simp [getFile, h]

/-! ## Writing -/

theorem padRead_aligned {s : Src} {n : Nat} (hn : pageSize ∣ n) : pageSize ∣ (padRead s n).1.length := by
  have h1 : (s.data.take n).length ≤ n := by simp; omega
  have h2 := alignedSize_le hn h1
  have h3 := le_alignedSize (s.data.take n).length
  simp only [padRead, List.length_append, List.length_replicate, Nat.min_eq_right h2]
  rw [show (s.data.take n).length + (alignedSize (s.data.take n).length - (s.data.take n).length) =
    alignedSize (s.data.take n).length by omega]
  exact alignedSize_dvd _

theorem writeLoop_spec {L addr : Nat} (hL : L ∣ pageSize) (ha : L ∣ addr) (ns : List Nat)
    (hn : ∀ n ∈ ns, 0 < n ∧ pageSize ∣ n) (s : Src) (f : Bytes) (hf : pageSize ∣ f.length) :
    (writeLoop L addr ns s f).1 = f ++ (padCopy ns s).1 ∧
      (writeLoop L addr ns s f).2.2 = ((padCopy ns s).2 == some .fail) ∧
      (∀ c ∈ (writeLoop L addr ns s f).2.1, c.direct = true ∧ Accepted L c) ∧
      pageSize ∣ (writeLoop L addr ns s f).1.length := by
  induction ns generalizing s f with
  | nil => simpa [writeLoop, padCopy] using hf
  | cons n ns ih =>
    have h0 := hn n (by simp)
    have hal := padRead_aligned (s := s) h0.2
    have hacc : Accepted L ⟨true, f.length, (padRead s n).1.length, addr⟩ :=
      fun _ => ⟨Nat.dvd_trans hL hf, Nat.dvd_trans hL hal, ha⟩
    have hr := (refused_iff L _).2 hacc
    by_cases he : (padRead s n).1 = []
    · -- nothing read: the end
      have hd : s.data.take n = [] := by
        have h1 : (padRead s n).1 = s.data.take n ++
          List.replicate (min n (alignedSize (s.data.take n).length) - (s.data.take n).length) 0 := rfl
        rw [h1, List.append_eq_nil_iff] at he
        exact he.1
      have hne : ¬ (s.data.take n).length = n := by rw [hd]; simp; omega
      have he2 : (padRead s n).2.1 = if s.fails then some IoErr.fail else some IoErr.eof := by
        simp only [padRead]; rw [if_neg hne]
      have hw : writeLoop L addr (n :: ns) s f = (f, [], (padRead s n).2.1 == some .fail) := by
        simp only [writeLoop]; rw [if_pos he]
      have hp : padCopy (n :: ns) s = ((padRead s n).1, (padRead s n).2.1) := by
        simp only [padCopy]
        cases hq : padRead s n with
        | mk b r =>
          obtain ⟨e, s'⟩ := r
          rw [hq] at he2
          simp only at he2
          by_cases hfl : s.fails = true <;> simp [hfl] at he2 <;> rw [he2]
      rw [hw, hp, he]
      exact ⟨by simp, rfl, by simp, hf⟩
    · cases hq : padRead s n with
      | mk b r =>
        obtain ⟨e, s'⟩ := r
        rw [hq] at he hal hr hacc
        simp only at he hal hr hacc
        cases e with
        | some e =>
          have hw : writeLoop L addr (n :: ns) s f =
              (f ++ b, [⟨true, f.length, b.length, addr⟩], e == .fail) := by
            simp only [writeLoop, hq]; rw [if_neg he, hr]; rfl
          have hp : padCopy (n :: ns) s = (b, some e) := by simp only [padCopy, hq]
          rw [hw, hp]
          refine ⟨rfl, by cases e <;> rfl, ?_, ?_⟩
          · intro c hc
            simp only [List.mem_singleton] at hc
            subst hc
            exact ⟨rfl, hacc⟩
          · rw [List.length_append]; exact Nat.dvd_add hf hal
        | none =>
          have hw : writeLoop L addr (n :: ns) s f =
              ((writeLoop L addr ns s' (f ++ b)).1,
                ⟨true, f.length, b.length, addr⟩ :: (writeLoop L addr ns s' (f ++ b)).2.1,
                (writeLoop L addr ns s' (f ++ b)).2.2) := by
            simp only [writeLoop, hq]; rw [if_neg he, hr]; rfl
          have hp : padCopy (n :: ns) s = (b ++ (padCopy ns s').1, (padCopy ns s').2) := by
            simp only [padCopy, hq]
          obtain ⟨i1, i2, i3, i4⟩ := ih (fun m hm => hn m (by simp [hm])) s' (f ++ b)
            (by rw [List.length_append]; exact Nat.dvd_add hf hal)
          rw [hw, hp]
          refine ⟨by rw [i1, List.append_assoc], i2, ?_, i4⟩
          intro c hc
          rcases List.mem_cons.1 hc with rfl | hc
          · exact ⟨rfl, hacc⟩
          · exact i3 c hc

/-- **C114** One request that appends to a file whose length is a multiple of 4096, with any body, also one
that fails: no write is refused, the result is that of `appendAligned`, and the length is again a multiple of
4096. -/
theorem C114_append {L addr B : Nat} (hL : L ∣ pageSize) (ha : L ∣ addr) (hB : 0 < B) (hp : pageSize ∣ B)
    (f : Bytes) (hf : pageSize ∣ f.length) (body : Src) :
    ((appendFile L addr B f body).1, (appendFile L addr B f body).2.2) = appendAligned B f body ∧
      (∀ c ∈ (appendFile L addr B f body).2.1, c.direct = true ∧ Accepted L c) ∧
      pageSize ∣ (appendFile L addr B f body).1.length := by
  obtain ⟨h1, h2, h3, h4⟩ := writeLoop_spec hL ha (passes B body.data.length)
    (fun n hn => by rw [passes] at hn; rw [List.eq_of_mem_replicate hn]; exact ⟨hB, hp⟩) body f hf
  exact ⟨by simp only [appendFile, h1, h2, appendAligned], h3, h4⟩

/-- **C114** Any sequence of requests that append to one file, with any bodies: no write is refused, and the
file has a length that is a multiple of 4096. -/
theorem C114_writes {L addr B : Nat} (hL : L ∣ pageSize) (ha : L ∣ addr) (hB : 0 < B) (hp : pageSize ∣ B)
    (bodies : List Src) :
    (∀ c ∈ (appendAll L addr B bodies []).2, Accepted L c) ∧
      pageSize ∣ (appendAll L addr B bodies []).1.length ∧
      (appendAll L addr B bodies []).1 = bodies.foldl (fun f s => (appendAligned B f s).1) [] := by
  have : ∀ (ss : List Src) (f : Bytes), pageSize ∣ f.length →
      (∀ c ∈ (appendAll L addr B ss f).2, Accepted L c) ∧
        pageSize ∣ (appendAll L addr B ss f).1.length ∧
        (appendAll L addr B ss f).1 = ss.foldl (fun f s => (appendAligned B f s).1) f := by
    intro ss
    induction ss with
    | nil => intro f hf; exact ⟨by simp [appendAll], hf, rfl⟩
    | cons s ss ih =>
      intro f hf
      obtain ⟨h1, h2, h3⟩ := C114_append hL ha hB hp f hf s
      obtain ⟨i1, i2, i3⟩ := ih _ h3
      refine ⟨?_, i2, ?_⟩
      · intro c hc
        rcases List.mem_append.1 hc with hc | hc
        · exact (h2 c hc).2
        · exact i1 c hc
      · rw [List.foldl_cons, ← h1]
        exact i3
  exact this bodies [] (by simp)

/-- A body of 5 bytes, and one that fails after 2: two writes of one page each. -/
example : (appendAll 512 0 8192 [⟨[1, 2, 3, 4, 5], false⟩, ⟨[6, 7], true⟩] []).2 =
    [⟨true, 0, 4096, 0⟩, ⟨true, 4096, 4096, 0⟩] := by
  have h1 : ∀ (f b : Bytes) (e : Bool), 0 < b.length → b.length < 4096 → 4096 ∣ f.length →
      (appendFile 512 0 8192 f ⟨b, e⟩).2.1 = [⟨true, f.length, 4096, 0⟩] ∧
        (appendFile 512 0 8192 f ⟨b, e⟩).1.length = f.length + 4096 := by
    intro f b e h0 h hf
    have hp : passes 8192 b.length = [8192] := by
      rw [passes, Nat.div_eq_of_lt (by omega)]; rfl
    have ht : b.take 8192 = b := List.take_of_length_le (by omega)
    have ha : alignedSize b.length = 4096 := by unfold alignedSize pageSize; split <;> omega
    have hne : ¬ b.length = 8192 := by omega
    have hr : padRead ⟨b, e⟩ 8192 = (b ++ List.replicate (4096 - b.length) 0,
        (if e then some .fail else some .eof), ⟨b.drop 8192, e⟩) := by
      simp only [padRead, ht, ha, hne, if_false]; rfl
    have hne2 : ¬ (b ++ List.replicate (4096 - b.length) (0 : UInt8) = []) := by
      intro hh
      have := congrArg List.length hh
      simp at this
      omega
    have hlen : (b ++ List.replicate (4096 - b.length) (0 : UInt8)).length = 4096 := by simp; omega
    have hrf : (Call.mk true f.length 4096 0).refused 512 = false := by
      rw [refused_iff]
      intro _
      refine ⟨?_, (by decide : 512 ∣ 4096), (by decide : 512 ∣ 0)⟩
      show 512 ∣ f.length
      exact Nat.dvd_trans (by decide) hf
    simp only [appendFile, hp, writeLoop, hr, hlen, hrf]
    rw [if_neg hne2]
    cases e <;> simp <;> omega
  obtain ⟨a1, a2⟩ := h1 [] [1, 2, 3, 4, 5] false (by decide) (by decide) (by decide)
  obtain ⟨b1, b2⟩ := h1 (appendFile 512 0 8192 [] ⟨[1, 2, 3, 4, 5], false⟩).1 [6, 7] true (by decide)
    (by decide) (by rw [a2]; decide)
  simp only [appendAll, a1, b1, a2]
  rfl

/-- With a buffer that is not aligned every write that is not empty is refused. -/
theorem C114_write_address {L addr B : Nat} (ha : ¬ L ∣ addr) (hB : 0 < B) (f : Bytes) (b : Bytes)
    (fails : Bool) (hb : b ≠ []) :
    (appendFile L addr B f ⟨b, fails⟩).1 = f ∧ (appendFile L addr B f ⟨b, fails⟩).2.2 = true := by
  have hp : passes B b.length = B :: List.replicate (b.length / B) B := by
    rw [passes, List.replicate_succ]
  have hne : ¬ ((padRead ⟨b, fails⟩ B).1 = []) := by
    intro h
    have h1 : (padRead ⟨b, fails⟩ B).1 = b.take B ++
      List.replicate (min B (alignedSize (b.take B).length) - (b.take B).length) 0 := rfl
    rw [h1, List.append_eq_nil_iff] at h
    have h2 := congrArg List.length h.1
    have : 0 < b.length := List.length_pos_of_ne_nil hb
    rw [List.length_take, List.length_nil] at h2
    omega
  have hr : (Call.mk true f.length (padRead ⟨b, fails⟩ B).1.length addr).refused L = true := by
    cases h : (Call.mk true f.length (padRead ⟨b, fails⟩ B).1.length addr).refused L with
    | true => rfl
    | false => rw [refused_iff] at h; exact absurd (h rfl).2.2 ha
  simp only [appendFile, hp, writeLoop]
  rw [if_neg hne, hr]
  simp

/-! ## Shards -/

/-- **C114** A shard stored in pieces (all but the last of a length that is a multiple of 4096) and read with
its size: what was stored if the size is at least 32 KB or a multiple of the block size, an error otherwise. -/
theorem C114_shard_partial {L addr B page lost : Nat} (hL : L ∣ pageSize) (ha : L ∣ addr) (hB : 0 < B)
    (hp : pageSize ∣ B) (pieces : List Bytes) (hal : AlignedPieces pieces)
    (hne : pieces.flatten ≠ []) :
    getFile L page lost (appendAll L addr B (pieces.map fun p => ⟨p, false⟩) []).1 0 pieces.flatten.length =
      if 8 * pageSize ≤ pieces.flatten.length ∨ L ∣ pieces.flatten.length then .ok pieces.flatten
      else .inval [] := by
  obtain ⟨_, h2, h3⟩ := C114_writes hL ha hB hp (pieces.map fun p => ⟨p, false⟩)
  have hst : (appendAll L addr B (pieces.map fun p => ⟨p, false⟩) []).1 = padded pieces.flatten := by
    rw [h3, List.foldl_map]
    exact (storePieces_eq hB hp pieces).trans (alignedPieces_flatten pieces hal)
  rw [hst] at h2 ⊢
  have hpos : 0 < pieces.flatten.length := List.length_pos_of_ne_nil hne
  have htake : ((padded pieces.flatten).drop 0).take pieces.flatten.length = pieces.flatten := by
    rw [List.drop_zero, padded, List.take_left']
    rfl
  rcases C114_read_iff (page := page) hL (padded pieces.flatten) h2 0 pieces.flatten.length hpos
    (by rw [padded_length]; have := le_alignedSize pieces.flatten.length; omega) with
    ⟨h, hc⟩ | ⟨h, _, hc1, hc2⟩
  · rw [h, htake]
    have hc' : 8 * pageSize ≤ pieces.flatten.length ∨ L ∣ pieces.flatten.length := by
      rcases hc with hc | hc | hc
      · exact absurd (Nat.dvd_zero _) hc
      · exact .inl hc
      · exact .inr hc
    rw [if_pos hc']
  · rw [h, if_neg]
    rintro (h' | h')
    · omega
    · exact hc2 h'

/-- **C114 fails** for shards of fewer than 32 KB whose length is not a multiple of the block size, whatever is
in them: storing succeeds, and reading does not. -/
theorem C114_shard_refused {L addr B page lost : Nat} (hL : L ∣ pageSize) (ha : L ∣ addr) (hB : 0 < B)
    (hp : pageSize ∣ B) (shard : Bytes) (h1 : shard.length < 8 * pageSize) (h2 : ¬ L ∣ shard.length) :
    getFile L page lost (appendFile L addr B [] ⟨shard, false⟩).1 0 shard.length = .inval [] ∧
      (appendFile L addr B [] ⟨shard, false⟩).2.2 = false := by
  have hne : shard ≠ [] := by
    intro h
    rw [h] at h2
    exact h2 (Nat.dvd_zero _)
  have hx := C114_shard_partial (page := page) (lost := lost) hL ha hB hp [shard] trivial (by simpa using hne)
  have hy := (C114_append hL ha hB hp [] (by simp) ⟨shard, false⟩).1
  rw [appendAligned_ok hB hp] at hy
  refine ⟨?_, congrArg Prod.snd hy⟩
  simp only [List.map_cons, List.map_nil, List.flatten_cons, List.flatten_nil, List.append_nil,
    appendAll] at hx
  rw [hx, if_neg]
  rintro (h | h)
  · omega
  · exact h2 h

/-- An object of 10 bytes in 4 data shards of 3 bytes, on a device with blocks of 512 bytes. -/
example : getFile 512 0 0 (appendFile 512 0 32768 [] ⟨[1, 2, 3], false⟩).1 0 3 = .inval [] ∧
    Api.shardSize 4 10 = some 3 :=
  ⟨(C114_shard_refused (L := 512) (by decide) (by decide) (by decide) (by decide) [1, 2, 3]
    (by decide) (by decide)).1, by decide⟩

/-- **C114 fails** for every object that is smaller than one block of the device for each of its data shards:
the shards, of the length that config.go:95-97 computes, are stored and cannot be read. -/
theorem C114_small_objects {L addr B page lost : Nat} (hL : L ∣ pageSize) (ha : L ∣ addr) (hB : 0 < B)
    (hp : pageSize ∣ B) (ds size : Int) (hd : 0 < ds) (hs : 0 < size) (hsmall : size ≤ ds * (L - 1)) :
    ∃ n : Nat, 0 < n ∧ Api.shardSize ds size = some (n : Int) ∧ ∀ shard : Bytes, shard.length = n →
      getFile L page lost (appendFile L addr B [] ⟨shard, false⟩).1 0 shard.length = .inval [] ∧
        (appendFile L addr B [] ⟨shard, false⟩).2.2 = false := by
  have hL' : L ≤ pageSize := Nat.le_of_dvd (by decide) hL
  have h0 : 0 ≤ size + ds - 1 := by omega
  have hq : (size + ds - 1).tdiv ds = (size + ds - 1) / ds := Int.tdiv_eq_ediv_of_nonneg h0
  have hlow : 1 ≤ (size + ds - 1) / ds := by
    rw [Int.le_ediv_iff_mul_le hd]; omega
  have hup : (size + ds - 1) / ds < L := by
    rw [Int.ediv_lt_iff_lt_mul hd]
    have : (L : Int) * ds = ds * (L - 1) + ds := by rw [Int.mul_sub, Int.mul_comm]; omega
    omega
  refine ⟨((size + ds - 1) / ds).toNat, by omega, ?_, ?_⟩
  · unfold Api.shardSize
    rw [if_neg (by omega), hq, Int.toNat_of_nonneg (by omega)]
  · intro shard hlen
    refine C114_shard_refused hL ha hB hp shard ?_ ?_
    · simp only [pageSize] at hL' ⊢; omega
    · intro h
      have := Nat.le_of_dvd (by omega) h
      omega

/-- Objects of up to 2044 bytes in 4 data shards. -/
example : (2044 : Int) ≤ 4 * ((512 : Nat) - 1) ∧ Api.shardSize 4 2044 = some 511 := by decide

end Verif.Object.Direct
