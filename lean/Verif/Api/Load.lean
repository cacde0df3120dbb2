import Verif.Api.Select
import Verif.Util.Range

/-!
# Placement by load (C97)

From the counters of the drives of a data server to the choice of the API server: `GetAverageIOStats`
(src/common/system/disk/stat.go:32-59), the page `/stat` of the data server
(src/objectserver/internal/controller/http/stat/stat.go:16-24), `StatObject`
(src/apiserver/internal/usecase/webapi/object_server.go:208-221), and `fetchIoInfo` and `Pop` of the strategy `io-first`
(src/apiserver/internal/usecase/componet/selector/weighted_io_first.go:30-71), with `fetchSpaceInfo` of `space-first`
(space_first_selector.go:24-40).

Trusted: `disk.IOCounters` gives the counters of the drives or an error.
-/

namespace Verif.Load

open Verif Verif.Api Verif.Slices Verif.Range

/-! ## The data server -/

/-- `IOStats`, src/common/system/disk/model.go:48-58: counters below 2^64. -/
structure IO where
  readBytes : Nat
  writeBytes : Nat
  readCount : Nat
  writeCount : Nat
  readTime : Nat
  writeTime : Nat
  currentIOs : Nat
  ioTime : Nat
  weightedIO : Nat
  deriving DecidableEq, Repr

/-- `var ioStat IOStats`, stat.go:37. -/
def IO.zero : IO := ⟨0, 0, 0, 0, 0, 0, 0, 0, 0⟩

/-- Addition of `uint64`. -/
def add64 (a b : Nat) : Nat := (a + b) % 2 ^ 64

/-- One round of the loop, stat.go:38-47: line 46 adds the sum itself, and there is no line for `WriteTime`. -/
def IO.add (a s : IO) : IO where
  readBytes := add64 a.readBytes s.readBytes
  writeBytes := add64 a.writeBytes s.writeBytes
  ioTime := add64 a.ioTime s.ioTime
  currentIOs := add64 a.currentIOs s.currentIOs
  weightedIO := add64 a.weightedIO s.weightedIO
  readCount := add64 a.readCount s.readCount
  writeCount := add64 a.writeCount s.writeCount
  readTime := add64 a.readTime a.readTime
  writeTime := a.writeTime

/-- stat.go:48-57, for a positive number of drives. -/
def IO.div (a : IO) (n : Nat) : IO :=
  ⟨a.readBytes / n, a.writeBytes / n, a.readCount / n, a.writeCount / n, a.readTime / n, a.writeTime / n,
   a.currentIOs / n, a.ioTime / n, a.weightedIO / n⟩

/-- `GetAverageIOStats`, stat.go:32-59, for the drives in the order of the iteration over the map; `none` is the
panic of a division by zero. -/
def average (drives : List IO) : Option IO :=
  if drives.length = 0 then none else some ((drives.foldl IO.add .zero).div drives.length)

/-- What `/stat` of a data server says: its used bytes, and the load if there is one. -/
structure Page where
  capacity : Str
  weightedIO : Option Str
  deriving DecidableEq

/-- Decimal text of an `int64`, `fmt.Sprint` of src/common/util/util.go:88-93. -/
def fmtInt (i : Int) : Str := if i < 0 then '-' :: fmtNat i.natAbs else fmtNat i.natAbs

/-- `Info`, stat/stat.go:16-24; `drives` is `none` if the counters cannot be read.  The result is `none` if the handler
panics: no page, with a status other than 200 or none at all. -/
def statPage (capacity : Int) (drives : Option (List IO)) : Option Page :=
  match drives with
  | none => some ⟨fmtInt capacity, none⟩
  | some ds => (average ds).map fun a => ⟨fmtInt capacity, some (fmtNat a.weightedIO)⟩

/-! ## The API server -/

/-- The conversion of an `int` to an `int32`. -/
def wrap32 (i : Int) : Int := (i + 2 ^ 31) % 2 ^ 32 - 2 ^ 31

/-- `util.ToInt32`, src/common/util/util.go:130-139, 163-165: `Atoi` of the header, then a conversion. -/
def toInt32 (s : Str) : Int := wrap32 (toInt64 s)

/-- A table with one more entry, or one less. -/
def setLoad (t : Loads) (ip : Str) (v : Option Int) : Loads := fun k => if k = ip then v else t k

/-- `fetchIoInfo`, weighted_io_first.go:30-45, when the lock is free; `pages ip` is the page of a server, `none` if it
could not be had (`StatObject`, object_server.go:208-221). -/
def fetchIO (pages : Str → Option Page) (ds : List Str) (t : Loads) : Loads :=
  ds.foldl (fun t ip => setLoad t ip ((pages ip).map fun p => toInt32 (p.weightedIO.getD []))) t

/-- `fetchSpaceInfo`, space_first_selector.go:24-40. -/
def fetchSpace (pages : Str → Option Page) (ds : List Str) (t : Loads) : Loads :=
  ds.foldl (fun t ip => setLoad t ip ((pages ip).map fun p => toInt64 p.capacity)) t

/-- `math.MaxInt32`. -/
def maxInt32 : Int := 2147483647

/-- The comparison in weighted_io_first.go:51-62. -/
def betterIO (t : Loads) (target b : Str) : Bool :=
  match t b with
  | none => false
  | some y => decide (y < (t target).getD maxInt32)

/-- `Pop` and `Select`, weighted_io_first.go:47-71: the server chosen, and the table afterwards; `old` says that the table
is older than a minute, `free` that nobody else is fetching. -/
def chooseIO (pages : Str → Option Page) (old free : Bool) (ds : List Str) (t : Loads) : Option Str × Loads :=
  let t := if old && free then fetchIO pages ds t else t
  (ds[extremalIndex (betterIO t) ds]?, t)

/-! ## Averages -/

/-- The sum of a counter. -/
def total (f : IO → Nat) (drives : List IO) : Nat := (drives.map f).sum

theorem foldl_add64 (f : IO → Nat) (hf : ∀ a s, f (IO.add a s) = add64 (f a) (f s)) (drives : List IO) (a : IO)
    (hb : f a + total f drives < 2 ^ 64) : f (drives.foldl IO.add a) = f a + total f drives := by
  induction drives generalizing a with
  | nil => simp [total]
  | cons d ds ih =>
    simp only [total, List.map_cons, List.sum_cons] at hb ⊢
    rw [List.foldl_cons]
    have h1 : f (IO.add a d) = f a + f d := by rw [hf, add64, Nat.mod_eq_of_lt (by omega)]
    rw [ih (IO.add a d) (by simp only [total]; omega), h1]
    simp only [total]; omega

/-- The counters that are averaged. -/
def counters : List (IO → Nat) :=
  [IO.readBytes, IO.writeBytes, IO.readCount, IO.writeCount, IO.currentIOs, IO.ioTime, IO.weightedIO]

theorem counters_add {f : IO → Nat} (hf : f ∈ counters) :
    (∀ a s, f (IO.add a s) = add64 (f a) (f s)) ∧ f .zero = 0 ∧ ∀ a n, f (IO.div a n) = f a / n := by
  simp only [counters, List.mem_cons, List.not_mem_nil, or_false] at hf
  rcases hf with rfl | rfl | rfl | rfl | rfl | rfl | rfl <;> exact ⟨fun _ _ => rfl, rfl, fun _ _ => rfl⟩

/-- **C97** What a server with drives reports of bytes, counts, requests under way, time and weighted time is the average
over its drives (rounded down). -/
theorem C97_average {drives : List IO} {a : IO} (h : average drives = some a) {f : IO → Nat} (hf : f ∈ counters)
    (hb : total f drives < 2 ^ 64) : f a = total f drives / drives.length := by
  unfold average at h
  split at h
  · cases h
  · cases h
    obtain ⟨h1, h2, h3⟩ := counters_add hf
    rw [h3, foldl_add64 f h1 drives .zero (by rw [h2]; omega), h2, Nat.zero_add]

theorem total_perm {f : IO → Nat} {ds ds' : List IO} (h : ds.Perm ds') : total f ds = total f ds' := by
  unfold total
  induction h with
  | nil => rfl
  | cons x _ ih => simp [ih]
  | swap x y l => simp only [List.map_cons, List.sum_cons]; omega
  | trans _ _ ih1 ih2 => rw [ih1, ih2]

/-- **C97** It lies between the least and the greatest value of a drive. -/
theorem C97_between {drives : List IO} {a : IO} (h : average drives = some a) {f : IO → Nat} (hf : f ∈ counters)
    (hb : total f drives < 2 ^ 64) {lo hi : Nat} (hl : ∀ d ∈ drives, lo ≤ f d) (hh : ∀ d ∈ drives, f d ≤ hi) :
    lo ≤ f a ∧ f a ≤ hi := by
  have hn : 0 < drives.length := by
    unfold average at h
    split at h
    · cases h
    · omega
  rw [C97_average h hf hb]
  have hs : ∀ ds : List IO, (∀ d ∈ ds, lo ≤ f d) → (∀ d ∈ ds, f d ≤ hi) → lo * ds.length ≤ total f ds ∧ total f ds ≤ hi * ds.length := by
    intro ds
    induction ds with
    | nil => intros; simp [total]
    | cons d ds ih =>
      intro h1 h2
      have h3 := ih (fun x hx => h1 x (by simp [hx])) (fun x hx => h2 x (by simp [hx]))
      have h4 := h1 d (by simp)
      have h5 := h2 d (by simp)
      simp only [total, List.map_cons, List.sum_cons, List.length_cons, Nat.mul_succ] at h3 ⊢
      omega
  obtain ⟨h1, h2⟩ := hs drives hl hh
  exact ⟨(Nat.le_div_iff_mul_le hn).2 h1, Nat.div_le_of_le_mul (by rw [Nat.mul_comm]; exact h2)⟩

theorem foldl_perm {ds ds' : List IO} (h : ds.Perm ds') : ∀ a : IO, a.readTime = 0 →
    ds.foldl IO.add a = ds'.foldl IO.add a := by
  induction h with
  | nil => intro _ _; rfl
  | cons x _ ih => intro a ha; exact ih _ (by simp [IO.add, add64, ha])
  | swap x y l =>
    intro a ha
    simp only [List.foldl_cons]
    congr 1
    simp only [IO.add, add64, ha, Nat.mod_add_mod, Nat.add_assoc, Nat.add_comm x.readBytes, Nat.add_comm x.writeBytes,
      Nat.add_comm x.readCount, Nat.add_comm x.writeCount, Nat.add_comm x.currentIOs, Nat.add_comm x.ioTime,
      Nat.add_comm x.weightedIO]
  | trans _ _ ih1 ih2 => intro a ha; rw [ih1 a ha, ih2 a ha]

/-- **C97** The order in which Go walks the map of drives does not matter. -/
theorem C97_order {ds ds' : List IO} (h : ds.Perm ds') : average ds = average ds' := by
  unfold average
  rw [h.length_eq, foldl_perm h .zero rfl]

/-- Two drives. -/
def twoDrives : List IO := [⟨100, 10, 5, 1, 7, 3, 0, 12, 40⟩, ⟨300, 30, 7, 4, 9, 5, 1, 20, 61⟩]

example : average twoDrives = some ⟨200, 20, 6, 2, 0, 0, 0, 16, 50⟩ := by decide

/-- **C97, refuted** for the times spent reading and writing: these are reported as 0, whatever the drives say. -/
theorem C97_times_zero {drives : List IO} {a : IO} (h : average drives = some a) : a.readTime = 0 ∧ a.writeTime = 0 := by
  unfold average at h
  split at h
  · cases h
  · cases h
    have : ∀ (ds : List IO) (x : IO), x.readTime = 0 → x.writeTime = 0 →
        (ds.foldl IO.add x).readTime = 0 ∧ (ds.foldl IO.add x).writeTime = 0 := by
      intro ds
      induction ds with
      | nil => intro x h1 h2; exact ⟨h1, h2⟩
      | cons d ds ih => intro x h1 h2; exact ih _ (by simp [IO.add, add64, h1]) h2
    obtain ⟨h1, h2⟩ := this drives .zero rfl rfl
    simp [IO.div, h1, h2]

/-- **C97** The texts of the page are decimal numbers: digits only, with a sign for those below zero and no others. -/
theorem C97_text (n : Nat) : fmtInt n = fmtNat n ∧ fmtInt (-(n + 1 : Int)) = '-' :: fmtNat (n + 1) := by
  constructor
  · simp only [fmtInt]
    rw [if_neg (by omega)]
    rfl
  · simp only [fmtInt]
    rw [if_pos (by omega)]
    congr 2

/-- **C97, refuted** for a server on which no drive is found, such as some containers: the page panics, and so does the
goroutine that stores the statistics (`NewInfo`, src/common/system/system_info.go:27-50, called by `Sync`, syncer.go:27-63; with C77 the process ends). -/
theorem C97_no_drives (cap : Int) : average [] = none ∧ statPage cap (some []) = none := ⟨rfl, rfl⟩

/-! ## The space of a drive -/

/-- The space of a drive: total, free and used bytes. -/
structure Space where
  total : Nat
  free : Nat
  used : Nat
  deriving DecidableEq, Repr

/-- Subtraction of `uint64`. -/
def sub64 (a b : Nat) : Nat := (a + 2 ^ 64 - b) % 2 ^ 64

/-- `GetInfo`, src/common/system/disk/stat_linux.go:36-70, the numbers of it: block size, blocks, free blocks and blocks
free for everyone, as `statfs` gives them, all below 2^64; `none` is the error. -/
def diskSpace (frsize blocks bfree bavail : Nat) : Option Space :=
  let reserved := sub64 bfree bavail
  let total := frsize * sub64 blocks reserved % 2 ^ 64
  let free := frsize * bavail % 2 ^ 64
  if total < free then none else some ⟨total, free, total - free⟩

/-- **C97** What is reported of a drive adds up: used and free bytes together are all bytes. -/
theorem C97_space_adds_up {f b r a : Nat} {s : Space} (h : diskSpace f b r a = some s) : s.used + s.free = s.total := by
  unfold diskSpace at h
  dsimp only at h
  split at h
  · cases h
  · cases h; dsimp only; omega

/-- **C97** Of a sane file system the bytes that only the superuser can have count neither as free nor as used, and
there is no error. -/
theorem C97_space_sane {f b r a : Nat} (h1 : a ≤ r) (h2 : r ≤ b) (h3 : f * b < 2 ^ 64) (hb : b < 2 ^ 64) :
    diskSpace f b r a = some ⟨f * (b - (r - a)), f * a, f * (b - r)⟩ := by
  have e1 : sub64 r a = r - a := by unfold sub64; omega
  have e2 : sub64 b (r - a) = b - (r - a) := by unfold sub64; omega
  have l1 : f * (b - (r - a)) ≤ f * b := Nat.mul_le_mul_left _ (by omega)
  have l2 : f * a ≤ f * (b - (r - a)) := Nat.mul_le_mul_left _ (by omega)
  have l3 : f * (b - (r - a)) - f * a = f * (b - r) := by rw [← Nat.mul_sub]; congr 1; omega
  unfold diskSpace
  dsimp only
  rw [e1, e2, Nat.mod_eq_of_lt (by omega : f * (b - (r - a)) < 2 ^ 64), Nat.mod_eq_of_lt (by omega : f * a < 2 ^ 64),
    if_neg (by omega), l3]

example : diskSpace 4096 1000 400 350 = some ⟨3891200, 1433600, 2457600⟩ := by decide

/-- **C97** More free blocks than blocks are noticed. -/
theorem C97_space_error {f b r a : Nat} (hf : 0 < f) (h1 : b < r) (h2 : r ≤ b + a) (h3 : f * (b + a) < 2 ^ 64) :
    diskSpace f b r a = none := by
  have hba : b + a < 2 ^ 64 := Nat.lt_of_le_of_lt (Nat.le_mul_of_pos_left _ hf) h3
  have e2 : sub64 b (sub64 r a) = b + a - r := by unfold sub64; omega
  have l1 : f * (b + a - r) ≤ f * (b + a) := Nat.mul_le_mul_left _ (by omega)
  have l2 : f * a ≤ f * (b + a) := Nat.mul_le_mul_left _ (by omega)
  have l3 : f * (b + a - r) < f * a := Nat.mul_lt_mul_of_pos_left (by omega) hf
  unfold diskSpace
  dsimp only
  rw [e2, Nat.mod_eq_of_lt (by omega : f * (b + a - r) < 2 ^ 64), Nat.mod_eq_of_lt (by omega : f * a < 2 ^ 64), if_pos l3]

example : diskSpace 4096 1000 1200 1100 = none := by decide
/-- More blocks free for everyone than free blocks are not: the drive then has more bytes than it has blocks for. -/
example : diskSpace 4096 1000 400 1500 = some ⟨4096 * 2100, 4096 * 1500, 4096 * 600⟩ := by decide

/-! ## The choice -/

theorem wrap32_small {i : Int} (h0 : -2 ^ 31 ≤ i) (h1 : i < 2 ^ 31) : wrap32 i = i := by
  unfold wrap32; omega

theorem toInt32_fmtNat {n : Nat} (h : n < 2 ^ 31) : toInt32 (fmtNat n) = n := by
  unfold toInt32
  rw [toInt64_fmtNat n (by omega), wrap32_small (by omega) (by omega)]

theorem fetch_get (v : Str → Option Int) (ds : List Str) (t : Loads) (k : Str) :
    ds.foldl (fun t ip => setLoad t ip (v ip)) t k = if k ∈ ds then v k else t k := by
  induction ds generalizing t with
  | nil => simp
  | cons d ds ih =>
    rw [List.foldl_cons, ih]
    by_cases h1 : k ∈ ds
    · simp [h1]
    · by_cases h2 : k = d
      · subst h2; simp [h1, setLoad]
      · simp [h1, h2, setLoad]

theorem betterIO_irr (t : Loads) (a : Str) : betterIO t a a = false := by
  unfold betterIO; cases t a <;> simp

theorem betterIO_trans (t : Loads) (a b c : Str) (h1 : betterIO t a b = true) (h2 : betterIO t b c = true) :
    betterIO t a c = true := by
  unfold betterIO at *
  cases hb : t b with
  | none => rw [hb] at h1; cases h1
  | some x =>
    cases hc : t c with
    | none => rw [hc] at h2; cases h2
    | some y =>
      rw [hb] at h1 h2; rw [hc] at h2
      simp only [Option.getD_some, decide_eq_true_eq] at *
      omega

theorem choose_table (pages : Str → Option Page) (old free : Bool) (ds : List Str) (hne : ds ≠ []) (t : Loads) :
    ∃ r, (chooseIO pages old free ds t).1 = some r ∧ r ∈ ds ∧
      ∀ c ∈ ds, ∀ x, (chooseIO pages old free ds t).2 c = some x → x < maxInt32 →
        ∃ y, (chooseIO pages old free ds t).2 r = some y ∧ y ≤ x := by
  unfold chooseIO
  dsimp only
  generalize (if (old && free) = true then fetchIO pages ds t else t) = u
  obtain ⟨e, h1, h2, h3⟩ := C58_extremal (betterIO u) ds hne (betterIO_irr u) (betterIO_trans u)
  refine ⟨e, h1, h2, ?_⟩
  intro c hc x hx hlt
  have := h3 c hc
  unfold betterIO at this
  rw [hx] at this
  simp only [decide_eq_false_iff_not] at this
  cases he : u e with
  | none => rw [he] at this; simp only [Option.getD_none] at this; omega
  | some y => rw [he] at this; simp only [Option.getD_some] at this; exact ⟨y, rfl, by omega⟩

/-- What a server would report as its load: the average weighted time of its drives. -/
def loadOf (drives : Str → Option (List IO)) (ip : Str) : Option Nat :=
  (drives ip).bind fun ds => if ds = [] then none else some (total IO.weightedIO ds / ds.length)

/-- **C97** With a table that is fetched anew, the strategy `io-first` chooses a server whose drives have on average the
least weighted time among all servers that can be reached, as long as these averages are below 2^31 - 1 and every
server that can be reached has drives that can be read. -/
theorem C97_least_io_partial (drives : Str → Option (List IO)) (up : Str → Bool) (cap : Str → Int) (t : Loads)
    (ds : List Str) (hup : ∃ c ∈ ds, up c = true)
    (hd : ∀ c ∈ ds, up c = true → ∃ l, drives c = some l ∧ l ≠ [] ∧ total IO.weightedIO l < 2 ^ 64 ∧
      total IO.weightedIO l / l.length < 2 ^ 31 - 1) :
    let pages := fun ip => if up ip then statPage (cap ip) (drives ip) else none
    ∃ r, (chooseIO pages true true ds t).1 = some r ∧ r ∈ ds ∧ up r = true ∧
      ∀ c ∈ ds, up c = true → ∃ x y, loadOf drives r = some x ∧ loadOf drives c = some y ∧ x ≤ y := by
  intro pages
  have hne : ds ≠ [] := by obtain ⟨c, hc, _⟩ := hup; exact List.ne_nil_of_mem hc
  obtain ⟨r, h1, h2, h3⟩ := choose_table pages true true ds hne t
  have htab : ∀ c ∈ ds, (chooseIO pages true true ds t).2 c =
      (pages c).map fun p => toInt32 (p.weightedIO.getD []) := by
    intro c hc
    simp only [chooseIO, Bool.and_self, ↓reduceIte, fetchIO]
    rw [fetch_get (fun ip => (pages ip).map fun p => toInt32 (p.weightedIO.getD [])), if_pos hc]
  have hload : ∀ c ∈ ds, up c = true → ∃ n : Nat, loadOf drives c = some n ∧
      (chooseIO pages true true ds t).2 c = some (n : Int) ∧ (n : Int) < maxInt32 := by
    intro c hc hu
    obtain ⟨l, e1, e2, e3, e4⟩ := hd c hc hu
    refine ⟨total IO.weightedIO l / l.length, by simp [loadOf, e1, e2], ?_, by unfold maxInt32; omega⟩
    rw [htab c hc]
    have hlen : l.length ≠ 0 := by simpa using e2
    obtain ⟨a, ha⟩ : ∃ a, average l = some a := by
      unfold average; rw [if_neg hlen]; exact ⟨_, rfl⟩
    have hw := C97_average ha (f := IO.weightedIO) (by simp [counters]) e3
    have : pages c = some ⟨fmtInt (cap c), some (fmtNat (total IO.weightedIO l / l.length))⟩ := by
      simp [pages, hu, statPage, e1, ha, hw]
    rw [this]
    simp only [Option.map_some, Option.getD_some]
    rw [toInt32_fmtNat (by omega)]
  have hrup : up r = true := by
    obtain ⟨c, hc, hu⟩ := hup
    obtain ⟨n, _, g2, g3⟩ := hload c hc hu
    obtain ⟨y, hy, _⟩ := h3 c hc _ g2 g3
    rw [htab r h2] at hy
    cases hu' : up r with
    | true => rfl
    | false => simp [pages, hu'] at hy
  refine ⟨r, h1, h2, hrup, fun c hc hu => ?_⟩
  obtain ⟨n, g1, g2, g3⟩ := hload c hc hu
  obtain ⟨m, k1, k2, _⟩ := hload r h2 hrup
  obtain ⟨y, hy, hle⟩ := h3 c hc _ g2 g3
  rw [k2] at hy
  cases hy
  exact ⟨m, n, k1, g1, by omega⟩

/-- **C97** Without a new table the choice is among the servers at hand, by the loads known from before. -/
theorem C97_old_table (pages : Str → Option Page) (old free : Bool) (h : old = false ∨ free = false) (ds : List Str)
    (hne : ds ≠ []) (t : Loads) :
    (chooseIO pages old free ds t).2 = t ∧ ∃ r ∈ ds, (chooseIO pages old free ds t).1 = some r ∧
      ∀ c ∈ ds, ∀ x, t c = some x → x < maxInt32 → ∃ y, t r = some y ∧ y ≤ x := by
  have ht : (chooseIO pages old free ds t).2 = t := by
    rcases h with h | h <;> subst h <;> simp [chooseIO]
  obtain ⟨r, h1, h2, h3⟩ := choose_table pages old free ds hne t
  rw [ht] at h3
  exact ⟨ht, r, h2, h1, h3⟩

/-- **C97** A table that is fetched forgets servers that cannot be reached, and keeps what it knew of servers that were
not among those asked. -/
theorem C97_fetch (pages : Str → Option Page) (ds : List Str) (t : Loads) (k : Str) :
    (k ∈ ds → pages k = none → fetchIO pages ds t k = none) ∧ (k ∉ ds → fetchIO pages ds t k = t k) := by
  unfold fetchIO
  rw [fetch_get (fun ip => (pages ip).map fun p => toInt32 (p.weightedIO.getD []))]
  exact ⟨fun h1 h2 => by simp [h1, h2], fun h => by simp [h]⟩

/-- The full statement of C97 for the choice: without a bound on the loads. -/
def C97_least_statement : Prop :=
  ∀ (drives : Str → Option (List IO)) (cap : Str → Int) (t : Loads) (ds : List Str), ds ≠ [] →
    (∀ c ∈ ds, ∃ n, loadOf drives c = some n) →
    ∃ r, (chooseIO (fun ip => statPage (cap ip) (drives ip)) true true ds t).1 = some r ∧
      ∀ c ∈ ds, ∀ x y, loadOf drives r = some x → loadOf drives c = some y → x ≤ y

/-- A drive with a weighted time. -/
def busy (n : Nat) : IO := { IO.zero with weightedIO := n }

example : (chooseIO (fun ip => statPage 0 (if ip = ['a'] then some [busy 7, busy 9] else some [busy 5])) true true
    [['a'], ['b']] (fun _ => none)).1 = some ['b'] := by decide

/-- **C97, refuted.** Every load from 2^31 to below 2^32 milliseconds, which a counter that only grows reaches after 25
days of one request at a time, counts as less than every load below: the busiest server is chosen. -/
theorem C97_wraps {m n : Nat} (hm : m < 2 ^ 31) (hn : 2 ^ 31 ≤ n) (hn' : n < 2 ^ 32) :
    toInt32 (fmtNat n) < toInt32 (fmtNat m) := by
  rw [toInt32_fmtNat hm]
  unfold toInt32
  rw [toInt64_fmtNat n (by omega)]
  unfold wrap32
  omega

theorem C97_least_statement_fails : ¬ C97_least_statement := by
  intro h
  obtain ⟨r, h1, h2⟩ := h (fun ip => if ip = ['a'] then some [busy 5] else some [busy 2147483648]) (fun _ => 0) (fun _ => none)
    [['a'], ['b']] (by simp) (by
      intro c hc
      by_cases hca : c = ['a']
      · exact ⟨5, by simp [loadOf, hca, total, busy]⟩
      · exact ⟨2147483648, by simp [loadOf, hca, total, busy]⟩)
  have hr : r = ['b'] := by
    have e : (chooseIO (fun ip => statPage 0 (if ip = ['a'] then some [busy 5] else some [busy 2147483648])) true true
      [['a'], ['b']] (fun _ => none)).1 = some ['b'] := by
      have hw : toInt32 (fmtNat 2147483648) < toInt32 (fmtNat 5) := C97_wraps (by decide) (by decide) (by decide)
      simp only [chooseIO, Bool.and_self, ↓reduceIte]
      have ha : fetchIO (fun ip => statPage 0 (if ip = ['a'] then some [busy 5] else some [busy 2147483648])) [['a'], ['b']]
          (fun _ => none) ['a'] = some (toInt32 (fmtNat 5)) := by
        simp [fetchIO, setLoad, statPage, average, IO.div, IO.add, add64, busy, IO.zero]
      have hb : fetchIO (fun ip => statPage 0 (if ip = ['a'] then some [busy 5] else some [busy 2147483648])) [['a'], ['b']]
          (fun _ => none) ['b'] = some (toInt32 (fmtNat 2147483648)) := by
        simp [fetchIO, setLoad, statPage, average, IO.div, IO.add, add64, busy, IO.zero]
      simp [extremalIndex, extremalLoop, betterIO, ha, hb, hw]
    rw [e] at h1
    exact (Option.some.inj h1).symm
  have := h2 ['a'] (by simp) 2147483648 5 (by simp [loadOf, hr, total, busy]) (by simp [loadOf, total, busy])
  omega

/-- **C97, refuted.** A server whose counters cannot be read says nothing of its load, which counts as 0: it is chosen
before all others. -/
theorem C97_silent_preferred (cap : Int) (p : Page) (hp : statPage cap none = some p) :
    toInt32 (p.weightedIO.getD []) = 0 ∧
    (chooseIO (fun ip => statPage 0 (if ip = ['a'] then some [busy 1] else none)) true true
      [['a'], ['b']] (fun _ => none)).1 = some ['b'] := by
  cases hp
  refine ⟨?_, by decide⟩
  show wrap32 (toInt64 []) = 0
  decide

/-! ## Space -/

theorem toInt64_fmtInt {i : Int} (h0 : -2 ^ 63 ≤ i) (h1 : i < 2 ^ 63) : toInt64 (fmtInt i) = i := by
  unfold fmtInt
  split
  · rename_i h
    unfold toInt64
    simp only
    rw [parseDigits_fmtNat]
    simp only [Option.getD_some]
    omega
  · rename_i h
    rw [toInt64_fmtNat _ (by omega)]
    omega

/-- **C97** The strategy `space-first` sees the number of bytes that a server counts exactly, whatever it is. -/
theorem C97_space_exact (drives : Str → Option (List IO)) (cap : Str → Int) (t : Loads) (ds : List Str) {c : Str}
    (hc : c ∈ ds) (h0 : -2 ^ 63 ≤ cap c) (h1 : cap c < 2 ^ 63) (hd : drives c ≠ some []) :
    fetchSpace (fun ip => statPage (cap ip) (drives ip)) ds t c = some (cap c) := by
  unfold fetchSpace
  rw [fetch_get (fun ip => (statPage (cap ip) (drives ip)).map fun p => toInt64 p.capacity), if_pos hc]
  unfold statPage
  cases hdc : drives c with
  | none => simp [toInt64_fmtInt h0 h1]
  | some l =>
    have hl : l.length ≠ 0 := by
      intro h; exact hd (by rw [hdc, List.length_eq_zero_iff.1 h])
    simp [average, hl, toInt64_fmtInt h0 h1]

/-- **C97** It chooses the server that counts the fewest bytes. -/
theorem C97_least_space (drives : Str → Option (List IO)) (cap : Str → Int) (t : Loads) (ds : List Str) (hne : ds ≠ [])
    (hcap : ∀ c ∈ ds, -2 ^ 63 ≤ cap c ∧ cap c < 2 ^ 63 - 1) (hd : ∀ c ∈ ds, drives c ≠ some []) :
    ∃ r ∈ ds, spaceSelect (fetchSpace (fun ip => statPage (cap ip) (drives ip)) ds t) ds = some r ∧
      ∀ c ∈ ds, cap r ≤ cap c := by
  have he : ∀ c ∈ ds, fetchSpace (fun ip => statPage (cap ip) (drives ip)) ds t c = some (cap c) := fun c hc =>
    C97_space_exact drives cap t ds hc (hcap c hc).1 (by have := (hcap c hc).2; omega) (hd c hc)
  obtain ⟨_, r, _, h1, h2, h3⟩ := C46_least_loaded (fetchSpace (fun ip => statPage (cap ip) (drives ip)) ds t) ds hne
  refine ⟨r, h2, h1, fun c hc => ?_⟩
  obtain ⟨y, hy, hle⟩ := h3 c hc _ (he c hc) (by have := (hcap c hc).2; unfold maxInt64; omega)
  rw [he r h2] at hy
  cases hy
  exact hle

example : spaceSelect (fetchSpace (fun ip => statPage (if ip = ['a'] then 9 else -3) (some [busy 1])) [['a'], ['b']]
    (fun _ => none)) [['a'], ['b']] = some ['b'] := by decide

end Verif.Load
