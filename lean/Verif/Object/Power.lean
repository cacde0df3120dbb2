import Verif.Common.Str

/-!
# Data servers that lose power (C132)

Models what the files of a data server are after the power was lost: `AppendFileAligned`, `WriteFile`, `CommitFile`, `Delete` and `Exist` of
src/objectserver/internal/usecase/service/objects_service.go, the temporary files of
src/objectserver/internal/controller/http/temp/temp_rest.go, and the question of the API server whether a shard is already stored
(src/apiserver/internal/usecase/service/object_service.go `LocateObject`).  No function of the data server calls `Sync` on a file or a
directory, and no file is opened with `O_SYNC` (disk.OpenFileDirectIO opens with `O_DIRECT` if the file system has it, which is not a
promise that the size of the file, its name, or what the drive itself buffers is kept).

The kernel: a file has bytes that processes see and bytes that are on the drive, a directory likewise; the kernel writes back what it
wants when it wants; when the power is lost, what is on the drive is left.  Simplified: what is on the drive of a file is its beginning
(it could also have zeros in it); padding to whole pages (C49) and other drives (C52) are left out; the process sees one directory.
The marks in the cache and the path database are C67; here the question whether a shard exists is answered by the files.
-/

namespace Verif.Object.Power

open Verif

/-! ## Model -/

/-- Names of files: temporary ones, temp_rest.go:51-54, and stored ones. -/
inductive Nm
  | tmp (id : Nat)
  | obj (name : Str)
  deriving DecidableEq

/-- A file: what processes read, and what is on the drive. -/
structure Ino (α : Type) where
  data : List α := []
  disk : List α := []

/-- A request `PUT /objects/:name` that is writing. -/
structure Writer (α : Type) where
  name : Str
  ino : Nat
  whole : List α
  rest : List α

structure St (α : Type) where
  ino : Nat → Ino α := fun _ => {}
  /-- the directory as processes see it, and as it is on the drive -/
  live : Nm → Option Nat := fun _ => none
  disk : Nm → Option Nat := fun _ => none
  /-- the next file -/
  next : Nat := 0
  /-- the uploads the cache knows (temp id, name of the shard), and the next id -/
  infos : List (Nat × Str) := []
  fresh : Nat := 0
  writers : List (Writer α) := []
  /-- what clients were told is stored -/
  acked : List (Str × List α) := []

def upd {β γ : Type} [DecidableEq β] (f : β → γ) (a : β) (b : γ) : β → γ := fun x => if x = a then b else f x

inductive Ev (α : Type)
  | post (name : Str)
  | patch (id : Nat) (chunk : List α)
  | commit (id : Nat)
  | putStart (name : Str) (whole : List α)
  /-- the `j`-th request that is writing writes its next `k` bytes -/
  | putWrite (j k : Nat)
  | putEnd (j : Nat)
  /-- the API server asks whether the shard is stored, and sends nothing if it is -/
  | offer (name : Str) (content : List α)
  | del (name : Str)
  /-- the process ends; the kernel goes on -/
  | kill
  /-- the kernel writes back: a part of a file, an entry of the directory, the directory, everything -/
  | kdata (i k : Nat)
  | kentry (n : Nm)
  | kdir
  | kall
  | power

/-- `Ino` after its first `k` bytes were written back. -/
def Ino.back {α : Type} (x : Ino α) (k : Nat) : Ino α := ⟨x.data, x.data.take (max k x.disk.length)⟩

/-- A write to the file `i`: `O_APPEND`, objects_service.go:205-212. -/
def append {α : Type} (s : St α) (i : Nat) (chunk : List α) : St α :=
  { s with ino := upd s.ino i { s.ino i with data := (s.ino i).data ++ chunk } }

/-- `O_CREATE`, objects_service.go:206: an empty file. -/
def create {α : Type} (s : St α) (n : Nm) : St α :=
  { s with ino := upd s.ino s.next {}, live := upd s.live n (some s.next), next := s.next + 1 }

/-- `os.Rename`, objects_service.go:283. -/
def rename {α : Type} (s : St α) (a b : Nm) : St α := { s with live := upd (upd s.live b (s.live a)) a none }

/-- `file.Sync()` and `Sync` of the directory, which the code never calls. -/
def fsync {α : Type} (s : St α) (n : Nm) (i : Nat) : St α :=
  { s with ino := upd s.ino i { s.ino i with disk := (s.ino i).data }, disk := upd s.disk n (some i) }

/-- One step.  `sync` is false for the code as it is; true makes `commit` write back before it answers. -/
def step {α : Type} (sync : Bool) (s : St α) : Ev α → St α
  -- `Post`, temp_rest.go:40-61
  | .post n => { s with infos := s.infos ++ [(s.fresh, n)], fresh := s.fresh + 1 }
  -- `Patch`, temp_rest.go:18-33
  | .patch id chunk =>
    if s.infos.any (·.1 == id) then
      match s.live (.tmp id) with
      | some i => append s i chunk
      | none => append (create s (.tmp id)) s.next chunk
    else s
  -- `Put`, temp_rest.go:63-83, with `CommitFile`, objects_service.go:258-299, for shards that are not compressed.  (A compressed shard is
  -- written under its name like the body of `PUT /objects/:name`, line 278.)
  | .commit id =>
    match s.infos.find? (·.1 == id) with
    | none => s
    | some (_, n) =>
      match s.live (.obj n), s.live (.tmp id) with
      | some _, some i => { s with infos := s.infos.filter (·.1 != id), acked := s.acked ++ [(n, (s.ino i).data)] }
      | some _, none => { s with infos := s.infos.filter (·.1 != id) }
      | none, none => s
      | none, some i =>
        let s1 := rename s (.tmp id) (.obj n)
        let s2 := if sync then fsync s1 (.obj n) i else s1
        { s2 with infos := s.infos.filter (·.1 != id), acked := s.acked ++ [(n, (s.ino i).data)] }
  -- `Put`, objects_service.go:81-106
  | .putStart n c =>
    match s.live (.obj n) with
    | some _ => { s with acked := s.acked ++ [(n, c)] }
    | none => { create s (.obj n) with writers := s.writers ++ [⟨n, s.next, c, c⟩] }
  | .putWrite j k =>
    match s.writers[j]? with
    | none => s
    | some w => { append s w.ino (w.rest.take k) with writers := s.writers.set j { w with rest := w.rest.drop k } }
  | .putEnd j =>
    match s.writers[j]? with
    | none => s
    | some w => if w.rest.isEmpty then { s with writers := s.writers.eraseIdx j, acked := s.acked ++ [(w.name, w.whole)] } else s
  -- `handlerLocate`, service/locate.go:78-104, with `Exist`
  | .offer n c =>
    match s.live (.obj n) with
    | some _ => { s with acked := s.acked ++ [(n, c)] }
    | none => s
  -- `Delete`, objects_service.go:157-174
  | .del n => { s with live := upd s.live (.obj n) none, acked := s.acked.filter (·.1 != n) }
  | .kill => { s with infos := [], writers := [] }
  | .kdata i k => { s with ino := upd s.ino i ((s.ino i).back k) }
  | .kentry n => { s with disk := upd s.disk n (s.live n) }
  | .kdir => { s with disk := s.live }
  | .kall => { s with disk := s.live, ino := fun i => ⟨(s.ino i).data, (s.ino i).data⟩ }
  | .power => { s with live := s.disk, ino := fun i => ⟨(s.ino i).disk, (s.ino i).disk⟩, infos := [], writers := [] }

def run {α : Type} (sync : Bool) (s : St α) (es : List (Ev α)) : St α := es.foldl (step sync) s

/-- `Get`, objects_service.go:109-125. -/
def read {α : Type} (s : St α) (n : Str) : Option (List α) := (s.live (.obj n)).map fun i => (s.ino i).data

/-! ## Specification -/

/-- What clients were told is stored is read. -/
def Kept {α : Type} (s : St α) : Prop := ∀ n c, (n, c) ∈ s.acked → read s n = some c

/-- Names are digests of contents: whatever is acknowledged under a name is the content of that name. -/
def Honest {α : Type} (sync : Bool) (content : Str → List α) (s : St α) (es : List (Ev α)) : Prop :=
  ∀ es', es' <+: es → ∀ n c, (n, c) ∈ (run sync s es').acked → c = content n

/-- Only uploads through temporary files. -/
def ViaTemp {α : Type} : Ev α → Prop
  | .putStart .. => False
  | _ => True

/-- The kernel never writes back a part. -/
def InOrder {α : Type} : Ev α → Prop
  | .kdata .. | .kentry .. | .kdir => False
  | _ => True

/-! ## Invariants -/

/-- Files are numbered below `next`, ids below `fresh`. -/
structure Wf {α : Type} (s : St α) : Prop where
  live : ∀ n i, s.live n = some i → i < s.next
  disk : ∀ n i, s.disk n = some i → i < s.next
  ids : ∀ x ∈ s.infos, x.1 < s.fresh
  noLive : ∀ id, s.fresh ≤ id → s.live (.tmp id) = none
  noDisk : ∀ id, s.fresh ≤ id → s.disk (.tmp id) = none
  ws : ∀ w ∈ s.writers, w.ino < s.next

theorem wf_init {α : Type} : Wf ({} : St α) := by
  constructor <;> intros <;> simp_all

theorem wf_step {α : Type} (sync : Bool) {s : St α} (h : Wf s) (e : Ev α) : Wf (step sync s e) := by
  obtain ⟨h1, h2, h3, h4, h5, h6⟩ := h
  cases e with
  | post n => unfold step; constructor <;> grind
  | patch id chunk =>
    unfold step
    dsimp only
    split
    · rename_i ha
      have hid : id < s.fresh := by
        obtain ⟨x, hx, hx'⟩ := List.any_eq_true.1 ha
        have := h3 x hx
        simp at hx'
        omega
      split
      · constructor <;> simp only [append] <;> grind
      · constructor <;> simp only [append, create, upd] <;> grind
    · exact ⟨h1, h2, h3, h4, h5, h6⟩
  | commit id =>
    unfold step
    dsimp only
    split
    · exact ⟨h1, h2, h3, h4, h5, h6⟩
    · rename_i x n hf
      split
      · constructor <;> grind
      · constructor <;> grind
      · exact ⟨h1, h2, h3, h4, h5, h6⟩
      · cases sync <;> constructor <;> simp only [rename, fsync, upd, Bool.false_eq_true, ↓reduceIte] <;> grind
  | putStart n c =>
    unfold step
    dsimp only
    split
    · exact ⟨h1, h2, h3, h4, h5, h6⟩
    · constructor <;> simp only [create, upd] <;> grind
  | putWrite j k =>
    unfold step
    dsimp only
    split
    · exact ⟨h1, h2, h3, h4, h5, h6⟩
    · rename_i w hw
      have hwm := List.mem_of_getElem? hw
      constructor <;> simp only [append, upd]
      · grind
      · grind
      · grind
      · grind
      · grind
      · intro x hx
        rcases List.mem_or_eq_of_mem_set hx with hx | rfl
        · exact h6 x hx
        · exact h6 w hwm
  | putEnd j =>
    unfold step
    dsimp only
    split
    · exact ⟨h1, h2, h3, h4, h5, h6⟩
    · split
      · exact ⟨h1, h2, h3, h4, h5, fun w hw => h6 w (List.mem_of_mem_eraseIdx hw)⟩
      · exact ⟨h1, h2, h3, h4, h5, h6⟩
  | offer n c =>
    unfold step
    dsimp only
    split <;> exact ⟨h1, h2, h3, h4, h5, h6⟩
  | del n => unfold step; constructor <;> simp only [upd] <;> grind
  | kill => exact ⟨h1, h2, by simp [step], h4, h5, by simp [step]⟩
  | kdata i k => exact ⟨h1, h2, h3, h4, h5, h6⟩
  | kentry n => unfold step; constructor <;> simp only [upd] <;> grind
  | kdir => exact ⟨h1, h1, h3, h4, h4, h6⟩
  | kall => exact ⟨h1, h1, h3, h4, h4, h6⟩
  | power => exact ⟨h2, h2, by simp [step], h5, h5, by simp [step]⟩

theorem wf_run {α : Type} (sync : Bool) (es : List (Ev α)) : ∀ {s : St α}, Wf s → Wf (run sync s es) := by
  induction es with
  | nil => intro s h; exact h
  | cons e es ih => intro s h; exact ih (wf_step sync h e)

/-- The shard `n` has the content `c`, all of it on the drive, and nobody will write to it. -/
structure Settled {α : Type} (s : St α) (n : Str) (i : Nat) (c : List α) : Prop where
  live : s.live (.obj n) = some i
  disk : s.disk (.obj n) = some i
  data : (s.ino i).data = c
  ondisk : (s.ino i).disk = c
  tmps : ∀ x ∈ s.infos, s.live (.tmp x.1) ≠ some i
  ws : ∀ w ∈ s.writers, w.ino ≠ i

theorem settled_step {α : Type} (sync : Bool) {s : St α} (hw : Wf s) {n : Str} {i : Nat} {c : List α} (h : Settled s n i c) (e : Ev α)
    (he : e ≠ .del n) : Settled (step sync s e) n i c := by
  have hi := hw.live _ _ h.live
  obtain ⟨w1, w2, w3, w4, w5, w6⟩ := hw
  obtain ⟨h1, h2, h3, h4, h5, h6⟩ := h
  cases e with
  | post m => unfold step; constructor <;> grind
  | patch id chunk =>
    unfold step
    dsimp only
    split
    · rename_i ha
      obtain ⟨x, hx, hx'⟩ := List.any_eq_true.1 ha
      have hx2 : x.1 = id := by simpa using hx'
      have hne := h5 x hx
      rw [hx2] at hne
      split
      · constructor <;> simp only [append, upd] <;> grind
      · constructor <;> simp only [append, create, upd] <;> grind
    · exact ⟨h1, h2, h3, h4, h5, h6⟩
  | commit id =>
    unfold step
    dsimp only
    split
    · exact ⟨h1, h2, h3, h4, h5, h6⟩
    · rename_i x m hf
      have hx := List.mem_of_find?_eq_some hf
      have hx2 : x = id := by simpa using List.find?_some hf
      have hne := h5 _ hx
      split
      · constructor <;> grind
      · constructor <;> grind
      · exact ⟨h1, h2, h3, h4, h5, h6⟩
      · cases sync <;> constructor <;> simp only [rename, fsync, upd, Bool.false_eq_true, ↓reduceIte] <;> grind
  | putStart m d =>
    unfold step
    dsimp only
    split
    · exact ⟨h1, h2, h3, h4, h5, h6⟩
    · constructor <;> simp only [create, upd] <;> grind
  | putWrite j k =>
    unfold step
    dsimp only
    split
    · exact ⟨h1, h2, h3, h4, h5, h6⟩
    · rename_i w hw
      have hwm := h6 w (List.mem_of_getElem? hw)
      constructor <;> simp only [append, upd]
      · grind
      · grind
      · grind
      · grind
      · grind
      · intro x hx
        rcases List.mem_or_eq_of_mem_set hx with hx | rfl
        · exact h6 x hx
        · exact hwm
  | putEnd j =>
    unfold step
    dsimp only
    split
    · exact ⟨h1, h2, h3, h4, h5, h6⟩
    · split
      · exact ⟨h1, h2, h3, h4, h5, fun w hw => h6 w (List.mem_of_mem_eraseIdx hw)⟩
      · exact ⟨h1, h2, h3, h4, h5, h6⟩
  | offer m d =>
    unfold step
    dsimp only
    split <;> exact ⟨h1, h2, h3, h4, h5, h6⟩
  | del m => unfold step; constructor <;> simp only [upd] <;> grind
  | kill => exact ⟨h1, h2, h3, h4, by simp [step], by simp [step]⟩
  | kdata j k =>
    unfold step
    constructor <;> simp only [upd, Ino.back]
    · exact h1
    · exact h2
    · grind
    · by_cases hj : i = j
      · subst hj
        rw [if_pos rfl, h3, h4]
        dsimp only
        exact List.take_of_length_le (by omega)
      · rw [if_neg hj]; exact h4
    · exact h5
    · exact h6
  | kentry m => unfold step; constructor <;> simp only [upd] <;> grind
  | kdir => exact ⟨h1, h1, h3, h4, h5, h6⟩
  | kall => exact ⟨h1, h1, h3, h3, h5, h6⟩
  | power => exact ⟨h2, h2, h4, h4, by simp [step], by simp [step]⟩

theorem settled_run {α : Type} (sync : Bool) (es : List (Ev α)) : ∀ {s : St α} {n : Str} {i : Nat} {c : List α}, Wf s → Settled s n i c →
    (∀ e ∈ es, e ≠ .del n) → Settled (run sync s es) n i c := by
  induction es with
  | nil => intro s n i c _ h _; exact h
  | cons e es ih =>
    intro s n i c hw h he
    exact ih (wf_step sync hw e) (settled_step sync hw h e (he e (by simp))) (fun x hx => he x (by simp [hx]))

/-- The files that processes see are whole. -/
structure LiveOk {α : Type} (content : Str → List α) (s : St α) : Prop where
  inj : ∀ a b i, s.live a = some i → s.live b = some i → a = b
  data : ∀ n i, s.live (.obj n) = some i → (s.ino i).data = content n
  ws : s.writers = []

/-- The files on the drive are whole. -/
structure DiskOk {α : Type} (content : Str → List α) (s : St α) : Prop where
  inj : ∀ a b i, s.disk a = some i → s.disk b = some i → a = b
  data : ∀ n i, s.disk (.obj n) = some i → (s.ino i).disk = content n

theorem live_step {α : Type} (sync : Bool) {content : Str → List α} {s : St α} (hw : Wf s) (h : LiveOk content s) (e : Ev α)
    (hv : ViaTemp e) (hp : e ≠ .power) (hc : ∀ n c, (n, c) ∈ (step sync s e).acked → c = content n) : LiveOk content (step sync s e) := by
  obtain ⟨w1, w2, w3, w4, w5, w6⟩ := hw
  obtain ⟨h1, h2, h3⟩ := h
  cases e with
  | post n => exact ⟨h1, h2, h3⟩
  | patch id chunk =>
    unfold step
    dsimp only
    split
    · split
      · constructor <;> simp only [append, upd] <;> grind
      · constructor <;> simp only [append, create, upd] <;> grind
    · exact ⟨h1, h2, h3⟩
  | commit id =>
    revert hc
    unfold step
    dsimp only
    split
    · intro _; exact ⟨h1, h2, h3⟩
    · rename_i x n hf
      split
      · intro _; exact ⟨h1, h2, h3⟩
      · intro _; exact ⟨h1, h2, h3⟩
      · intro _; exact ⟨h1, h2, h3⟩
      · rename_i i ho ht
        intro hc
        have hci := hc n (s.ino i).data (by simp)
        cases sync <;> constructor <;> simp only [rename, fsync, upd, Bool.false_eq_true, ↓reduceIte] <;> grind
  | putStart n c => exact absurd hv id
  | putWrite j k => unfold step; dsimp only; rw [h3]; exact ⟨h1, h2, h3⟩
  | putEnd j => unfold step; dsimp only; rw [h3]; exact ⟨h1, h2, h3⟩
  | offer n c =>
    unfold step
    dsimp only
    split <;> exact ⟨h1, h2, h3⟩
  | del n => unfold step; constructor <;> simp only [upd] <;> grind
  | kill => exact ⟨h1, h2, rfl⟩
  | kdata i k => unfold step; constructor <;> simp only [upd, Ino.back] <;> grind
  | kentry n => exact ⟨h1, h2, h3⟩
  | kdir => exact ⟨h1, h2, h3⟩
  | kall => exact ⟨h1, h2, h3⟩
  | power => exact absurd rfl hp

/-- Acknowledged shards have files. -/
theorem acked_step {α : Type} (sync : Bool) {s : St α} (hs : s.writers = []) (h : ∀ n c, (n, c) ∈ s.acked → s.live (.obj n) ≠ none) (e : Ev α)
    (hv : ViaTemp e) (hp : e ≠ .power) : ∀ n c, (n, c) ∈ (step sync s e).acked → (step sync s e).live (.obj n) ≠ none := by
  cases e with
  | post n => exact h
  | patch id chunk =>
    unfold step
    dsimp only
    split
    · split
      · exact h
      · simp only [append, create, upd]; grind
    · exact h
  | commit id =>
    unfold step
    dsimp only
    split
    · exact h
    · split
      · intro n c hc
        rcases List.mem_append.1 hc with hc | hc
        · exact h n c hc
        · simp at hc; grind
      · exact h
      · exact h
      · intro n c hc
        rcases List.mem_append.1 hc with hc | hc
        · have := h n c hc
          cases sync <;> simp only [rename, fsync, upd, Bool.false_eq_true, ↓reduceIte] <;> grind
        · simp at hc
          cases sync <;> simp only [rename, fsync, upd, Bool.false_eq_true, ↓reduceIte] <;> grind
  | putStart n c => exact absurd hv id
  | putWrite j k => unfold step; dsimp only; rw [hs]; exact h
  | putEnd j => unfold step; dsimp only; rw [hs]; exact h
  | offer n c =>
    unfold step
    dsimp only
    split
    · intro m d hm
      rcases List.mem_append.1 hm with hm | hm
      · exact h m d hm
      · simp at hm; grind
    · exact h
  | del n => unfold step; simp only [upd]; grind
  | kill => exact h
  | kdata i k => exact h
  | kentry n => exact h
  | kdir => exact h
  | kall => exact h
  | power => exact absurd rfl hp

theorem disk_step {α : Type} (sync : Bool) {content : Str → List α} {s : St α} (hw : Wf s) (hl : LiveOk content s) (h : DiskOk content s)
    (e : Ev α) (hs : sync = false) (hv : ViaTemp e) (ho : InOrder e) : DiskOk content (step sync s e) := by
  obtain ⟨w1, w2, w3, w4, w5, w6⟩ := hw
  obtain ⟨h1, h2⟩ := h
  obtain ⟨l1, l2, l3⟩ := hl
  subst hs
  cases e with
  | post n => exact ⟨h1, h2⟩
  | patch id chunk =>
    unfold step
    dsimp only
    split
    · split
      · constructor <;> simp only [append, upd] <;> grind
      · constructor <;> simp only [append, create, upd] <;> grind
    · exact ⟨h1, h2⟩
  | commit id =>
    unfold step
    dsimp only
    split
    · exact ⟨h1, h2⟩
    · split <;> exact ⟨h1, h2⟩
  | putStart n c => exact absurd hv id
  | putWrite j k => unfold step; dsimp only; rw [l3]; exact ⟨h1, h2⟩
  | putEnd j => unfold step; dsimp only; rw [l3]; exact ⟨h1, h2⟩
  | offer n c =>
    unfold step
    dsimp only
    split <;> exact ⟨h1, h2⟩
  | del n => exact ⟨h1, h2⟩
  | kill => exact ⟨h1, h2⟩
  | kdata i k => exact absurd ho id
  | kentry n => exact absurd ho id
  | kdir => exact absurd ho id
  | kall => exact ⟨l1, l2⟩
  | power => exact ⟨h1, h2⟩

theorem Honest.tail {α : Type} {sync : Bool} {content : Str → List α} {s : St α} {e : Ev α} {es : List (Ev α)}
    (h : Honest sync content s (e :: es)) : Honest sync content (step sync s e) es := by
  intro es' hp n c hc
  exact h (e :: es') (by rw [List.prefix_cons_inj]; exact hp) n c hc

theorem Honest.head {α : Type} {sync : Bool} {content : Str → List α} {s : St α} {e : Ev α} {es : List (Ev α)}
    (h : Honest sync content s (e :: es)) : ∀ n c, (n, c) ∈ (step sync s e).acked → c = content n :=
  fun n c hc => h [e] (by simp) n c hc

/-! ## Synced commits -/

/-- What holds if every commit writes back before it answers. -/
structure Synced {α : Type} (content : Str → List α) (s : St α) : Prop where
  ws : s.writers = []
  /-- what is seen is on the drive -/
  live : ∀ n i, s.live (.obj n) = some i → s.disk (.obj n) = some i
  disk : ∀ n i, s.disk (.obj n) = some i → (s.ino i).data = content n ∧ (s.ino i).disk = content n
  tmps : ∀ x ∈ s.infos, ∀ i, s.live (.tmp x.1) = some i → ∀ n, s.disk (.obj n) ≠ some i
  inj : ∀ x ∈ s.infos, ∀ i, s.live (.tmp x.1) = some i → ∀ nm, s.live nm = some i → nm = .tmp x.1

theorem synced_step {α : Type} {content : Str → List α} {s : St α} (hw : Wf s) (h : Synced content s) (e : Ev α)
    (hv : ViaTemp e) (hc : ∀ n c, (n, c) ∈ (step true s e).acked → c = content n) : Synced content (step true s e) := by
  obtain ⟨w1, w2, w3, w4, w5, w6⟩ := hw
  obtain ⟨h1, h2, h3, h4, h5⟩ := h
  cases e with
  | post n =>
    unfold step
    refine ⟨h1, h2, h3, ?_, ?_⟩ <;> dsimp only <;> grind
  | patch id chunk =>
    unfold step
    dsimp only
    split
    · rename_i ha
      obtain ⟨x, hx, hx'⟩ := List.any_eq_true.1 ha
      have hx2 : x.1 = id := by simpa using hx'
      subst hx2
      have a4 := h4 x hx
      split
      · constructor <;> simp only [append, upd] <;> grind
      · constructor <;> simp only [append, create, upd] <;> grind
    · exact ⟨h1, h2, h3, h4, h5⟩
  | commit id =>
    revert hc
    unfold step
    dsimp only
    split
    · intro _; exact ⟨h1, h2, h3, h4, h5⟩
    · rename_i x n hf
      have hx := List.mem_of_find?_eq_some hf
      have hx2 : x = id := by simpa using List.find?_some hf
      subst hx2
      have a4 := h4 _ hx
      have a5 := h5 _ hx
      have hfil : ∀ y ∈ s.infos.filter (·.1 != x), y ∈ s.infos ∧ y.1 ≠ x := by
        intro y hy; simpa using hy
      split
      · intro _; exact ⟨h1, h2, h3, fun y hy => h4 y (hfil y hy).1, fun y hy => h5 y (hfil y hy).1⟩
      · intro _; exact ⟨h1, h2, h3, fun y hy => h4 y (hfil y hy).1, fun y hy => h5 y (hfil y hy).1⟩
      · intro _; exact ⟨h1, h2, h3, h4, h5⟩
      · rename_i i ho ht
        intro hc
        have hci := hc n (s.ino i).data (by simp)
        constructor <;> simp only [rename, fsync, upd, ↓reduceIte] <;> grind
  | putStart n c => exact absurd hv id
  | putWrite j k => unfold step; dsimp only; rw [h1]; exact ⟨h1, h2, h3, h4, h5⟩
  | putEnd j => unfold step; dsimp only; rw [h1]; exact ⟨h1, h2, h3, h4, h5⟩
  | offer n c =>
    unfold step
    dsimp only
    split <;> exact ⟨h1, h2, h3, h4, h5⟩
  | del n => unfold step; constructor <;> simp only [upd] <;> grind
  | kill => exact ⟨rfl, h2, h3, by simp [step], by simp [step]⟩
  | kdata j k =>
    unfold step
    refine ⟨h1, h2, ?_, h4, h5⟩
    simp only [upd, Ino.back]
    intro n i hi
    obtain ⟨d1, d2⟩ := h3 n i hi
    by_cases hj : i = j
    · subst hj
      rw [if_pos rfl, d1, d2]
      exact ⟨rfl, List.take_of_length_le (by omega)⟩
    · rw [if_neg hj]; exact ⟨d1, d2⟩
  | kentry n => unfold step; constructor <;> simp only [upd] <;> grind
  | kdir =>
    unfold step
    exact ⟨h1, fun n i hi => hi, fun n i hi => h3 n i (h2 n i hi), (fun x hx i hi n hn => by have := h5 x hx i hi _ hn; cases this), h5⟩
  | kall =>
    unfold step
    exact ⟨h1, fun n i hi => hi, fun n i hi => ⟨(h3 n i (h2 n i hi)).1, (h3 n i (h2 n i hi)).1⟩,
      (fun x hx i hi n hn => by have := h5 x hx i hi _ hn; cases this), h5⟩
  | power => exact ⟨rfl, fun n i hi => hi, fun n i hi => ⟨(h3 n i hi).2, (h3 n i hi).2⟩, by simp [step], by simp [step]⟩

end Verif.Object.Power
