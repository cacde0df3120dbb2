import Verif.Object.Drives

/-!
# The capacity that the pages show (C138)

Models src/common/system/disk/stat_linux.go (`GetInfo`), the part of src/common/system/system_info.go and syncer.go (`NewInfo`, `Sync`) that
concerns drives, and the sums of src/adminserver/ui/src/pages/server/data.vue:39-56 (meta.vue:206-223 has the same), next to the table of drives
that a data server stores its shards on (`Verif.Drives.update`, driver_manager.go:33-65).  The other parts of a sample are in
`Verif.Load` (C97) and `Verif.Admin.Stat` (C76).

Simplified: the sums of the page are exact (they are floating point numbers, exact below 2^53).
-/

namespace Verif.DiskInfo

open Verif

/-! ## Model -/

/-- What `statfs` reports of a file system: unit, blocks, free blocks, blocks that are free for the server. -/
structure Statfs where
  frsize : UInt64
  blocks : UInt64
  bfree : UInt64
  bavail : UInt64

/-- The sizes of `disk.Info`, disk/model.go:30-39. -/
structure Info where
  total : UInt64
  free : UInt64
  used : UInt64
  deriving DecidableEq

/-- `GetInfo`, stat_linux.go:36-70, after `Statfs` has succeeded.  `none`: the error of lines 55-57. -/
def getInfo (s : Statfs) : Option Info :=
  let reserved := s.bfree - s.bavail
  let total := s.frsize * (s.blocks - reserved)
  let free := s.frsize * s.bavail
  if free > total then none else some ⟨total, free, total - free⟩

/-- A machine: the file system that a path lies on, what `statfs` reports of it (`none`: error), and the answer of
`disk.AllMountPoints` (disk/partitions.go:7-17). -/
structure Machine where
  fs : Str → Nat
  stat : Nat → Option Statfs
  mounts : Option (List Str)

/-- The sizes of a file system. -/
def Machine.size (m : Machine) (f : Nat) : Option Info := (m.stat f).bind getInfo

/-- `disk.GetInfo(path)`. -/
def Machine.info (m : Machine) (path : Str) : Option Info := m.size (m.fs path)

/-- What `DriverManager.Update` sees of a machine. -/
def Machine.sys (m : Machine) : Drives.Sys :=
  ⟨m.mounts, fun mp => (m.info mp).map fun i => (i.free.toNat, i.total.toNat)⟩

/-- `disk.Root`, stat_linux.go:31-33. -/
def root : Str := ['/']

/-- A data server: its machine and its settings. -/
structure Server where
  machine : Nat
  conf : Drives.Conf

/-- The table of drives that the server stores shards on, after its first update. -/
def table (ms : Nat → Machine) (s : Server) : List Drives.Driver := Drives.update s.conf [] (ms s.machine).sys

/-- The sizes in the sample of a server: `NewInfo(disk.Root)`, syncer.go:53.  Without a sample the pages have zeros
(`ZeroInfo`, system_info.go:18-25). -/
def reported (ms : Nat → Machine) (s : Server) : Info := ((ms s.machine).info root).getD ⟨0, 0, 0⟩

/-- Sizes that are added up: used, total, free. -/
structure Cap where
  used : Nat
  total : Nat
  free : Nat
  deriving DecidableEq

/-- `cap.used += …`, data.vue:50-52. -/
def Cap.add (c : Cap) (i : Info) : Cap := ⟨c.used + i.used.toNat, c.total + i.total.toNat, c.free + i.free.toNat⟩

/-- The capacity that the page of the data servers shows, data.vue:39-56. -/
def page (ms : Nat → Machine) (servers : List Server) : Cap := servers.foldl (fun c s => c.add (reported ms s)) ⟨0, 0, 0⟩

/-- The numbers of a list, each once. -/
def once : List Nat → List Nat
  | [] => []
  | f :: l => if f ∈ once l then once l else f :: once l

/-- A repair, not in the code: a server reports every file system of its table once. -/
def reportedDrives (ms : Nat → Machine) (s : Server) : List Info :=
  (once ((table ms s).map fun d => (ms s.machine).fs d.mount)).map fun f => ((ms s.machine).size f).getD ⟨0, 0, 0⟩

/-- The page with that repair. -/
def pageDrives (ms : Nat → Machine) (servers : List Server) : Cap :=
  servers.foldl (fun c s => (reportedDrives ms s).foldl Cap.add c) ⟨0, 0, 0⟩

/-! ## Specification -/

/-- File system `x.2` of machine `x.1` is one that a server stores shards on. -/
def Stores (ms : Nat → Machine) (servers : List Server) (x : Nat × Nat) : Prop :=
  ∃ s ∈ servers, s.machine = x.1 ∧ ∃ d ∈ table ms s, (ms s.machine).fs d.mount = x.2

/-- The capacity of some file systems. -/
def capacity (ms : Nat → Machine) (l : List (Nat × Nat)) : Cap :=
  let i := fun x : Nat × Nat => ((ms x.1).size x.2).getD ⟨0, 0, 0⟩
  ⟨(l.map fun x => (i x).used.toNat).sum, (l.map fun x => (i x).total.toNat).sum, (l.map fun x => (i x).free.toNat).sum⟩

/-- The property as stated: the page shows the capacity of the file systems that shards are stored on. -/
def Statement : Prop :=
  ∀ (ms : Nat → Machine) (servers : List Server) (l : List (Nat × Nat)), l.Nodup → (∀ x, x ∈ l ↔ Stores ms servers x) →
    page ms servers = capacity ms l

/-! ## Sizes of one file system -/

/-- **C138** The sizes of a file system always add up. -/
theorem C138_adds_up (s : Statfs) (i : Info) (h : getInfo s = some i) : i.used.toNat + i.free.toNat = i.total.toNat := by
  unfold getInfo at h
  simp only at h
  split at h
  · cases h
  · rename_i hn
    cases h
    have hle : s.frsize * s.bavail ≤ s.frsize * (s.blocks - (s.bfree - s.bavail)) := by
      rw [UInt64.le_iff_toNat_le]
      rw [gt_iff_lt, UInt64.lt_iff_toNat_lt] at hn
      omega
    simp only
    rw [UInt64.toNat_sub_of_le _ _ hle]
    rw [UInt64.le_iff_toNat_le] at hle
    omega

/-- **C138** What is used is what is neither free nor reserved, whatever the reserve (even if it is negative). -/
theorem C138_used (s : Statfs) (i : Info) (h : getInfo s = some i) : i.used = s.frsize * (s.blocks - s.bfree) := by
  unfold getInfo at h
  simp only at h
  split at h
  · cases h
  · cases h
    simp only
    grind

/-- **C138** For a file system with at most all blocks free and at most all free blocks for the server, that is no larger than can be
counted in bytes, the sizes are the right ones: the reserve is neither free nor part of the total. -/
theorem C138_exact (s : Statfs) (h1 : s.bavail ≤ s.bfree) (h2 : s.bfree ≤ s.blocks) (hb : s.frsize.toNat * s.blocks.toNat < 2 ^ 64) :
    ∃ i, getInfo s = some i ∧ i.free.toNat = s.frsize.toNat * s.bavail.toNat ∧
      i.used.toNat = s.frsize.toNat * (s.blocks.toNat - s.bfree.toNat) ∧
      i.total.toNat = s.frsize.toNat * (s.blocks.toNat - (s.bfree.toNat - s.bavail.toNat)) := by
  have n1 := UInt64.le_iff_toNat_le.1 h1
  have n2 := UInt64.le_iff_toNat_le.1 h2
  have hr : (s.bfree - s.bavail).toNat = s.bfree.toNat - s.bavail.toNat := UInt64.toNat_sub_of_le _ _ h1
  have hr' : (s.blocks - (s.bfree - s.bavail)).toNat = s.blocks.toNat - (s.bfree.toNat - s.bavail.toNat) := by
    rw [UInt64.toNat_sub_of_le, hr]
    rw [UInt64.le_iff_toNat_le, hr]; omega
  have hmul : ∀ a : UInt64, a.toNat ≤ s.blocks.toNat → (s.frsize * a).toNat = s.frsize.toNat * a.toNat := by
    intro a ha
    rw [UInt64.toNat_mul, Nat.mod_eq_of_lt]
    exact Nat.lt_of_le_of_lt (Nat.mul_le_mul_left _ ha) hb
  have ht := hmul (s.blocks - (s.bfree - s.bavail)) (by rw [hr']; omega)
  have hf := hmul s.bavail (by omega)
  rw [hr'] at ht
  have hle : s.frsize * s.bavail ≤ s.frsize * (s.blocks - (s.bfree - s.bavail)) := by
    rw [UInt64.le_iff_toNat_le, hf, ht]
    exact Nat.mul_le_mul_left _ (by omega)
  have hg : getInfo s = some ⟨s.frsize * (s.blocks - (s.bfree - s.bavail)), s.frsize * s.bavail,
      s.frsize * (s.blocks - (s.bfree - s.bavail)) - s.frsize * s.bavail⟩ := by
    unfold getInfo
    simp only
    rw [if_neg]
    rw [gt_iff_lt, UInt64.lt_iff_toNat_lt]
    rw [UInt64.le_iff_toNat_le] at hle
    omega
  refine ⟨_, hg, hf, ?_, ht⟩
  have := C138_used s _ hg
  simp only at this
  rw [this, hmul _ (by rw [UInt64.toNat_sub_of_le _ _ h2]; omega), UInt64.toNat_sub_of_le _ _ h2]

/-! ## Lemmas -/

theorem cap_ext {a b : Cap} (h1 : a.used = b.used) (h2 : a.total = b.total) (h3 : a.free = b.free) : a = b := by
  cases a; cases b; simp_all

theorem foldl_add (l : List Info) (c : Cap) : l.foldl Cap.add c =
    ⟨c.used + (l.map (·.used.toNat)).sum, c.total + (l.map (·.total.toNat)).sum, c.free + (l.map (·.free.toNat)).sum⟩ := by
  induction l generalizing c with
  | nil => simp
  | cons i l ih => rw [List.foldl_cons, ih]; simp [Cap.add, Nat.add_assoc]

theorem page_eq (ms : Nat → Machine) (servers : List Server) : page ms servers =
    ⟨((servers.map (reported ms)).map (·.used.toNat)).sum, ((servers.map (reported ms)).map (·.total.toNat)).sum,
      ((servers.map (reported ms)).map (·.free.toNat)).sum⟩ := by
  have : page ms servers = (servers.map (reported ms)).foldl Cap.add ⟨0, 0, 0⟩ := by
    unfold page; rw [List.foldl_map]
  rw [this, foldl_add]
  simp

theorem pageDrives_eq (ms : Nat → Machine) (servers : List Server) : pageDrives ms servers =
    (servers.flatMap (reportedDrives ms)).foldl Cap.add ⟨0, 0, 0⟩ := by
  unfold pageDrives
  generalize (⟨0, 0, 0⟩ : Cap) = c
  induction servers generalizing c with
  | nil => rfl
  | cons s l ih => rw [List.foldl_cons, ih, List.flatMap_cons, List.foldl_append]

theorem mem_once (l : List Nat) (f : Nat) : f ∈ once l ↔ f ∈ l := by
  induction l with
  | nil => simp [once]
  | cons a l ih =>
    unfold once
    split
    · rename_i h
      constructor
      · exact fun hf => List.mem_cons_of_mem _ (ih.1 hf)
      · intro hf
        rcases List.mem_cons.1 hf with rfl | hf
        · exact h
        · exact ih.2 hf
    · rw [List.mem_cons, List.mem_cons, ih]

theorem nodup_once (l : List Nat) : (once l).Nodup := by
  induction l with
  | nil => exact List.nodup_nil
  | cons a l ih =>
    unfold once
    split
    · exact ih
    · exact List.nodup_cons.2 ⟨by assumption, ih⟩

/-- Capacity does not depend on the order. -/
theorem capacity_perm (ms : Nat → Machine) {l l' : List (Nat × Nat)} (h : l.Perm l') : capacity ms l = capacity ms l' :=
  cap_ext (h.map _).sum_nat (h.map _).sum_nat (h.map _).sum_nat

/-! ## The page -/

/-- **C138, partial** If every server has a machine of its own and stores on the file system of the root alone, the page shows the capacity
that there is.  Missing: other drives and machines with several servers. -/
theorem C138_root_partial (ms : Nat → Machine) (servers : List Server) (l : List (Nat × Nat)) (hl : l.Nodup)
    (hs : ∀ x, x ∈ l ↔ Stores ms servers x) (hown : (servers.map (·.machine)).Nodup)
    (hroot : ∀ s ∈ servers, table ms s ≠ [] ∧ ∀ d ∈ table ms s, (ms s.machine).fs d.mount = (ms s.machine).fs root) :
    page ms servers = capacity ms l := by
  have hp : (servers.map fun s => (s.machine, (ms s.machine).fs root)).Perm l := by
    rw [List.perm_ext_iff_of_nodup _ hl]
    · intro x
      rw [hs, List.mem_map]
      constructor
      · rintro ⟨s, hm, rfl⟩
        obtain ⟨h1, h2⟩ := hroot s hm
        obtain ⟨d, hd⟩ := List.exists_mem_of_ne_nil _ h1
        exact ⟨s, hm, rfl, d, hd, h2 d hd⟩
      · rintro ⟨s, hm, h1, d, hd, h2⟩
        exact ⟨s, hm, Prod.ext h1 (((hroot s hm).2 d hd).symm.trans h2)⟩
    · unfold List.Nodup at hown ⊢
      rw [List.pairwise_map] at hown ⊢
      exact hown.imp fun h he => h (Prod.mk.inj he).1
  rw [← capacity_perm ms hp, page_eq]
  simp only [capacity, List.map_map]
  rfl

/-- **C138** The page does not depend on any drive but the one of the root. -/
theorem C138_blind (ms ms' : Nat → Machine) (servers : List Server)
    (h : ∀ s ∈ servers, (ms s.machine).info root = (ms' s.machine).info root) : page ms servers = page ms' servers := by
  rw [page_eq, page_eq]
  have : servers.map (reported ms) = servers.map (reported ms') :=
    List.map_congr_left fun s hs => by unfold reported; rw [h s hs]
  rw [this]

/-- **C138** The servers of one machine show its drive once each. -/
theorem C138_counted_again (ms : Nat → Machine) (k : Nat) (servers : List Server) (h : ∀ s ∈ servers, s.machine = k) (i : Info)
    (hi : (ms k).info root = some i) : (page ms servers).free = servers.length * i.free.toNat ∧
      (page ms servers).total = servers.length * i.total.toNat := by
  have : servers.map (reported ms) = List.replicate servers.length i := by
    rw [List.eq_replicate_iff]
    refine ⟨by simp, fun b hb => ?_⟩
    obtain ⟨s, hs, rfl⟩ := List.mem_map.1 hb
    unfold reported
    rw [h s hs, hi]; rfl
  rw [page_eq, this]
  simp

/-- **C138** Reporting every file system of the table once is right for all drives, if every server has a machine of its own. -/
theorem C138_repair (ms : Nat → Machine) (servers : List Server) (l : List (Nat × Nat)) (hl : l.Nodup)
    (hs : ∀ x, x ∈ l ↔ Stores ms servers x) (hown : (servers.map (·.machine)).Nodup) : pageDrives ms servers = capacity ms l := by
  let fss := fun s : Server => once ((table ms s).map fun d => (ms s.machine).fs d.mount)
  have hp : (servers.flatMap fun s => (fss s).map fun f => (s.machine, f)).Perm l := by
    rw [List.perm_ext_iff_of_nodup _ hl]
    · intro x
      rw [hs, List.mem_flatMap]
      constructor
      · rintro ⟨s, hm, hx⟩
        obtain ⟨f, hf, rfl⟩ := List.mem_map.1 hx
        obtain ⟨d, hd, he⟩ := List.mem_map.1 ((mem_once _ _).1 hf)
        exact ⟨s, hm, rfl, d, hd, he⟩
      · rintro ⟨s, hm, h1, d, hd, h2⟩
        exact ⟨s, hm, List.mem_map.2 ⟨x.2, (mem_once _ _).2 (List.mem_map.2 ⟨d, hd, h2⟩), Prod.ext h1 rfl⟩⟩
    · clear hs hl
      induction servers with
      | nil => exact List.nodup_nil
      | cons s rest ih =>
        rw [List.map_cons, List.nodup_cons] at hown
        rw [List.flatMap_cons, List.nodup_append]
        refine ⟨?_, ih hown.2, ?_⟩
        · unfold List.Nodup
          rw [List.pairwise_map]
          exact (nodup_once _).imp fun h he => h (Prod.mk.inj he).2
        · intro a ha b hb he
          obtain ⟨f, _, rfl⟩ := List.mem_map.1 ha
          obtain ⟨s', hs', hb'⟩ := List.mem_flatMap.1 hb
          obtain ⟨f', _, rfl⟩ := List.mem_map.1 hb'
          exact hown.1 (List.mem_map.2 ⟨s', hs', (Prod.mk.inj he).1.symm⟩)
  rw [← capacity_perm ms hp, pageDrives_eq, foldl_add]
  have hf : ∀ g : Info → Nat, ((servers.flatMap (reportedDrives ms)).map g) =
      (servers.flatMap fun s => (fss s).map fun f => (s.machine, f)).map fun x => g (((ms x.1).size x.2).getD ⟨0, 0, 0⟩) := by
    intro g
    rw [List.map_flatMap, List.map_flatMap]
    congr 1
    funext s
    simp only [reportedDrives, List.map_map]
    rfl
  simp only [hf, capacity, Nat.zero_add]

/-! ## Samples -/

/-- A machine with a file system for the root, half of it free, and a larger one for the shards, with nothing free. -/
def sample : Machine where
  fs p := if p = "/data".toList then 1 else 0
  stat f := if f = 1 then some ⟨4096, 1000, 10, 0⟩ else some ⟨4096, 20, 10, 10⟩
  mounts := some ["/".toList, "/data".toList]

/-- A server that stores on the larger one. -/
def server : Server := ⟨0, ⟨["/data".toList], []⟩⟩

/-- What there is, and what the page shows. -/
theorem C138_full : table (fun _ => sample) server = [⟨"/data".toList, 0, 4055040⟩] ∧
    page (fun _ => sample) [server] = ⟨40960, 81920, 40960⟩ ∧
    capacity (fun _ => sample) [(0, 1)] = ⟨4055040, 4055040, 0⟩ ∧
    pageDrives (fun _ => sample) [server] = ⟨4055040, 4055040, 0⟩ := by decide

theorem sample_stores (x : Nat × Nat) : x ∈ [((0 : Nat), (1 : Nat))] ↔ Stores (fun _ => sample) [server] x := by
  constructor
  · intro h
    rw [List.mem_singleton] at h
    subst h
    exact ⟨server, by simp, rfl, ⟨"/data".toList, 0, 4055040⟩, by rw [C138_full.1]; simp, by decide⟩
  · rintro ⟨s, hs, h1, d, hd, h2⟩
    rw [List.mem_singleton] at hs
    subst hs
    rw [C138_full.1, List.mem_singleton] at hd
    subst hd
    rw [List.mem_singleton]
    exact Prod.ext h1.symm (h2.symm.trans (by decide))

theorem C138_statement_fails : ¬ Statement := by
  intro h
  have := h (fun _ => sample) [server] [(0, 1)] (by simp) sample_stores
  rw [C138_full.2.1, C138_full.2.2.1] at this
  exact absurd this (by decide)

/-! ## Non-vacuity -/

/-- The hypotheses of `C138_repair` for the sample. -/
example : pageDrives (fun _ => sample) [server] = capacity (fun _ => sample) [(0, 1)] :=
  C138_repair _ _ _ (by simp) sample_stores (by simp)

/-- `C138_exact` for a file system with a reserve. -/
example : ∃ i, getInfo ⟨4096, 1000, 100, 50⟩ = some i ∧ i.free.toNat = 4096 * 50 ∧ i.used.toNat = 4096 * 900 ∧ i.total.toNat = 4096 * 950 := by
  have := C138_exact ⟨4096, 1000, 100, 50⟩ (by decide) (by decide) (by decide)
  exact this

/-- More blocks for the server than are free, and fewer blocks than are free. -/
example : getInfo ⟨1, 10, 3, 5⟩ = some ⟨12, 5, 7⟩ ∧ getInfo ⟨1, 10, 12, 3⟩ = none := by decide

/-- A server that stores on the root. -/
def rootServer : Server := ⟨0, ⟨["/".toList], []⟩⟩

/-- `C138_root_partial` for it. -/
example : page (fun _ => sample) [rootServer] = capacity (fun _ => sample) [(0, 0)] := by
  have ht : table (fun _ => sample) rootServer = [⟨"/".toList, 40960, 81920⟩] := by decide
  refine C138_root_partial _ _ _ (by simp) (fun x => ?_) (by simp) ?_
  · constructor
    · intro h
      rw [List.mem_singleton] at h
      subst h
      exact ⟨rootServer, by simp, rfl, _, by rw [ht]; exact List.mem_singleton.2 rfl, by decide⟩
    · rintro ⟨s, hs, h1, d, hd, h2⟩
      rw [List.mem_singleton] at hs
      subst hs
      rw [ht, List.mem_singleton] at hd
      subst hd
      rw [List.mem_singleton]
      exact Prod.ext h1.symm (h2.symm.trans (by decide))
  · intro s hs
    rw [List.mem_singleton] at hs
    subst hs
    rw [ht]
    refine ⟨by simp, fun d hd => ?_⟩
    rw [List.mem_singleton] at hd
    subst hd
    decide

/-- Three servers on one machine show three times its free space. -/
example : (page (fun _ => sample) [server, server, rootServer]).free = 3 * 40960 :=
  (C138_counted_again (fun _ => sample) 0 [server, server, rootServer] (by simp [server, rootServer]) ⟨81920, 40960, 40960⟩ (by decide)).1

end Verif.DiskInfo
