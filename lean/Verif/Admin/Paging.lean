import Verif.Meta.Listing
import Verif.Common.Lists

/-!
# Pages: C13 (`PagingOffset`) and C14 (the administrator's lists over all metadata servers)
-/

namespace Verif.Admin

open Verif Verif.Meta

/-! ## Model -/

/-- `PagingOffset(page, size, total)`, src/common/util/util.go:257-270.  Simplified: `int` is
unbounded. -/
def pagingOffset (page size total : Int) : Int × Int × Bool :=
  if page = 0 then (0, 0, false)
  else
    let offset := (page - 1) * size
    if total ≤ offset then (0, 0, false)
    else
      let stop := offset + size
      let stop := if total < stop then total else stop
      (offset, stop, true)

/-- The Go slice expression `l[a:b]`; `none` is the run-time panic.  (`b` up to the capacity is
legal in Go; here the list has no spare capacity.) -/
def slice {α : Type} (l : List α) (a b : Int) : Option (List α) :=
  if 0 ≤ a ∧ a ≤ b ∧ b ≤ l.length then some ((l.drop a.toNat).take (b - a).toNat) else none

/-- The use of `PagingOffset` at src/adminserver/internal/usecase/logic/metadata_logic.go:81-84 and
:123-124: the slice, empty when there is no such page. -/
def pageOf {α : Type} (l : List α) (page size : Int) : Option (List α) :=
  match pagingOffset page size l.length with
  | (st, ed, true) => slice l st ed
  | (_, _, false) => some []

/-- The limits of the list handlers of a metadata server, `binding:"required,lte=10000"`
(src/metaserver/internal/controller/http/metadata_rest.go:88-97, bucket_rest.go:89-96). -/
def sizeOk (n : Nat) : Bool := n ≠ 0 && n ≤ 10000

/-- `MetadataController.List`, metadata_rest.go:87-124, with `webapi.ListMetadata`
(src/adminserver/internal/usecase/webapi/metadata_server.go:13-28).  The handler sorts its answer by
time (unstable sort), so its order is any rearrangement `ord`.  `none` is an error answer. -/
def serveMetadata (ord : List Metadata → List Metadata) (s : Store) (pre : Str) (n : Nat) :
    Option (List Metadata × Nat) :=
  if sizeOk n then some (ord (listMetadata s pre n).1, (listMetadata s pre n).2) else none

/-- `BucketController.List`, bucket_rest.go:88-105, with `webapi.ListBuckets`
(metadata_server.go:30-45). -/
def serveBuckets (s : Store) (pre : Str) (n : Nat) : Option (List Bucket × Nat) :=
  if sizeOk n then some (listBuckets s pre n) else none

/-- `Metadata.ID()`, src/common/proto/msg/metadata.go:24-26: `fmt.Sprintf(z.Bucket, "/", z.Name)`
takes the bucket name as the *format*, so the two arguments are reported as extra.  Simplified: bucket
names without `%`. -/
def metaID (d : Metadata) : Str :=
  d.bucket ++ "%!(EXTRA string=/, string=".toList ++ d.name ++ ")".toList

/-- `Bucket.ID()`, metadata.go:60-62. -/
def bucketID (d : Bucket) : Str := d.name

/-- `MetadataPaging`, metadata_logic.go:48-85.  `none` is an error.  Simplified: the answers are
appended in the order of the server list (the theorems are for every order of servers); `Page`
and `PageSize` are not negative (a negative product makes `make` panic); an error of any server is
reported (see C54). -/
def metadataPaging (S : TextSorter Metadata metaID) (ord : List Metadata → List Metadata)
    (servers : List Store) (bucket name : Str) (page size : Nat) : Option (List Metadata × Nat) :=
  if servers = [] then some ([], 0)
  else
    let key := if bucket = [] then name else bucket ++ '/' :: name
    match servers.mapM fun s => serveMetadata ord s key (page * size) with
    | none => none
    | some rs =>
      let lst := S.run (rs.flatMap (·.1))
      match pagingOffset page size lst.length with
      | (st, ed, true) => (slice lst st ed).map fun l => (l, (rs.map (·.2)).sum)
      | (_, _, false) => some ([], 0)

/-- `BucketPaging`, metadata_logic.go:91-125; simplified as `metadataPaging`. -/
def bucketPaging (S : TextSorter Bucket bucketID) (servers : List Store) (name : Str)
    (page size : Nat) : Option (List Bucket × Nat) :=
  if servers = [] then some ([], 0)
  else
    match servers.mapM fun s => serveBuckets s name (page * size) with
    | none => none
    | some rs =>
      let lst := S.run (rs.flatMap (·.1))
      match pagingOffset page size lst.length with
      | (st, ed, _) => (slice lst st ed).map fun l => (l, (rs.map (·.2)).sum)

/-! ## C13 -/

/-- **C13** Page `p ≥ 1` of size `k ≥ 1` is the `p`-th group of `k` elements; the slice is always in
range. -/
theorem C13_page {α : Type} (l : List α) (p k : Nat) (hp : 1 ≤ p) :
    pageOf l p k = some ((l.drop ((p - 1) * k)).take k) := by
  have e1 : ((p : Int) - 1) * k = (((p - 1) * k : Nat) : Int) := by
    have : ((p - 1 : Nat) : Int) = (p : Int) - 1 := by omega
    rw [Int.natCast_mul, this]
  unfold pageOf pagingOffset
  rw [if_neg (by omega)]
  simp only [e1]
  generalize (p - 1) * k = o
  by_cases h : l.length ≤ o
  · rw [if_pos (by omega)]
    simp [List.drop_eq_nil_of_le h]
  · rw [if_neg (by omega)]
    simp only []
    split
    · unfold slice
      rw [if_pos (by omega)]
      congr 1
      rw [show ((o : Int)).toNat = o by omega]
      rw [List.take_of_length_le (by rw [List.length_drop]; omega),
        List.take_of_length_le (by rw [List.length_drop]; omega)]
    · unfold slice
      rw [if_pos (by omega)]
      congr 2
      omega

/-- **C13** Walking the pages returns the list: the first `n` pages are the first `n * k` elements, in
order, without repetition or gap. -/
theorem C13_walk {α : Type} (l : List α) (k n : Nat) :
    (List.range n).flatMap (fun i => (pageOf l (i + 1 : Nat) k).getD []) = l.take (n * k) := by
  induction n with
  | zero => simp
  | succ n ih =>
    rw [List.range_succ, List.flatMap_append, ih]
    simp only [List.flatMap_cons, List.flatMap_nil, List.append_nil]
    rw [C13_page l (n + 1) k (by omega)]
    simp only [Option.getD_some, Nat.add_sub_cancel]
    rw [Nat.succ_mul, List.take_add]

/-- **C13** Enough pages return everything, and each page has at most `k` elements. -/
theorem C13_complete {α : Type} (l : List α) (k n : Nat) (h : l.length ≤ n * k) :
    (List.range n).flatMap (fun i => (pageOf l (i + 1 : Nat) k).getD []) = l := by
  rw [C13_walk, List.take_of_length_le h]

/-- Outside the stated range the slice can panic: page −1. -/
theorem C13_negative_page_panics : pageOf [1, 2, 3, 4, 5] (-1) 2 = (none : Option (List Nat)) := by decide

example : pageOf [1, 2, 3, 4, 5] 3 2 = some [5] ∧ pageOf [1, 2, 3, 4, 5] 4 2 = some ([] : List Nat) ∧
    pageOf [1, 2, 3, 4, 5] 0 2 = some ([] : List Nat) := by decide

/-! ## Merging the first `N` entries of every server -/

/-- The first `N` of the merged prefixes are the first `N` of everything. -/
theorem take_merge {α : Type} {id : α → Str} (S : TextSorter α id) (ls : List (List α)) (N : Nat)
    (hs : ∀ l ∈ ls, l.Pairwise fun a b => strLt (id a) (id b) = true)
    {full : List α} (hf : full.Pairwise fun a b => strLt (id a) (id b) = true)
    (hm : ∀ x, x ∈ full ↔ ∃ l ∈ ls, x ∈ l)
    (hd : ls.flatten.Pairwise fun a b => id a ≠ id b) :
    (S.run (ls.map (·.take N)).flatten).take N = full.take N := by
  let B := (ls.map (·.take N)).flatten
  have hBsub : B.Sublist ls.flatten := by
    show ((ls.map (·.take N)).flatten).Sublist ls.flatten
    clear hs hm hd B
    induction ls with
    | nil => exact List.Sublist.refl _
    | cons l ls ih => exact List.Sublist.append (List.take_sublist _ _) ih
  have hBd := hd.sublist hBsub
  have hBs := S.strict hBd
  -- the sorted prefixes are the members of `full` in `B`
  classical
  have heq : S.run B = full.filter (fun x => decide (x ∈ B)) := by
    refine textSorted_ext hBs (hf.sublist List.filter_sublist) fun x => ?_
    rw [(S.perm B).mem_iff, List.mem_filter]
    simp only [decide_eq_true_eq, iff_and_self]
    intro hx
    rw [hm]
    have := hBsub.mem hx
    rw [List.mem_flatten] at this
    exact this
  -- the first `N` of `full` are all in `B`
  have hall : ∀ x ∈ full.take N, x ∈ B := by
    intro c hc
    apply Classical.byContradiction
    intro hcB
    obtain ⟨l, hl, hcl⟩ := (hm c).1 (List.mem_of_mem_take hc)
    have hcnot : c ∉ l.take N := fun h =>
      hcB (List.mem_flatten.2 ⟨_, List.mem_map.2 ⟨l, hl, rfl⟩, h⟩)
    have hsplit := List.take_append_drop N l
    have hcd : c ∈ l.drop N := by
      rw [← hsplit] at hcl
      exact (List.mem_append.1 hcl).resolve_left hcnot
    have hlen : (l.take N).length = N := by
      rw [List.length_take]
      have : (l.drop N) ≠ [] := List.ne_nil_of_mem hcd
      have := List.length_pos_iff.2 this
      rw [List.length_drop] at this
      omega
    have hlt : ∀ y ∈ l.take N, strLt (id y) (id c) = true := by
      have := hs l hl
      rw [← hsplit] at this
      exact fun y hy => (List.pairwise_append.1 this).2.2 y hy c hcd
    obtain ⟨pre, post, he⟩ := List.append_of_mem hc
    have hfe : full = pre ++ c :: (post ++ full.drop N) := by
      have := List.take_append_drop N full
      rw [he, List.append_assoc, List.cons_append] at this
      exact this.symm
    have hpre : ∀ y ∈ l.take N, y ∈ pre := by
      intro y hy
      have hyf : y ∈ full := (hm y).2 ⟨l, hl, List.mem_of_mem_take hy⟩
      have hfs := hf
      rw [hfe] at hyf hfs
      rcases List.mem_append.1 hyf with h | h
      · exact h
      · exfalso
        have hyc := hlt y hy
        rcases List.mem_cons.1 h with rfl | h
        · rw [strLt_irrefl] at hyc; cases hyc
        · have := (List.pairwise_cons.1 (List.pairwise_append.1 hfs).2.1).1 y h
          have := strLt_trans this hyc
          rw [strLt_irrefl] at this; cases this
    have h1 := nodup_length_le (textSorted_nodup ((hs l hl).sublist (List.take_sublist N l))) hpre
    have h2 : (full.take N).length ≤ N := by rw [List.length_take]; omega
    rw [he] at h2
    simp only [List.length_append, List.length_cons] at h2
    omega
  show (S.run B).take N = _
  rw [heq]
  have h1 : full.filter (fun x => decide (x ∈ B)) =
      full.take N ++ (full.drop N).filter (fun x => decide (x ∈ B)) := by
    conv => lhs; rw [← List.take_append_drop N full, List.filter_append]
    congr 1
    rw [List.filter_eq_self]
    intro x hx
    simpa using hall x hx
  rw [h1]
  by_cases hN : N ≤ full.length
  · rw [List.take_append_of_le_length (by rw [List.length_take]; omega)]
    rw [List.take_take, Nat.min_self]
  · rw [List.drop_eq_nil_of_le (by omega)]
    simp [List.take_take]

/-- A page of the merged prefixes is the page of everything. -/
theorem page_merge {α : Type} {id : α → Str} (S : TextSorter α id) (ls : List (List α)) (p k : Nat)
    (hp : 1 ≤ p) (hs : ∀ l ∈ ls, l.Pairwise fun a b => strLt (id a) (id b) = true)
    {full : List α} (hf : full.Pairwise fun a b => strLt (id a) (id b) = true)
    (hm : ∀ x, x ∈ full ↔ ∃ l ∈ ls, x ∈ l)
    (hd : ls.flatten.Pairwise fun a b => id a ≠ id b) (lst : List α)
    (hlst : lst.Perm (ls.map (·.take (p * k))).flatten)  :
    ((S.run lst).drop ((p - 1) * k)).take k = (full.drop ((p - 1) * k)).take k := by
  have e : p * k = (p - 1) * k + k := by
    obtain ⟨q, rfl⟩ := Nat.exists_eq_add_of_le hp
    rw [Nat.add_sub_cancel_left, Nat.add_comm 1 q, Nat.succ_mul]
  have hrun : S.run lst = S.run (ls.map (·.take (p * k))).flatten := by
    have hBsub : ((ls.map (·.take (p * k))).flatten).Sublist ls.flatten := by
      clear hs hm hd hlst
      induction ls with
      | nil => exact List.Sublist.refl _
      | cons l ls ih => exact List.Sublist.append (List.take_sublist _ _) ih
    have hd' := hd.sublist hBsub
    refine textSorted_ext (S.strict ?_) (S.strict hd') fun x => ?_
    · exact (hlst.pairwise_iff (fun h => Ne.symm h)).2 hd'
    · rw [(S.perm _).mem_iff, (S.perm _).mem_iff, hlst.mem_iff]
  have ht := take_merge S ls (p * k) hs hf hm hd
  rw [List.take_drop, List.take_drop, hrun, ← e, ht]

/-! ## C14 -/

theorem mapM_some {α β : Type} {f : α → Option β} {g : α → β} {l : List α}
    (h : ∀ x ∈ l, f x = some (g x)) : l.mapM f = some (l.map g) := by
  induction l with
  | nil => rfl
  | cons a l ih =>
    rw [List.mapM_cons, h a (List.mem_cons_self ..), ih fun x hx => h x (List.mem_cons_of_mem _ hx)]
    rfl

theorem flatMap_perm {α β : Type} {f g : α → List β} (l : List α) (h : ∀ x, (f x).Perm (g x)) :
    (l.flatMap f).Perm (l.flatMap g) := by
  induction l with
  | nil => exact List.Perm.refl _
  | cons a l ih => simp only [List.flatMap_cons]; exact (h a).append ih

/-- The entries of all servers form no clash: an entry's name is stored on one server only. -/
def Disjoint {α : Type} (ms : List (KMap α)) : Prop :=
  ms.Pairwise fun m m' => ∀ n, ¬ ((m.get n).isSome ∧ (m'.get n).isSome)

/-- `full` is what an administrator expects to see: all stored entries whose key has the prefix, in
strictly ascending order of `id`. -/
structure IsListing {α : Type} (id : α → Str) (ms : List (KMap α)) (pre : Str) (full : List α) :
    Prop where
  mem : ∀ x, x ∈ full ↔ ∃ m ∈ ms, ∃ n, m.get n = some x ∧ ∃ t, n = pre ++ t
  sorted : full.Pairwise fun a b => strLt (id a) (id b) = true

theorem flatten_pairwise {α : Type} {R : α → α → Prop} (ls : List (List α))
    (h1 : ∀ l ∈ ls, l.Pairwise R) (h2 : ls.Pairwise fun l m => ∀ a ∈ l, ∀ b ∈ m, R a b) :
    ls.flatten.Pairwise R := by
  induction ls with
  | nil => exact List.Pairwise.nil
  | cons l ls ih =>
    obtain ⟨g1, g2⟩ := List.pairwise_cons.1 h2
    rw [List.flatten_cons, List.pairwise_append]
    refine ⟨h1 l (List.mem_cons_self ..), ih (fun m hm => h1 m (List.mem_cons_of_mem _ hm)) g2, ?_⟩
    intro a ha b hb
    obtain ⟨m, hm, hbm⟩ := List.mem_flatten.1 hb
    exact g1 m hm a ha b hbm

/-- The shared part: the page of the merged answers is the page of the full listing, provided that
the sort key orders the entries as their database keys. -/
theorem page_of_servers {α : Type} {id : α → Str} (S : TextSorter α id) (ms : List (KMap α))
    (hdis : Disjoint ms)
    (hag : ∀ m ∈ ms, ∀ m' ∈ ms, ∀ n d n' d', m.get n = some d → m'.get n' = some d' →
      strLt (id d) (id d') = strLt n n')
    (pre : Str) {full : List α} (hfull : IsListing id ms pre full) (p k : Nat) (hp : 1 ≤ p)
    (lst : List α)
    (hlst : lst.Perm (ms.map fun m => ((withPrefix m pre).take (p * k)).map (·.2)).flatten) :
    pageOf (S.run lst) p k = some ((full.drop ((p - 1) * k)).take k) := by
  rw [C13_page _ _ _ hp]
  congr 1
  have hmem : ∀ m ∈ ms, ∀ x, x ∈ (withPrefix m pre).map (·.2) ↔
      ∃ n, m.get n = some x ∧ ∃ t, n = pre ++ t := by
    intro m _ x
    rw [List.mem_map]
    constructor
    · rintro ⟨e, he, rfl⟩
      obtain ⟨h1, h2⟩ := ((withPrefix_spec m pre).1 e.1 e.2).1 he
      exact ⟨e.1, h1, h2⟩
    · rintro ⟨n, h1, h2⟩
      exact ⟨(n, x), ((withPrefix_spec m pre).1 n x).2 ⟨h1, h2⟩, rfl⟩
  have hwp : ∀ m : KMap α, ∀ e ∈ withPrefix m pre, m.get e.1 = some e.2 := fun m e he =>
    (((withPrefix_spec m pre).1 e.1 e.2).1 he).1
  refine page_merge S (ms.map fun m => (withPrefix m pre).map (·.2)) p k hp ?_ hfull.sorted ?_ ?_ lst ?_
  · intro l hl
    obtain ⟨m, hm, rfl⟩ := List.mem_map.1 hl
    rw [List.pairwise_map]
    refine List.Pairwise.imp_of_mem ?_ (withPrefix_spec m pre).2
    intro a b ha hb hab
    rw [hag m hm m hm _ _ _ _ (hwp m a ha) (hwp m b hb)]; exact hab
  · intro x
    rw [hfull.mem]
    constructor
    · rintro ⟨m, hm, n, h1, h2⟩
      exact ⟨_, List.mem_map.2 ⟨m, hm, rfl⟩, (hmem m hm x).2 ⟨n, h1, h2⟩⟩
    · rintro ⟨l, hl, hx⟩
      obtain ⟨m, hm, rfl⟩ := List.mem_map.1 hl
      exact ⟨m, hm, (hmem m hm x).1 hx⟩
  · apply flatten_pairwise
    · intro l hl
      obtain ⟨m, hm, rfl⟩ := List.mem_map.1 hl
      rw [List.pairwise_map]
      refine List.Pairwise.imp_of_mem ?_ (withPrefix_spec m pre).2
      intro a b ha hb hab e
      rw [← hag m hm m hm _ _ _ _ (hwp m a ha) (hwp m b hb), e, strLt_irrefl] at hab
      cases hab
    · rw [List.pairwise_map]
      refine List.Pairwise.imp_of_mem ?_ hdis
      intro m m' hm hm' hmm a ha b hb e
      obtain ⟨x, hx, rfl⟩ := List.mem_map.1 ha
      obtain ⟨y, hy, rfl⟩ := List.mem_map.1 hb
      have h1 := hwp m x hx
      have h2 := hwp m' y hy
      have h3 := hag m hm m' hm' _ _ _ _ h1 h2
      have h4 := hag m' hm' m hm _ _ _ _ h2 h1
      rw [e, strLt_irrefl] at h3 h4
      have := strLt_total h3.symm h4.symm
      exact hmm x.1 ⟨by rw [h1]; rfl, by rw [this, h2]; rfl⟩
  · simpa [Function.comp_def, List.map_take] using hlst

theorem sizeOk_iff (n : Nat) : sizeOk n = true ↔ 1 ≤ n ∧ n ≤ 10000 := by
  simp [sizeOk]; omega

/-- **C14** (buckets, partial) For all reachable servers that share no bucket name, page `p` of the
administrator's bucket list is the `p`-th group of the full sorted listing, whatever the order of the
servers.  Missing: pages beyond entry 10000 (refused, see `C14_beyond_limit_refused`). -/
theorem C14_buckets_partial (S : TextSorter Bucket bucketID) (servers : List Store)
    (hr : ∀ s ∈ servers, Reachable s) (hdis : Disjoint (servers.map (·.buckets))) (pre : Str)
    {full : List Bucket} (hfull : IsListing bucketID (servers.map (·.buckets)) pre full)
    (p k : Nat) (hp : 1 ≤ p) (hk : 1 ≤ k) (hlim : p * k ≤ 10000) :
    ∃ t, bucketPaging S servers pre p k = some ((full.drop ((p - 1) * k)).take k, t) := by
  unfold bucketPaging
  by_cases hs : servers = []
  · subst hs
    have : full = [] := by
      apply List.eq_nil_iff_forall_not_mem.2
      intro x hx
      obtain ⟨m, hm, _⟩ := (hfull.mem x).1 hx
      simp at hm
    subst this
    exact ⟨0, by simp⟩
  rw [if_neg hs]
  have hok : sizeOk (p * k) = true := (sizeOk_iff _).2 ⟨Nat.mul_pos hp hk, hlim⟩
  rw [mapM_some (g := fun s => listBuckets s pre (p * k)) (fun s _ => by simp [serveBuckets, hok])]
  simp only
  have hpage := page_of_servers S (servers.map (·.buckets)) hdis (by
      intro m hm m' hm' n d n' d' h1 h2
      obtain ⟨s, hsm, rfl⟩ := List.mem_map.1 hm
      obtain ⟨s', hsm', rfl⟩ := List.mem_map.1 hm'
      rw [bucketID, bucketID, (keysOk_reachable (hr s hsm)).bname _ _ h1,
        (keysOk_reachable (hr s' hsm')).bname _ _ h2])
    pre hfull p k hp ((servers.map fun s => listBuckets s pre (p * k)).flatMap (·.1)) (by
      rw [List.flatMap_map, List.map_map, ← List.flatMap_def]
      refine flatMap_perm _ fun s => ?_
      rw [C26_buckets]; exact List.Perm.refl _)
  generalize S.run ((servers.map fun s => listBuckets s pre (p * k)).flatMap (·.1)) = lst at hpage ⊢
  unfold pageOf at hpage
  split at hpage
  · rename_i st ed h
    rw [h]; simp only [hpage, Option.map_some]
    exact ⟨_, rfl⟩
  · rename_i st ed h
    have h' := h
    rw [h]
    unfold pagingOffset at h
    simp only at h
    rw [← Option.some.inj hpage]
    split at h
    · cases h; exact ⟨_, by simp [slice]; rfl⟩
    · split at h
      · cases h; exact ⟨_, by simp [slice]; rfl⟩
      · cases h

/-- **C14** (buckets, partial) Walking the first `n` pages returns the first `n * k` entries, each
once and in order; all entries once there are at most `n * k ≤ 10000`. -/
theorem C14_buckets_walk_partial (S : TextSorter Bucket bucketID) (servers : List Store)
    (hr : ∀ s ∈ servers, Reachable s) (hdis : Disjoint (servers.map (·.buckets))) (pre : Str)
    {full : List Bucket} (hfull : IsListing bucketID (servers.map (·.buckets)) pre full)
    (n k : Nat) (hk : 1 ≤ k) (hlim : n * k ≤ 10000) :
    (List.range n).flatMap (fun i => ((bucketPaging S servers pre (i + 1) k).map (·.1)).getD []) =
      full.take (n * k) := by
  rw [← C13_walk]
  have : ∀ i ∈ List.range n, ((bucketPaging S servers pre (i + 1) k).map (·.1)).getD [] =
      (pageOf full (i + 1 : Nat) k).getD [] := by
    intro i hi
    have hi := List.mem_range.1 hi
    obtain ⟨t, ht⟩ := C14_buckets_partial S servers hr hdis pre hfull (i + 1) k (by omega) hk
      (Nat.le_trans (Nat.mul_le_mul_right k hi) hlim)
    rw [ht, C13_page _ _ _ (by omega)]; rfl
  generalize List.range n = r at this
  induction r with
  | nil => rfl
  | cons i r ih =>
    rw [List.flatMap_cons, List.flatMap_cons, this i (List.mem_cons_self ..),
      ih fun j hj => this j (List.mem_cons_of_mem _ hj)]

/-- **C14** as stated *fails* beyond entry 10000: such a page is refused, whatever is stored. -/
theorem C14_beyond_limit_refused (S : TextSorter Bucket bucketID) (SM : TextSorter Metadata metaID)
    (ord : List Metadata → List Metadata) (servers : List Store) (hs : servers ≠ []) (b n : Str)
    (p k : Nat) (h : 10000 < p * k) :
    bucketPaging S servers n p k = none ∧ metadataPaging SM ord servers b n p k = none := by
  have hno : sizeOk (p * k) = false := by
    cases hc : sizeOk (p * k) with
    | false => rfl
    | true => rw [sizeOk_iff] at hc; omega
  cases servers with
  | nil => exact absurd rfl hs
  | cons s l =>
    constructor
    · simp [bucketPaging, List.mapM_cons, serveBuckets, hno]
    · simp [metadataPaging, List.mapM_cons, serveMetadata, hno]

/-- One object per given bucket and name, stored as the API server does (key "bucket/name"). -/
def objects (l : List (String × String)) : Store := (run .empty (l.map fun (b, n) =>
  .addMeta (b.toList ++ '/' :: n.toList) ⟨n.toList, b.toList, 1, 1⟩)).2

/-- The names an administrator sees on a page. -/
def namesOnPage (servers : List Store) (b n : String) (p k : Nat) : Option (List (String × String)) :=
  (metadataPaging (.insertion metaID) id servers b.toList n.toList p k).map fun r =>
    r.1.map fun d => (String.ofList d.bucket, String.ofList d.name)

set_option maxRecDepth 4000 in
/-- **C14** as stated *fails* for objects, even with one server: the servers cut by the order of the
keys "bucket/name", the administrator pages by the order of `ID()`, which is another order (the
`Sprintf` call puts `%!(EXTRA …` behind the bucket name).  "logs/x" is on neither page, "logs-old/x" on
both. -/
theorem C14_objects_statement_fails :
    namesOnPage [objects [("logs", "x"), ("logs-old", "x")]] "" "" 1 1 = some [("logs-old", "x")] ∧
    namesOnPage [objects [("logs", "x"), ("logs-old", "x")]] "" "" 2 1 = some [("logs-old", "x")] := by
  decide

set_option maxRecDepth 4000 in
/-- The same inside one bucket: "report (1)" is never shown, because `ID()` ends in ")". -/
theorem C14_one_bucket_statement_fails :
    namesOnPage [objects [("b", "report"), ("b", "report (1)")]] "b" "" 1 1 = some [("b", "report")] ∧
    namesOnPage [objects [("b", "report"), ("b", "report (1)")]] "b" "" 2 1 = some [("b", "report")] := by
  decide

/-- **C14** (objects, partial) When the order of `ID()` agrees with the order of the database keys,
page `p` is the `p`-th group of the full listing.  Missing: entries whose `ID()` order differs from their
key order (counterexamples above) and pages beyond entry 10000. -/
theorem C14_objects_partial (S : TextSorter Metadata metaID) (ord : List Metadata → List Metadata)
    (hord : ∀ l, (ord l).Perm l) (servers : List Store)
    (hdis : Disjoint (servers.map (·.metas)))
    (hag : ∀ s ∈ servers, ∀ s' ∈ servers, ∀ n d n' d', getMeta s n = .ok d → getMeta s' n' = .ok d' →
      strLt (metaID d) (metaID d') = strLt n n') (bucket name : Str)
    {full : List Metadata}
    (hfull : IsListing metaID (servers.map (·.metas))
      (if bucket = [] then name else bucket ++ '/' :: name) full)
    (p k : Nat) (hp : 1 ≤ p) (hk : 1 ≤ k) (hlim : p * k ≤ 10000) :
    ∃ t, metadataPaging S ord servers bucket name p k = some ((full.drop ((p - 1) * k)).take k, t) := by
  unfold metadataPaging
  by_cases hs : servers = []
  · subst hs
    have : full = [] := by
      apply List.eq_nil_iff_forall_not_mem.2
      intro x hx
      obtain ⟨m, hm, _⟩ := (hfull.mem x).1 hx
      simp at hm
    subst this
    exact ⟨0, by simp⟩
  rw [if_neg hs]
  have hok : sizeOk (p * k) = true := (sizeOk_iff _).2 ⟨Nat.mul_pos hp hk, hlim⟩
  simp only
  generalize (if bucket = [] then name else bucket ++ '/' :: name) = pre at hfull ⊢
  rw [mapM_some (g := fun s => (ord (listMetadata s pre (p * k)).1, (listMetadata s pre (p * k)).2))
    (fun s _ => by simp [serveMetadata, hok])]
  simp only
  have hpage := page_of_servers S (servers.map (·.metas)) hdis (by
      intro m hm m' hm' n d n' d' h1 h2
      obtain ⟨s, hsm, rfl⟩ := List.mem_map.1 hm
      obtain ⟨s', hsm', rfl⟩ := List.mem_map.1 hm'
      exact hag s hsm s' hsm' n d n' d' ((getMeta_ok_iff ..).2 h1) ((getMeta_ok_iff ..).2 h2))
    pre hfull p k hp ((servers.map fun s =>
      (ord (listMetadata s pre (p * k)).1, (listMetadata s pre (p * k)).2)).flatMap (·.1)) (by
      rw [List.flatMap_map, List.map_map, ← List.flatMap_def]
      refine flatMap_perm _ fun s => ?_
      refine (hord _).trans ?_
      rw [C26_objects]; exact List.Perm.refl _)
  generalize S.run ((servers.map fun s =>
      (ord (listMetadata s pre (p * k)).1, (listMetadata s pre (p * k)).2)).flatMap (·.1)) = lst
    at hpage ⊢
  unfold pageOf at hpage
  split at hpage
  · rename_i st ed h
    simp only [hpage, Option.map_some]
    exact ⟨_, rfl⟩
  · rw [← Option.some.inj hpage]
    exact ⟨_, rfl⟩

set_option maxRecDepth 4000 in
/-- Two servers, three objects, pages of two. -/
example :
    namesOnPage [objects [("b", "c"), ("b", "a")], objects [("b", "b")]] "b" "" 1 2 =
      some [("b", "a"), ("b", "b")] ∧
    namesOnPage [objects [("b", "c"), ("b", "a")], objects [("b", "b")]] "b" "" 2 2 =
      some [("b", "c")] := by decide

/-- **C14** The total shown beside a page is the sum of the totals the servers answer; but beside an
*empty* page of objects it is 0, whatever the servers hold. -/
theorem C14_totals (S : TextSorter Bucket bucketID) (SM : TextSorter Metadata metaID)
    (ord : List Metadata → List Metadata) (servers : List Store) (b n : Str) (p k : Nat) :
    (∀ l t, bucketPaging S servers n p k = some (l, t) →
      t = (servers.map fun s => (listBuckets s n (p * k)).2).sum) ∧
    (∀ l t, metadataPaging SM ord servers b n p k = some (l, t) → l ≠ [] →
      t = (servers.map fun s =>
        (listMetadata s (if b = [] then n else b ++ '/' :: n) (p * k)).2).sum) ∧
    (∀ t, metadataPaging SM ord servers b n p k = some ([], t) → t = 0) := by
  by_cases hs : servers = []
  · subst hs
    refine ⟨?_, ?_, ?_⟩
    · intro l t h; cases h; rfl
    · intro l t h; cases h; intro h; exact absurd rfl h
    · intro t h; cases h; rfl
  by_cases hok : sizeOk (p * k) = true
  · have hpk := (sizeOk_iff _).1 hok
    have hk : 1 ≤ k := by
      rcases Nat.eq_zero_or_pos k with h | h
      · subst h; simp at hpk
      · exact h
    unfold bucketPaging metadataPaging
    rw [if_neg hs, if_neg hs]
    generalize (if b = [] then n else b ++ '/' :: n) = pre
    dsimp only
    rw [mapM_some (g := fun s => listBuckets s n (p * k)) (fun s _ => by simp [serveBuckets, hok]),
      mapM_some (g := fun s => (ord (listMetadata s pre (p * k)).1, (listMetadata s pre (p * k)).2))
        (fun s _ => by simp [serveMetadata, hok])]
    dsimp only
    simp only [List.map_map, Function.comp_def]
    generalize SM.run _ = lst
    generalize S.run _ = lst'
    refine ⟨?_, ?_⟩
    · intro l t h
      generalize pagingOffset (p : Int) (k : Int) lst'.length = q at h
      obtain ⟨st, ed, _⟩ := q
      dsimp only at h
      cases hq : slice lst' st ed with
      | none => rw [hq] at h; cases h
      | some l' => rw [hq] at h; cases h; rfl
    · cases hq : pagingOffset (p : Int) (k : Int) lst.length with
      | mk st q =>
        obtain ⟨ed, ok⟩ := q
        cases ok with
        | false =>
          refine ⟨?_, ?_⟩
          · intro l t h; cases h; intro h; exact absurd rfl h
          · intro t h; cases h; rfl
        | true =>
          dsimp only
          have hne : slice lst st ed ≠ some [] := by
            unfold pagingOffset at hq
            dsimp only at hq
            split at hq
            · cases hq
            · split at hq
              · cases hq
              · rename_i h0 h1
                injection hq with e1 e2
                injection e2 with e2 e3
                unfold slice
                intro hsl
                split at hsl
                · rename_i hb
                  have hlen := congrArg List.length (Option.some.inj hsl)
                  rw [List.length_take, List.length_drop, List.length_nil] at hlen
                  split at e2 <;> omega
                · cases hsl
          cases hsl : slice lst st ed with
          | none => exact ⟨fun _ _ h => (nomatch h), fun _ h => (nomatch h)⟩
          | some l' =>
            refine ⟨?_, ?_⟩
            · intro l t h _; cases h; rfl
            · intro t h
              injection h with h
              injection h with h _
              rw [hsl, h] at hne
              exact absurd rfl hne
  · have hno : sizeOk (p * k) = false := by simpa using hok
    cases servers with
    | nil => exact absurd rfl hs
    | cons s l =>
      refine ⟨?_, ?_, ?_⟩
      · intro l' t h; simp [bucketPaging, List.mapM_cons, serveBuckets, hno] at h
      · intro l' t h; simp [metadataPaging, List.mapM_cons, serveMetadata, hno] at h
      · intro t h; simp [metadataPaging, List.mapM_cons, serveMetadata, hno] at h

set_option maxRecDepth 4000 in
/-- Two servers, three objects: the total is 3 beside page 2 and 0 beside page 3. -/
example :
    (metadataPaging (.insertion metaID) id [objects [("b", "c"), ("b", "a")], objects [("b", "b")]]
      "b".toList [] 2 2).map (·.2) = some 3 ∧
    (metadataPaging (.insertion metaID) id [objects [("b", "c"), ("b", "a")], objects [("b", "b")]]
      "b".toList [] 3 2).map (·.2) = some 0 := by decide

/-- The listing of two servers with one bucket each. -/
example :
    let s1 := (run .empty [.bucketCreate (sampleBucket "y".toList 1)]).2
    let s2 := (run .empty [.bucketCreate (sampleBucket "x".toList 1)]).2
    Disjoint ([s1, s2].map (·.buckets)) ∧
    IsListing bucketID ([s1, s2].map (·.buckets)) []
      [sampleBucket "x".toList 1, sampleBucket "y".toList 1] ∧
    (bucketPaging (.insertion bucketID) [s1, s2] [] 2 1).map (·.1) = some [sampleBucket "y".toList 1] := by
  intro s1 s2
  have h1 : ∀ n, s1.buckets.get n = if n = "y".toList then some (sampleBucket "y".toList 1) else none := by
    intro n
    show (KMap.empty.put _ _).get n = _
    rw [KMap.get_put]; rfl
  have h2 : ∀ n, s2.buckets.get n = if n = "x".toList then some (sampleBucket "x".toList 1) else none := by
    intro n
    show (KMap.empty.put _ _).get n = _
    rw [KMap.get_put]; rfl
  refine ⟨?_, ⟨?_, ?_⟩, by decide⟩
  · simp only [List.map_cons, List.map_nil, Disjoint, List.pairwise_cons, List.mem_cons,
      List.not_mem_nil, or_false, forall_eq, h1, h2]
    refine ⟨?_, by simp, List.Pairwise.nil⟩
    intro n
    split <;> split <;> simp_all
  · intro x
    simp [h1, h2]
    grind
  · decide

end Verif.Admin
