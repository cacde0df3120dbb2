import Verif.Meta.Reads
import Verif.Api.Select
import Verif.Common.Lists

/-!
# How requests are spread over the servers (C127)

Reads of metadata go to a "random" member of the group (`SelectMetaServerGRPC`, src/apiserver/internal/usecase/logic/
discovery_logic.go:68-86, with `RandomSelector.Select`, src/apiserver/internal/usecase/componet/selector/random_selector.go:24-27;
`selectMeta` of `Verif.Meta.Reads`), and with the strategy "random" so do the shards of an object (`RandomSelector.Pop`, 12-18;
`randomPop` of `Verif.Api.Select`).  Both set the seed of the source that the whole process shares to the current
*second* each time they are called, and take the next number.

The members of a group come in the order of the raft configuration (src/metaserver/internal/usecase/logic/peers_logic.go:14-30), so the
list is the same for every read.  (The list of data servers has the order of a Go map, which is why uploads are spread nevertheless.)
-/

namespace Verif.Api.Spread

open Verif

/-- The generator of math/rand: any that is determined by the seed.  `intn s n` is the number and the next state. -/
structure Source where
  σ : Type
  seed : Int → σ
  intn : σ → Nat → Nat × σ
  lt : ∀ s n, 0 < n → (intn s n).1 < n

/-- `RandomSelector.Select`, random_selector.go:24-27, in the second `t`: `rand.Seed(t)`, then `ds[rand.Intn(len(ds))]`.  The
second component is the state of the source afterwards; `none` is a panic. -/
def select (S : Source) (_ : S.σ) (t : Int) (ds : List Str) : Option Str × S.σ :=
  let r := S.intn (S.seed t) ds.length
  (ds[r.1]?, r.2)

/-- A process that answers requests one after the other, each with its second and the list it selects from. -/
def serve (S : Source) : S.σ → List (Int × List Str) → List (Option Str)
  | _, [] => []
  | s, (t, ds) :: rs => (select S s t ds).1 :: serve S (select S s t ds).2 rs

/-- The selector never panics with servers to choose from, and chooses one of them. -/
theorem C127_member (S : Source) (s : S.σ) (t : Int) (ds : List Str) (h : ds ≠ []) :
    ∃ ip, (select S s t ds).1 = some ip ∧ ip ∈ ds := by
  have hl : (S.intn (S.seed t) ds.length).1 < ds.length := S.lt _ _ (List.length_pos_iff.2 h)
  exact ⟨_, List.getElem?_eq_getElem hl, List.getElem_mem hl⟩

theorem serve_eq (S : Source) (s : S.σ) (rs : List (Int × List Str)) :
    serve S s rs = rs.map fun r => r.2[(S.intn (S.seed r.1) r.2.length).1]? := by
  induction rs generalizing s with
  | nil => rfl
  | cons r rs ih => rw [List.map_cons, ← ih (select S s r.1 r.2).2]; rfl

/-- Which server is chosen depends on the second and the list only, not on anything that happened before, and not on the API
server that chooses. -/
theorem C127_same_second (S : Source) (s s' : S.σ) (t : Int) (ds : List Str) : (select S s t ds).1 = (select S s' t ds).1 := rfl

/-- All reads of a group in one second go to one member, however many they are. -/
theorem C127_one_server (S : Source) (s : S.σ) (t : Int) (ds : List Str) (h : ds ≠ []) (rs : List (Int × List Str))
    (hrs : ∀ r ∈ rs, r = (t, ds)) : ∃ ip ∈ ds, ∀ x ∈ serve S s rs, x = some ip := by
  obtain ⟨ip, h1, h2⟩ := C127_member S s t ds h
  refine ⟨ip, h2, fun x hx => ?_⟩
  rw [serve_eq] at hx
  obtain ⟨r, hr, rfl⟩ := List.mem_map.1 hx
  rw [hrs r hr]
  exact h1

/-- Reads of a group in `m` different seconds reach at most `m` members: `asked` are members that were asked, all different;
`seconds` contains the seconds. -/
theorem C127_at_most_one_per_second (S : Source) (s : S.σ) (ds : List Str) (times seconds : List Int) (asked : List Str)
    (ht : ∀ t ∈ times, t ∈ seconds) (hn : asked.Nodup)
    (ha : ∀ ip ∈ asked, some ip ∈ serve S s (times.map fun t => (t, ds))) : asked.length ≤ seconds.length := by
  have hsub : ∀ x ∈ asked.map some, x ∈ seconds.map fun t => ds[(S.intn (S.seed t) ds.length).1]? := by
    intro x hx
    obtain ⟨ip, hip, rfl⟩ := List.mem_map.1 hx
    have h1 := ha ip hip
    rw [serve_eq, List.map_map] at h1
    obtain ⟨t, ht1, ht2⟩ := List.mem_map.1 h1
    exact List.mem_map.2 ⟨t, ht t ht1, ht2⟩
  have hnd : (asked.map some).Nodup := by
    rw [List.nodup_iff_pairwise_ne, List.pairwise_map]
    exact List.Pairwise.imp (fun h he => h (Option.some.inj he)) hn
  have := nodup_length_le hnd hsub
  simpa using this

/-- A generator: the seed, then counting. -/
def counter : Source where
  σ := Nat
  seed t := t.toNat
  intn s n := (s % n, s + 1)
  lt s n h := Nat.mod_lt s h

example : serve counter (5 : Nat) [(7, [['a'], ['b'], ['c']]), (7, [['a'], ['b'], ['c']]), (8, [['a'], ['b'], ['c']])] =
    [some ['b'], some ['b'], some ['c']] := by decide

/-- Reading at a member in the second `t`: `SelectMetaServerGRPC` with the number of the generator. -/
def read (S : Source) (s : S.σ) (t : Int) (servs : Str → Option Str) (peers : Option (List Str)) (id : Str) : Option Str × S.σ :=
  let r := S.intn (S.seed t) ((peers.getD [] ++ [id]).filterMap servs).length
  (Reads.selectMeta servs peers id r.1, r.2)

/-- It is `RandomSelector.Select` from the addresses of the peers and of the server itself, if that is known. -/
theorem C127_read_is_select (S : Source) (s : S.σ) (t : Int) (servs : Str → Option Str) (peers : Option (List Str)) (id : Str)
    (h : (servs id).isSome = true) :
    read S s t servs peers id = select S s t ((peers.getD [] ++ [id]).filterMap servs) ∧
      (peers.getD [] ++ [id]).filterMap servs ≠ [] := by
  obtain ⟨a, ha⟩ := Option.isSome_iff_exists.1 h
  have hne : (peers.getD [] ++ [id]).filterMap servs ≠ [] := by
    rw [List.filterMap_append]
    simp [ha]
  refine ⟨?_, hne⟩
  have hpos : 0 < ((peers.getD [] ++ [id]).filterMap servs).length := List.length_pos_iff.2 hne
  unfold read select Reads.selectMeta
  simp only [ha]
  rw [if_neg (by omega), Nat.mod_eq_of_lt (S.lt _ _ hpos)]

/-- All reads of a group in one second go to one member, whatever else happens in the API servers: `states` are the states of
their generators. -/
theorem C127_reads (S : Source) (servs : Str → Option Str) (peers : Option (List Str)) (id : Str) (t : Int)
    (h : (servs id).isSome = true) :
    ∃ a ∈ (peers.getD [] ++ [id]).filterMap servs, ∀ s : S.σ, (read S s t servs peers id).1 = some a := by
  obtain ⟨_, hne⟩ := C127_read_is_select S (S.seed t) t servs peers id h
  obtain ⟨a, h1, h2⟩ := C127_member S (S.seed t) t _ hne
  refine ⟨a, h2, fun s => ?_⟩
  rw [(C127_read_is_select S s t servs peers id h).1]
  exact h1

example : (read counter (0 : Nat) 7 (fun i => some ('h' :: i)) (some [['b'], ['c']]) ['a']).1 = some ['h', 'c'] := by decide

/-! ## Shards of objects -/

/-- The numbers of one upload in the second `t` with `RandomSelector.Pop`. -/
def popsAt (S : Source) (t : Int) (k : Nat) : List Pop := List.replicate k (randomPopAt fun n => (S.intn (S.seed t) n).1)

/-- All uploads of a second that see the data servers in the same order put their `k` shards on the same `k` servers, in the same
order, however many servers there are. -/
theorem C127_uploads (S : Source) (t : Int) (ds : List Str) (k : Nat) (hnd : ds.Nodup) (hne : ds ≠ []) (hk : k ≤ ds.length)
    (uploads : List (Int × List Str)) (hu : ∀ u ∈ uploads, u = (t, ds)) :
    ∃ locs, locs.Nodup ∧ locs.length = k ∧ ∀ u ∈ uploads, selectDataServer u.2 (popsAt S u.1 k) = some locs := by
  have hp : ∀ p ∈ popsAt S t k, PopOk p := by
    intro p hp
    rw [List.eq_of_mem_replicate hp]
    exact randomPopAt_ok _ fun n hn => S.lt _ _ hn
  have hlen : (popsAt S t k).length = k := by simp [popsAt]
  obtain ⟨locs, h1, h2, h3⟩ := C44_distinct ds hnd hne (popsAt S t k) hp (by rw [hlen]; exact hk)
  refine ⟨locs, h3, by rw [h2, hlen], fun u h => ?_⟩
  rw [hu u h]
  exact h1

example : selectDataServer [['a'], ['b'], ['c'], ['d']] (popsAt counter 7 2) = some [['d'], ['b']] := by decide

/-! ## Requests at the same time -/

/-- Requests of one second in a process, all for one group with `n` members.  `cur`: the state of the source; `seeded`: requests
between `rand.Seed` and `rand.Intn`; `most`: the largest number of these so far; `picked`: what was chosen. -/
structure St (S : Source) where
  cur : S.σ
  seeded : Nat
  most : Nat
  picked : List Nat

inductive Ev
  | seed
  | draw

/-- One step, random_selector.go:25 and :26. -/
def St.step {S : Source} (t : Int) (n : Nat) (s : St S) : Ev → St S
  | .seed => { s with cur := S.seed t, seeded := s.seeded + 1, most := max s.most (s.seeded + 1) }
  | .draw =>
    if s.seeded = 0 then s
    else { s with cur := (S.intn s.cur n).2, seeded := s.seeded - 1, picked := s.picked ++ [(S.intn s.cur n).1] }

def St.run {S : Source} (t : Int) (n : Nat) (s : St S) (es : List Ev) : St S := es.foldl (St.step t n) s

/-- The state after `k` numbers from the seed `t`. -/
def nth (S : Source) (t : Int) (n : Nat) : Nat → S.σ
  | 0 => S.seed t
  | k + 1 => (S.intn (nth S t n k) n).2

/-- The `k`-th number from the seed. -/
def num (S : Source) (t : Int) (n k : Nat) : Nat := (S.intn (nth S t n k) n).1

structure Inv (S : Source) (t : Int) (n : Nat) (s : St S) : Prop where
  pos : s.seeded ≠ 0 → ∃ k, s.cur = nth S t n k ∧ k + s.seeded ≤ s.most
  picked : ∀ i ∈ s.picked, ∃ k < s.most, i = num S t n k

theorem inv_step {S : Source} {t : Int} {n : Nat} {s : St S} (h : Inv S t n s) (e : Ev) : Inv S t n (s.step t n e) := by
  cases e with
  | seed =>
    refine ⟨fun _ => ⟨0, rfl, ?_⟩, fun i hi => ?_⟩
    · show 0 + (s.seeded + 1) ≤ max s.most (s.seeded + 1); omega
    · obtain ⟨k, hk, he⟩ := h.picked i hi
      exact ⟨k, by show k < max s.most (s.seeded + 1); omega, he⟩
  | draw =>
    unfold St.step
    dsimp only
    split
    · exact h
    · rename_i hs
      obtain ⟨k, hk, hle⟩ := h.pos hs
      refine ⟨fun _ => ⟨k + 1, ?_, ?_⟩, fun i hi => ?_⟩
      · dsimp only; rw [hk]; rfl
      · dsimp only; omega
      · rcases List.mem_append.1 hi with hi | hi
        · exact h.picked i hi
        · have : i = (S.intn s.cur n).1 := by simpa using hi
          exact ⟨k, by dsimp only; omega, by rw [this, hk]; rfl⟩

theorem inv_run {S : Source} {t : Int} {n : Nat} {s : St S} (h : Inv S t n s) (es : List Ev) : Inv S t n (s.run t n es) := by
  induction es generalizing s with
  | nil => exact h
  | cons e es ih => exact ih (inv_step h e)

/-- If there were never more than `m` requests between the two calls at once, the requests of a second reach at most `m` members,
however many requests there are. -/
theorem C127_overlap (S : Source) (t : Int) (n m : Nat) (c : S.σ) (es : List Ev) (asked : List Nat)
    (hm : ((⟨c, 0, 0, []⟩ : St S).run t n es).most ≤ m) (hn : asked.Nodup)
    (ha : ∀ i ∈ asked, i ∈ ((⟨c, 0, 0, []⟩ : St S).run t n es).picked) : asked.length ≤ m := by
  have hi : Inv S t n ((⟨c, 0, 0, []⟩ : St S).run t n es) :=
    inv_run ⟨fun h => absurd rfl h, fun i hi => by cases hi⟩ es
  have hsub : ∀ i ∈ asked, i ∈ (List.range m).map (num S t n) := by
    intro i h
    obtain ⟨k, hk, he⟩ := hi.picked i (ha i h)
    exact List.mem_map.2 ⟨k, List.mem_range.2 (by omega), he.symm⟩
  have := nodup_length_le hn hsub
  simpa using this

/-- Two requests at once may reach two members: the second number is only used by a request that overlaps another. -/
example : ((⟨(0 : Nat), 0, 0, []⟩ : St counter).run 7 3 [.seed, .draw, .seed, .seed, .draw, .draw]).picked = [1, 1, 2] ∧
    ((⟨(0 : Nat), 0, 0, []⟩ : St counter).run 7 3 [.seed, .draw, .seed, .seed, .draw, .draw]).most = 2 := by decide

/-- The statement of C127: with enough requests every member of the group is asked. -/
theorem C127_statement_fails : ¬ ∀ (S : Source) (ds : List Str), ds.Nodup → ∃ N, ∀ s t, ∀ ip ∈ ds, ∀ m ≥ N,
    some ip ∈ serve S s (List.replicate m (t, ds)) := by
  intro h
  obtain ⟨N, hN⟩ := h counter [['a'], ['b']] (by decide)
  obtain ⟨ip, _, h2⟩ := C127_one_server counter (0 : Nat) 0 [['a'], ['b']] (by simp) (List.replicate (N + 1) (0, [['a'], ['b']]))
    (fun r hr => List.eq_of_mem_replicate hr)
  have ha := h2 _ (hN (0 : Nat) 0 ['a'] (by simp) (N + 1) (by omega))
  have hb := h2 _ (hN (0 : Nat) 0 ['b'] (by simp) (N + 1) (by omega))
  rw [← hb] at ha
  cases ha

/-! ## Seeding once -/

/-- The selector without the line that sets the seed. -/
def serveOnce (S : Source) : S.σ → List (List Str) → List (Option Str)
  | _, [] => []
  | s, ds :: rs => ds[(S.intn s ds.length).1]? :: serveOnce S (S.intn s ds.length).2 rs

/-- Then the requests use the numbers of the generator one after the other, and reach every member whose number comes up. -/
theorem C127_repair (S : Source) (t : Int) (ds : List Str) (m : Nat) :
    serveOnce S (S.seed t) (List.replicate m ds) = (List.range m).map fun k => ds[num S t ds.length k]? := by
  have key : ∀ m k, serveOnce S (nth S t ds.length k) (List.replicate m ds) =
      (List.range' k m).map fun k => ds[num S t ds.length k]? := by
    intro m
    induction m with
    | zero => intro k; rfl
    | succ m ih =>
      intro k
      rw [List.replicate_succ, List.range'_succ, List.map_cons, ← ih (k + 1)]
      rfl
  rw [List.range_eq_range']
  exact key m 0

example : serveOnce counter (counter.seed 7) (List.replicate 3 [['a'], ['b'], ['c']]) = [some ['b'], some ['c'], some ['a']] := by
  decide

end Verif.Api.Spread
