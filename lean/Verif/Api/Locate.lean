import Verif.Common.Str
import Mathlib.Data.List.Perm.Subperm

/-!
# Locating shards: C41

`ObjectService.LocateObject` (src/apiserver/internal/usecase/service/object_service.go:64-109) asks all data
servers, through one etcd key, for the holders of `hash.0 … hash.(n-1)` and counts the answers;
`Locator.handlerLocate` (src/objectserver/internal/usecase/service/locate.go:75-99) answers.
-/

namespace Verif.Api

open Verif

/-- `getLocateResp`, object_service.go:30-43; `none`: panic. -/
def parseResp (raw : Str) : Option (Str × Int) :=
  match splitOn '#' raw with
  | [ip, i] => (atoi i).map fun n => (ip, n)
  | _ => none

/-- What the select of lines 87-106 receives. -/
inductive Ev
  | answers (l : List Str)
  /-- the watch channel is closed or the watch was cancelled, lines 89-96 -/
  | stopped
  /-- the ticker fires, lines 103-105 -/
  | timeout
  deriving DecidableEq

inductive Located
  | found (locates : List Str)
  | notFound
  /-- a malformed answer (lines 34-40) or an index that is out of range (line 100) -/
  | panic
  deriving DecidableEq

/-- Lines 97-102. -/
def takeAnswers : List Str → List Str × Nat → Option (List Str × Nat)
  | [], st => some st
  | raw :: rest, (loc, cnt) =>
    match parseResp raw with
    | none => none
    | some (ip, i) =>
      if 0 ≤ i ∧ i < loc.length then takeAnswers rest (loc.set i.toNat ip, cnt + 1) else none

/-- The loop of lines 85-108.  `[]`: nothing more happens, so the ticker fires.  Simplified: failing
requests (lines 75-79) only mean that fewer answers arrive. -/
def collect : List Ev → List Str × Nat → Located
  | evs, (loc, cnt) =>
    if loc.length ≤ cnt then .found loc
    else
      match evs with
      | [] => .notFound
      | .stopped :: _ => .notFound
      | .timeout :: _ => .notFound
      | .answers l :: rest =>
        match takeAnswers l (loc, cnt) with
        | none => .panic
        | some st => collect rest st

/-- `LocateObject` for `n` shards. -/
def locateObject (n : Nat) (evs : List Ev) : Located := collect evs (List.replicate n [], 0)

/-- `handlerLocate`, locate.go:75-99, of a server with address `ip` holding the files `holds`. -/
def handlerLocate (holds : Str → Bool) (ip message : Str) : Option Str :=
  match splitOn '#' message with
  | [hash, _] =>
    if holds hash then
      match splitOn '.' hash with
      | [_, i] => some (ip ++ ['#'] ++ i)
      | _ => none
    else none
  | _ => none

/-- The request for shard `i`, object_service.go:75. -/
def locateMsg (hash : Str) (i : Nat) (key : Str) : Str := hash ++ ['.'] ++ fmtNat i ++ ['#'] ++ key

/-- All answers that arrived before the loop ended (those of the last batch included). -/
def received : List Ev → List Str
  | .answers l :: rest => l ++ received rest
  | _ => []

/-! ## Answers of the data servers -/

theorem digit_ne {c : Char} (h : c.isDigit = false) (i : Nat) : c ∉ fmtNat i := fmtNat_not_mem h

/-- A data server answers a request for shard `i` exactly when it has the file, and its answer is read as
its address and `i`. -/
theorem C41_answer (holds : Str → Bool) (ip hash key : Str) (i : Nat) (hi : i < 2 ^ 63)
    (hip : '#' ∉ ip) (hh : '#' ∉ hash) (hd : '.' ∉ hash) (hk : '#' ∉ key) :
    (handlerLocate holds ip (locateMsg hash i key)).map parseResp =
      if holds (hash ++ ['.'] ++ fmtNat i) then some (some (ip, (i : Int))) else none := by
  have h1 : '#' ∉ hash ++ ['.'] ++ fmtNat i := by
    simp only [List.append_assoc, List.mem_append, List.mem_singleton, not_or]
    exact ⟨hh, by decide, digit_ne (by decide) i⟩
  have e1 : splitOn '#' (locateMsg hash i key) = [hash ++ ['.'] ++ fmtNat i, key] := by
    unfold locateMsg
    rw [List.append_assoc (hash ++ ['.'] ++ fmtNat i), List.singleton_append, splitOn_append h1,
      splitOn_of_not_mem hk]
  have e2 : splitOn '.' (hash ++ ['.'] ++ fmtNat i) = [hash, fmtNat i] := by
    rw [List.append_assoc, List.singleton_append, splitOn_append hd,
      splitOn_of_not_mem (digit_ne (by decide) i)]
  have e3 : parseResp (ip ++ ['#'] ++ fmtNat i) = some (ip, (i : Int)) := by
    unfold parseResp
    rw [List.append_assoc, List.singleton_append, splitOn_append hip,
      splitOn_of_not_mem (digit_ne (by decide) i)]
    simp [atoi_fmtNat hi]
  unfold handlerLocate
  rw [e1]
  simp only
  by_cases hhold : holds (hash ++ ['.'] ++ fmtNat i) = true
  · rw [if_pos hhold, if_pos hhold, e2]
    exact congrArg some e3
  · rw [if_neg hhold, if_neg hhold]; rfl

example : handlerLocate (fun f => f = ['h', '.', '1']) ['a', ':', '8'] (locateMsg ['h'] 1 ['k']) =
    some ['a', ':', '8', '#', '1'] := by decide

/-! ## Collecting -/

/-- Server `ip` answered for shard `i`. -/
def Answered (raws : List Str) (i : Nat) (ip : Str) : Prop := ∃ r ∈ raws, parseResp r = some (ip, (i : Int))

/-- What the loop knows after the answers `raws`: the entry of every shard is empty if nobody answered for
it, and else a server that did. -/
structure LocInv (n : Nat) (raws : List Str) (loc : List Str) (cnt : Nat) : Prop where
  len : loc.length = n
  cnt_ : cnt = raws.length
  ok : ∀ r ∈ raws, ∃ (ip : Str) (i : Nat), i < n ∧ parseResp r = some (ip, (i : Int))
  entry : ∀ i < n, (∃ ip, loc[i]? = some ip ∧ Answered raws i ip) ∨
    (loc[i]? = some [] ∧ ∀ ip, ¬ Answered raws i ip)

theorem takeAnswers_inv {n : Nat} (l : List Str) (raws loc : List Str) (cnt : Nat) (h : LocInv n raws loc cnt)
    (loc' : List Str) (cnt' : Nat) (hr : takeAnswers l (loc, cnt) = some (loc', cnt')) :
    LocInv n (raws ++ l) loc' cnt' := by
  induction l generalizing raws loc cnt with
  | nil => cases hr; simpa using h
  | cons r l ih =>
    unfold takeAnswers at hr
    cases hp : parseResp r with
    | none => simp [hp] at hr
    | some p =>
      obtain ⟨ip, i⟩ := p
      simp only [hp] at hr
      split at hr
      · rename_i hi
        have e : raws ++ r :: l = (raws ++ [r]) ++ l := by simp
        rw [e]
        refine ih (raws ++ [r]) _ _ ⟨by simp [h.len], by simp [h.cnt_], ?_, ?_⟩ hr
        · intro x hx
          rcases List.mem_append.1 hx with hx | hx
          · exact h.ok x hx
          · rw [List.mem_singleton.1 hx]
            exact ⟨ip, i.toNat, by rw [← h.len]; omega, by rw [hp]; congr 2; omega⟩
        · intro j hj
          by_cases hji : j = i.toNat
          · left
            refine ⟨ip, ?_, r, by simp, ?_⟩
            · rw [hji, List.getElem?_set_self (by omega)]
            · rw [hp, hji]; congr 2; omega
          · rcases h.entry j hj with ⟨ip', h1, x, h2, h3⟩ | ⟨h1, h2⟩
            · left
              exact ⟨ip', by rw [List.getElem?_set_ne (by omega)]; exact h1, x, by simp [h2], h3⟩
            · right
              refine ⟨by rw [List.getElem?_set_ne (by omega)]; exact h1, ?_⟩
              rintro ip' ⟨x, hx, h3⟩
              rcases List.mem_append.1 hx with hx | hx
              · exact h2 ip' ⟨x, hx, h3⟩
              · rw [List.mem_singleton.1 hx, hp] at h3
                simp only [Option.some.injEq, Prod.mk.injEq] at h3
                omega
      · cases hr

theorem collect_inv {n : Nat} (evs : List Ev) (raws loc : List Str) (cnt : Nat) (h : LocInv n raws loc cnt)
    (loc' : List Str) (hr : collect evs (loc, cnt) = .found loc') :
    ∃ used rest, raws ++ received evs = used ++ rest ∧ n ≤ used.length ∧ LocInv n used loc' used.length := by
  induction evs generalizing raws loc cnt with
  | nil =>
    unfold collect at hr
    split at hr
    · cases hr
      rename_i hc
      exact ⟨raws, [], by simp [received], by rw [← h.cnt_, ← h.len]; exact hc, h.cnt_ ▸ h⟩
    · cases hr
  | cons e evs ih =>
    unfold collect at hr
    split at hr
    · cases hr
      rename_i hc
      exact ⟨raws, received (e :: evs), rfl, by rw [← h.cnt_, ← h.len]; exact hc, h.cnt_ ▸ h⟩
    · cases e with
      | stopped => cases hr
      | timeout => cases hr
      | answers l =>
        simp only at hr
        cases ht : takeAnswers l (loc, cnt) with
        | none => simp [ht] at hr
        | some st =>
          obtain ⟨loc1, cnt1⟩ := st
          simp only [ht] at hr
          obtain ⟨used, rest, h1, h2, h3⟩ := ih _ _ _ (takeAnswers_inv l raws loc cnt h loc1 cnt1 ht) hr
          exact ⟨used, rest, by rw [← h1]; simp [received], h2, h3⟩

theorem locInv_init (n : Nat) : LocInv n [] (List.replicate n []) 0 :=
  ⟨by simp, rfl, by simp, fun i hi => Or.inr ⟨by simp [List.getElem?_replicate, hi], by
    rintro ip ⟨r, hr, _⟩; cases hr⟩⟩

/-- What a successful locating guarantees without any assumption: at least as many answers as shards were
taken, and every entry of the result is a server that answered for this shard, or empty if none of the
answers taken was for it. -/
theorem C41_entries (n : Nat) (evs : List Ev) (locates : List Str)
    (h : locateObject n evs = .found locates) :
    locates.length = n ∧ ∃ used rest, received evs = used ++ rest ∧ n ≤ used.length ∧
      ∀ i < n, (∃ ip, locates[i]? = some ip ∧ Answered used i ip) ∨
        (locates[i]? = some [] ∧ ∀ ip, ¬ Answered used i ip) := by
  obtain ⟨used, rest, h1, h2, h3⟩ := collect_inv evs [] _ 0 (locInv_init n) locates h
  exact ⟨h3.len, used, rest, by simpa using h1, h2, h3.entry⟩

example : locateObject 2 [.answers [['a', '#', '1']], .answers [['b', '#', '0'], ['c', '#', '0']]] =
    .found [['c'], ['a']] := by rfl

/-- The index an answer is for. -/
def respIdx (raw : Str) : Option Int := (parseResp raw).map (·.2)

/-- A list of at least `n` different numbers below `n` contains all of them. -/
theorem all_below {n : Nat} (l : List Nat) (hn : l.Nodup) (hlt : ∀ x ∈ l, x < n) (hlen : n ≤ l.length) :
    ∀ i < n, i ∈ l := by
  intro i hi
  refine Classical.byContradiction fun hni => ?_
  have hsub : l ⊆ (List.range n).erase i := by
    intro x hx
    rw [List.Nodup.mem_erase_iff List.nodup_range]
    exact ⟨fun e => hni (e ▸ hx), List.mem_range.2 (hlt x hx)⟩
  have h1 := (List.Nodup.subperm hn hsub).length_le
  rw [List.length_erase_of_mem (List.mem_range.2 hi), List.length_range] at h1
  omega

/-- **C41**: when no two answers are for the same shard, a successful result names for every shard a server
that answered for it.  Missing for the full property: duplicate answers (`C41_duplicate_answers`). -/
theorem C41_one_holder_each_partial (n : Nat) (evs : List Ev) (locates : List Str)
    (h : locateObject n evs = .found locates) (hnd : ((received evs).map respIdx).Nodup) :
    locates.length = n ∧ ∀ i < n, ∃ ip, locates[i]? = some ip ∧ Answered (received evs) i ip := by
  obtain ⟨used, rest, h1, h2, h3⟩ := collect_inv evs [] _ 0 (locInv_init n) locates h
  simp only [List.nil_append] at h1
  refine ⟨h3.len, fun i hi => ?_⟩
  have hans : ∀ ip, Answered used i ip → Answered (received evs) i ip := by
    rintro ip ⟨r, hr, hp⟩
    exact ⟨r, by rw [h1]; simp [hr], hp⟩
  rcases h3.entry i hi with ⟨ip, e1, e2⟩ | ⟨_, e2⟩
  · exact ⟨ip, e1, hans ip e2⟩
  · exfalso
    have hnd' : (used.map respIdx).Nodup := by
      rw [h1, List.map_append] at hnd
      exact (List.nodup_append.1 hnd).1
    -- the numbers the answers are for
    have hidx : ∀ r ∈ used, ∃ j : Nat, j < n ∧ respIdx r = some (j : Int) := by
      intro r hr
      obtain ⟨ip, j, hj, hp⟩ := h3.ok r hr
      exact ⟨j, hj, by simp [respIdx, hp]⟩
    let f : Str → Nat := fun r => ((respIdx r).getD 0).toNat
    have hf : ∀ r ∈ used, respIdx r = some (f r : Int) ∧ f r < n := by
      intro r hr
      obtain ⟨j, hj, hp⟩ := hidx r hr
      have : f r = j := by simp [f, hp]
      exact ⟨by rw [this]; exact hp, by omega⟩
    have hnf : (used.map f).Nodup := by
      rw [List.nodup_iff_pairwise_ne, List.pairwise_map] at hnd' ⊢
      refine hnd'.imp_of_mem ?_
      intro a b ha hb hab he
      exact hab (by rw [(hf a ha).1, (hf b hb).1, he])
    have := all_below (used.map f) hnf (by
      intro x hx
      obtain ⟨r, hr, rfl⟩ := List.mem_map.1 hx
      exact (hf r hr).2) (by simpa using h2) i hi
    obtain ⟨r, hr, hri⟩ := List.mem_map.1 this
    obtain ⟨ip, j, hj, hp⟩ := h3.ok r hr
    have hj' : j = i := by
      have := (hf r hr).1
      simp only [respIdx, hp, Option.map_some, Option.some.injEq] at this
      omega
    exact e2 ip ⟨r, hr, by rw [hp, hj']⟩

/-- The full statement of C41. -/
def OneHolderEach : Prop :=
  ∀ (n : Nat) (evs : List Ev) (locates : List Str), locateObject n evs = .found locates →
    ∀ i < n, ∃ ip, locates[i]? = some ip ∧ Answered (received evs) i ip

/-- **C41 fails**: when two servers hold the same shard (as after a repair that selects another server, or a
move between servers), their answers are counted as two shards: shard 1 was not found, and is recorded with
an empty location. -/
theorem C41_duplicate_answers : ¬ OneHolderEach := by
  intro h
  obtain ⟨ip, h1, r, h2, h3⟩ := h 2 [.answers [['a', '#', '0'], ['b', '#', '0']]] [['b'], []] (by rfl) 1 (by decide)
  have hr : r = ['a', '#', '0'] ∨ r = ['b', '#', '0'] := by simpa [received] using h2
  rcases hr with rfl | rfl
  · have : parseResp ['a', '#', '0'] = some (['a'], 0) := by rfl
    rw [this] at h3; simp at h3
  · have : parseResp ['b', '#', '0'] = some (['b'], 0) := by rfl
    rw [this] at h3; simp at h3

/-- Answers of data servers never make the loop panic: only an answer that is not of their form, or for a
shard that was not asked for, does. -/
theorem C41_no_panic (n : Nat) (evs : List Ev)
    (h : ∀ r ∈ received evs, ∃ (ip : Str) (i : Nat), i < n ∧ parseResp r = some (ip, (i : Int))) :
    locateObject n evs ≠ .panic := by
  have key : ∀ (l : List Str) (loc : List Str) (cnt : Nat), loc.length = n →
      (∀ r ∈ l, ∃ (ip : Str) (i : Nat), i < n ∧ parseResp r = some (ip, (i : Int))) →
      ∃ loc' cnt', takeAnswers l (loc, cnt) = some (loc', cnt') ∧ loc'.length = n := by
    intro l
    induction l with
    | nil => intro loc cnt hl _; exact ⟨loc, cnt, rfl, hl⟩
    | cons r l ih =>
      intro loc cnt hl hr
      obtain ⟨ip, i, hi, hp⟩ := hr r (by simp)
      unfold takeAnswers
      simp only [hp]
      rw [if_pos ⟨by omega, by omega⟩]
      exact ih _ _ (by simp [hl]) (fun x hx => hr x (by simp [hx]))
  have main : ∀ (evs : List Ev) (loc : List Str) (cnt : Nat), loc.length = n →
      (∀ r ∈ received evs, ∃ (ip : Str) (i : Nat), i < n ∧ parseResp r = some (ip, (i : Int))) →
      collect evs (loc, cnt) ≠ .panic := by
    intro evs
    induction evs with
    | nil => intro loc cnt _ _ hc; unfold collect at hc; split at hc <;> cases hc
    | cons e evs ih =>
      intro loc cnt hl hr hc
      unfold collect at hc
      split at hc
      · cases hc
      · cases e with
        | stopped => cases hc
        | timeout => cases hc
        | answers l =>
          obtain ⟨loc', cnt', h1, h2⟩ := key l loc cnt hl (fun r hx => hr r (by simp [received, hx]))
          simp only [h1] at hc
          exact ih loc' cnt' h2 (fun r hx => hr r (by simp [received, hx])) hc
  exact main evs _ 0 (by simp) h

example : locateObject 1 [.answers [['a', '#', 'x']]] = .panic ∧ locateObject 1 [.answers [['a', '#', '3']]] = .panic ∧
    locateObject 2 [.answers [['a', '#', '0']], .timeout] = .notFound := ⟨by rfl, by rfl, by rfl⟩

end Verif.Api
