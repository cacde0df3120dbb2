import Verif.Common.Str

/-!
# The database of shard paths (C51)

Models src/objectserver/internal/db/object_path_cache.go.  The database maps a name to one value, in
which the recorded paths stand behind each other, separated by commas.  Every method works on the
value of one name in one transaction, so the model is about one value: `none` when the name has no
entry.  badger is trusted to keep what is set; its errors other than `ErrKeyNotFound` are not modelled.
-/

namespace Verif.PathDb

/-- `bytes.ReplaceAll(val, ",", "%2C")`, object_path_cache.go:54-57. -/
def encode : Str → Str
  | [] => []
  | c :: s => if c = ',' then '%' :: '2' :: 'C' :: encode s else c :: encode s

/-- `bytes.ReplaceAll(val, "%2C", ",")`, object_path_cache.go:59-62. -/
def decode : Str → Str
  | [] => []
  | [a] => [a]
  | [a, b] => [a, b]
  | a :: b :: c :: s =>
    if a = '%' ∧ b = '2' ∧ c = 'C' then ',' :: decode s else a :: decode (b :: c :: s)

/-- `bytes.Cut(s, p)`: around the first occurrence of `p`. -/
def cutStr (p : Str) : Str → Option (Str × Str)
  | [] => if p = [] then some ([], []) else none
  | c :: s =>
    if p.isPrefixOf (c :: s) then some ([], (c :: s).drop p.length)
    else (cutStr p s).map fun r => (c :: r.1, r.2)

/-- `bytes.TrimSuffix(s, ",")`. -/
def trimSuffix (s : Str) : Str := if s.getLast? = some ',' then s.dropLast else s

/-- `bytes.TrimPrefix(s, ",")`. -/
def trimPrefix : Str → Str
  | ',' :: s => s
  | s => s

/-- `Put`, object_path_cache.go:64-78: the value after it. -/
def put (v : Option Str) (path : Str) : Option Str :=
  match v with
  | some (c :: o) => some (c :: o ++ ',' :: encode path)
  | _ => some (encode path)

/-- `Get`, object_path_cache.go:81-103; `none` for `os.ErrNotExist`.  `bytes.Split` never returns an
empty list, so lines 90-92 are dead. -/
def getAll (v : Option Str) : Option (List Str) := v.map fun s => (splitOn ',' s).map decode

/-- `GetLast`, object_path_cache.go:106-124; `none` for `os.ErrNotExist`. -/
def getLast (v : Option Str) : Option Str :=
  match v with
  | none => none
  | some s =>
    match cutLast ',' s with
    | some (before, after) => if before ≠ [] then some (decode after) else none
    | none => none

/-- `Remove`, object_path_cache.go:126-149: the value after it. -/
def remove (v : Option Str) (path : Str) : Option Str :=
  match v with
  | none => none
  | some s =>
    match cutStr (encode path) s with
    | none => some s
    | some (before, after) =>
      if trimSuffix before ≠ [] then some (trimSuffix before ++ ',' :: trimPrefix after)
      else some (trimPrefix after)

/-- The requests for one name; `removeAll`: object_path_cache.go:151-160. -/
inductive Req
  | put (p : Str) | remove (p : Str) | removeAll
  deriving DecidableEq

def step (v : Option Str) : Req → Option Str
  | .put p => put v p
  | .remove p => remove v p
  | .removeAll => none

def run (v : Option Str) (l : List Req) : Option Str := l.foldl step v

/-! ## Specification -/

/-- The recorded paths, oldest first.  A removal takes the oldest equal one. -/
def specStep (l : List Str) : Req → List Str
  | .put p => l ++ [p]
  | .remove p => l.erase p
  | .removeAll => []

def spec (l : List Str) (rs : List Req) : List Str := rs.foldl specStep l

/-- **C51**, the full statement. -/
def C51_statement : Prop :=
  ∀ rs : List Req, getLast (run none rs) = (spec [] rs).getLast?

/-- No path of this kind is misread: it does not contain the code of the comma. -/
def Plain (p : Str) : Prop := ¬ ['%', '2', 'C'] <:+: p

/-! ## Lemmas -/

theorem comma_not_mem_encode (s : Str) : ',' ∉ encode s := by
  induction s with
  | nil => simp [encode]
  | cons c s ih =>
    unfold encode
    split
    · simp [ih]
    · rename_i h
      simp only [List.mem_cons, not_or]
      exact ⟨fun e => h e.symm, ih⟩

theorem encode_starts {s r : Str} (h : encode s = '2' :: 'C' :: r) : ∃ t, s = '2' :: 'C' :: t := by
  cases s with
  | nil => simp [encode] at h
  | cons a s =>
    unfold encode at h
    split at h
    · simp at h
    · injection h with h1 h2
      cases s with
      | nil => simp [encode] at h2
      | cons b s =>
        unfold encode at h2
        split at h2
        · simp at h2
        · injection h2 with h3 h4
          exact ⟨s, by rw [h1, h3]⟩

theorem decode_encode {s : Str} (h : Plain s) : decode (encode s) = s := by
  induction s with
  | nil => rfl
  | cons c s ih =>
    have ih := ih fun hi => h (hi.trans (List.infix_cons (List.infix_refl s)))
    unfold encode
    split
    · rename_i hc
      rw [decode, if_pos ⟨rfl, rfl, rfl⟩, ih, hc]
    · rename_i hc
      match he : encode s with
      | [] => rw [he] at ih; simp [decode] at ih ⊢; exact ih
      | [a] => rw [he] at ih; simp [decode] at ih ⊢; exact ih
      | a :: b :: r =>
        rw [he] at ih
        rw [decode, if_neg, ih]
        rintro ⟨h1, h2, h3⟩
        rw [h2, h3] at he
        obtain ⟨t, ht⟩ := encode_starts he
        exact h ⟨[], t, by rw [h1, ht]; rfl⟩

theorem encode_decode : ∀ {s : Str}, ',' ∉ s → encode (decode s) = s
  | [], _ => rfl
  | [a], h => by
    have : a ≠ ',' := fun e => h (by simp [e])
    simp [decode, encode, this]
  | [a, b], h => by
    have h1 : a ≠ ',' := fun e => h (by simp [e])
    have h2 : b ≠ ',' := fun e => h (by simp [e])
    simp [decode, encode, h1, h2]
  | a :: b :: c :: s, h => by
    rw [decode]
    split
    · rename_i hh
      obtain ⟨rfl, rfl, rfl⟩ := hh
      rw [encode, if_pos rfl, encode_decode (s := s) fun hm => h (by simp [hm])]
    · rw [encode, if_neg (fun e => h (by simp [e])), encode_decode (s := b :: c :: s) fun hm => h (List.mem_cons_of_mem _ hm)]

theorem encode_ne_nil {s : Str} (h : s ≠ []) : encode s ≠ [] := by
  cases s with
  | nil => exact absurd rfl h
  | cons c s => unfold encode; split <;> simp

/-- The paths of a value behind each other, `bytes.Join(l, ",")`. -/
def joinC : List Str → Str
  | [] => []
  | [a] => a
  | a :: b :: r => a ++ ',' :: joinC (b :: r)

theorem joinC_cons (a : Str) {r : List Str} (h : r ≠ []) : joinC (a :: r) = a ++ ',' :: joinC r := by
  cases r with
  | nil => exact absurd rfl h
  | cons b r => rfl

theorem joinC_concat {l : List Str} (h : l ≠ []) (a : Str) : joinC (l ++ [a]) = joinC l ++ ',' :: a := by
  induction l with
  | nil => exact absurd rfl h
  | cons b l ih =>
    cases l with
    | nil => rfl
    | cons c l =>
      have e1 : joinC (b :: c :: l ++ [a]) = b ++ ',' :: joinC (c :: l ++ [a]) := rfl
      have e2 : joinC (b :: c :: l) = b ++ ',' :: joinC (c :: l) := rfl
      rw [e1, e2, ih (by simp)]
      simp

theorem joinC_ne_nil {l : List Str} (h : l ≠ []) (hn : ∀ a ∈ l, a ≠ []) : joinC l ≠ [] := by
  cases l with
  | nil => exact absurd rfl h
  | cons a l =>
    have := hn a (by simp)
    cases l with
    | nil => exact this
    | cons b l => rw [joinC_cons _ (by simp)]; simp

theorem splitOn_joinC {l : List Str} (h : l ≠ []) (hc : ∀ a ∈ l, ',' ∉ a) : splitOn ',' (joinC l) = l := by
  induction l with
  | nil => exact absurd rfl h
  | cons a l ih =>
    cases l with
    | nil => exact splitOn_of_not_mem (hc a (by simp))
    | cons b l =>
      rw [joinC_cons _ (by simp), splitOn_append (hc a (by simp)), ih (by simp) fun x hx => hc x (by simp [hx])]

theorem cutStr_here (p r : Str) : cutStr p (p ++ r) = some ([], r) := by
  cases hr : p ++ r with
  | nil =>
    simp at hr
    simp [cutStr, hr]
  | cons c s =>
    rw [cutStr, if_pos, ← hr]
    · simp
    · rw [← hr]; simp

theorem cutStr_skip {p a : Str} (hp : p ≠ []) (hc : ',' ∉ p) (hi : ¬ p <:+: a) (rest : Str) :
    cutStr p (a ++ ',' :: rest) = (cutStr p rest).map fun r => (a ++ ',' :: r.1, r.2) := by
  induction a with
  | nil =>
    rw [List.nil_append, cutStr, if_neg]
    · rfl
    · intro h
      cases p with
      | nil => exact hp rfl
      | cons x p =>
        simp at h
        exact hc (by simp [h.1])
  | cons c a ih =>
    have ih := ih fun h => hi (h.trans (List.infix_cons (List.infix_refl a)))
    rw [List.cons_append, cutStr, if_neg, ih, Option.map_map]
    · rfl
    · intro h
      have h := List.isPrefixOf_iff_prefix.1 h
      rw [show c :: (a ++ ',' :: rest) = (c :: a) ++ ',' :: rest from rfl] at h
      rcases List.prefix_or_prefix_of_prefix h (List.prefix_append (c :: a) (',' :: rest)) with h1 | h1
      · exact hi h1.isInfix
      · obtain ⟨t, ht⟩ := h1
        rw [← ht] at h
        rw [List.prefix_append_right_inj] at h
        cases t with
        | nil => exact hi ⟨[], [], by simpa using ht.symm⟩
        | cons x t =>
          rw [List.cons_prefix_cons] at h
          exact hc (by rw [← ht, h.1]; simp)

theorem cutStr_none {p s : Str} (h : ¬ p <:+: s) : cutStr p s = none := by
  induction s with
  | nil =>
    rw [cutStr, if_neg]
    intro hp; rw [hp] at h; exact h (List.infix_refl _)
  | cons c s ih =>
    rw [cutStr, if_neg, ih fun hi => h (hi.trans (List.infix_cons (List.infix_refl s)))]
    · rfl
    · intro hp
      exact h (List.isPrefixOf_iff_prefix.1 hp).isInfix

/-- What follows a path of the value. -/
def tailOf : List Str → Str
  | [] => []
  | x :: r => ',' :: joinC (x :: r)

/-- `joinC pre` and a comma, when `pre` is not empty. -/
def joinSep (pre : List Str) : Str := (pre.map fun a => a ++ [',']).flatten

theorem joinSep_eq {pre : List Str} (h : pre ≠ []) : joinSep pre = joinC pre ++ [','] := by
  induction pre with
  | nil => exact absurd rfl h
  | cons a pre ih =>
    cases pre with
    | nil => simp [joinSep, joinC]
    | cons b pre =>
      have := ih (by simp)
      rw [joinC_cons _ (by simp), List.append_assoc, List.cons_append, ← this]
      simp [joinSep]

theorem joinC_split (pre : List Str) (p : Str) (post : List Str) :
    joinC (pre ++ p :: post) = joinSep pre ++ joinC (p :: post) := by
  induction pre with
  | nil => rfl
  | cons a pre ih =>
    rw [List.cons_append, joinC_cons _ (by simp), ih]
    simp [joinSep]

theorem cutStr_join {p : Str} (hp : p ≠ []) (hc : ',' ∉ p) {pre : List Str} (hpre : ∀ a ∈ pre, ¬ p <:+: a)
    (r : Str) : cutStr p (joinSep pre ++ (p ++ r)) = some (joinSep pre, r) := by
  induction pre with
  | nil => exact cutStr_here p r
  | cons a pre ih =>
    have ih := ih fun x hx => hpre x (by simp [hx])
    have e : joinSep (a :: pre) ++ (p ++ r) = a ++ ',' :: (joinSep pre ++ (p ++ r)) := by simp [joinSep]
    rw [e, cutStr_skip hp hc (hpre a (by simp)), ih]
    simp [joinSep]

theorem cutStr_absent {p : Str} (hp : p ≠ []) (hc : ',' ∉ p) {l : List Str} (hl : ∀ a ∈ l, ¬ p <:+: a) :
    cutStr p (joinC l) = none := by
  induction l with
  | nil => simp [joinC, cutStr, hp]
  | cons a l ih =>
    cases l with
    | nil => exact cutStr_none (hl a (by simp))
    | cons b l =>
      rw [joinC_cons _ (by simp), cutStr_skip hp hc (hl a (by simp)), ih fun x hx => hl x (by simp [hx])]
      rfl

/-- A family of paths none of which is part of another one, and none of which is misread. -/
structure Family (Q : Str → Prop) : Prop where
  plain : ∀ a, Q a → Plain a
  ne : ∀ a, Q a → a ≠ []
  apart : ∀ a b, Q a → Q b → a ≠ b → ¬ encode a <:+: encode b

theorem encode_inj {a b : Str} (ha : Plain a) (hb : Plain b) (h : encode a = encode b) : a = b := by
  have := congrArg decode h
  rwa [decode_encode ha, decode_encode hb] at this

/-- The value holds exactly the paths `l`. -/
def Holds (v : Option Str) (l : List Str) : Prop :=
  match l with
  | [] => v = none ∨ v = some []
  | _ => v = some (joinC (l.map encode))

theorem holds_cons {v : Option Str} {l : List Str} (h : l ≠ []) : Holds v l ↔ v = some (joinC (l.map encode)) := by
  cases l with
  | nil => exact absurd rfl h
  | cons a l => rfl

theorem put_holds {v : Option Str} {l : List Str} (p : Str) (hn : ∀ a ∈ l, a ≠ []) (h : Holds v l) :
    Holds (put v p) (l ++ [p]) := by
  rw [holds_cons (by simp), List.map_append]
  cases l with
  | nil =>
    rcases h with rfl | rfl <;> simp [put, joinC]
  | cons a l =>
    rw [holds_cons (by simp)] at h
    subst h
    have hne : joinC ((a :: l).map encode) ≠ [] :=
      joinC_ne_nil (by simp) fun x hx => by
        obtain ⟨y, hy, rfl⟩ := List.mem_map.1 hx
        exact encode_ne_nil (hn y hy)
    rw [List.map_cons (l := []), List.map_nil, joinC_concat (by simp)]
    revert hne
    cases joinC ((a :: l).map encode) with
    | nil => intro h; exact absurd rfl h
    | cons c o => intro _; rfl

theorem trimSuffix_joinSep {pre : List Str} (h : pre ≠ []) : trimSuffix (joinSep pre) = joinC pre := by
  rw [joinSep_eq h]
  simp [trimSuffix]

theorem split_first {p : Str} {l : List Str} (h : p ∈ l) :
    ∃ pre post, l = pre ++ p :: post ∧ p ∉ pre ∧ l.erase p = pre ++ post := by
  induction l with
  | nil => simp at h
  | cons a l ih =>
    by_cases ha : a = p
    · exact ⟨[], l, by simp [ha], by simp, by simp [ha]⟩
    · have hm : p ∈ l := by
        rcases List.mem_cons.1 h with h | h
        · exact absurd h.symm ha
        · exact h
      obtain ⟨pre, post, h1, h2, h3⟩ := ih hm
      refine ⟨a :: pre, post, by simp [h1], ?_, ?_⟩
      · simp only [List.mem_cons, not_or]; exact ⟨fun e => ha e.symm, h2⟩
      · rw [List.erase_cons_tail (by simpa using ha), h3]; rfl

/-- A removal does what it should, unless it takes the most recent of several paths. -/
def Tame (l : List Str) : Req → Prop
  | .remove p => p ∉ l ∨ p ∈ l.dropLast ∨ l = [p]
  | _ => True

theorem remove_holds {Q : Str → Prop} (hQ : Family Q) {v : Option Str} {l : List Str} {p : Str}
    (hl : ∀ a ∈ l, Q a) (hp : Q p) (ht : Tame l (.remove p)) (h : Holds v l) :
    Holds (remove v p) (l.erase p) := by
  have hpe := encode_ne_nil (hQ.ne p hp)
  have hpc := comma_not_mem_encode p
  have hap : ∀ m : List Str, (∀ a ∈ m, Q a) → p ∉ m → ∀ x ∈ m.map encode, ¬ encode p <:+: x := by
    intro m hm hnp x hx
    obtain ⟨y, hy, rfl⟩ := List.mem_map.1 hx
    exact hQ.apart p y hp (hm y hy) fun e => hnp (e ▸ hy)
  by_cases hm : p ∈ l
  · obtain ⟨pre, post, h1, h2, h3⟩ := split_first hm
    rw [h3]
    rw [holds_cons (by rw [h1]; simp)] at h
    subst h
    have hcut : cutStr (encode p) (joinC (l.map encode)) =
        some (joinSep (pre.map encode), tailOf (post.map encode)) := by
      rw [h1, List.map_append, List.map_cons, joinC_split]
      have : joinC (encode p :: post.map encode) = encode p ++ tailOf (post.map encode) := by
        cases post with
        | nil => simp [joinC, tailOf]
        | cons x r => rw [joinC_cons _ (by simp)]; rfl
      rw [this]
      refine cutStr_join hpe hpc (hap pre ?_ h2) _
      intro a ha; exact hl a (by rw [h1]; simp [ha])
    simp only [remove, hcut]
    have htp : trimPrefix (tailOf (post.map encode)) = joinC (post.map encode) := by
      cases post with
      | nil => rfl
      | cons x r => rfl
    rw [htp]
    cases hpre : pre with
    | nil =>
      have : ¬ trimSuffix (joinSep (List.map encode [])) ≠ [] := by simp [joinSep, trimSuffix]
      rw [if_neg this, List.nil_append]
      cases post with
      | nil => exact .inr rfl
      | cons x r => rfl
    | cons a pre' =>
      have hne : pre.map encode ≠ [] := by simp [hpre]
      rw [← hpre, trimSuffix_joinSep hne]
      have : joinC (pre.map encode) ≠ [] := joinC_ne_nil hne fun x hx => by
        obtain ⟨y, hy, rfl⟩ := List.mem_map.1 hx
        exact encode_ne_nil (hQ.ne y (hl y (by rw [h1]; simp [hy])))
      rw [if_pos this]
      cases post with
      | nil =>
        exfalso
        rcases ht with ht | ht | ht
        · exact ht hm
        · rw [h1, List.dropLast_concat] at ht; exact h2 ht
        · rw [h1, hpre] at ht; simp at ht
      | cons x r =>
        rw [holds_cons (by simp), List.map_append, List.map_cons]
        rw [joinC_split, joinSep_eq hne]
        simp
  · rw [List.erase_of_not_mem hm]
    cases l with
    | nil =>
      rcases h with rfl | rfl
      · exact .inl rfl
      · exact .inr (by simp [remove, cutStr, hpe])
    | cons a l =>
      rw [holds_cons (by simp)] at h ⊢
      subst h
      simp only [remove, cutStr_absent hpe hpc (hap _ hl hm)]

theorem getLast_holds {Q : Str → Prop} (hQ : Family Q) {v : Option Str} {l : List Str}
    (hl : ∀ a ∈ l, Q a) (h : Holds v l) :
    getLast v = if 2 ≤ l.length then l.getLast? else none := by
  cases l with
  | nil => rcases h with rfl | rfl <;> rfl
  | cons a l =>
    rw [holds_cons (by simp)] at h
    subst h
    cases hl' : l with
    | nil =>
      have := cutLast_none.2 (comma_not_mem_encode a)
      simp [getLast, joinC, this]
    | cons b r =>
      have hne : a :: l ≠ [] := by simp
      have hdc : a :: b :: r = (a :: b :: r).dropLast ++ [(a :: b :: r).getLast (by simp)] :=
        (List.dropLast_concat_getLast (by simp)).symm
      have hlast : ∀ x, x = (a :: b :: r).getLast (by simp) → Q x := by
        rintro x rfl
        exact hl _ (by rw [hl']; exact List.getLast_mem _)
      generalize hx : (a :: b :: r).getLast (by simp) = x at hdc hlast
      have hx' : (a :: b :: r).getLast? = some x := by rw [List.getLast?_eq_some_getLast (by simp), hx]
      rw [if_pos (by simp), hx', hdc, List.map_append]
      have hd : (a :: b :: r).dropLast.map encode ≠ [] := by simp
      rw [List.map_cons (l := []), List.map_nil, joinC_concat hd]
      simp only [getLast, cutLast_append (comma_not_mem_encode x)]
      rw [if_pos, decode_encode (hQ.plain x (hlast x rfl))]
      refine joinC_ne_nil hd fun y hy => ?_
      obtain ⟨z, hz, rfl⟩ := List.mem_map.1 hy
      exact encode_ne_nil (hQ.ne z (hl z (by rw [hl']; exact List.dropLast_subset _ hz)))

theorem getAll_holds {Q : Str → Prop} (hQ : Family Q) {v : Option Str} {l : List Str}
    (hl : ∀ a ∈ l, Q a) (hne : l ≠ []) (h : Holds v l) : getAll v = some l := by
  rw [holds_cons hne] at h
  subst h
  rw [getAll, Option.map_some, splitOn_joinC (by simpa using hne)]
  · rw [List.map_map]
    congr 1
    conv => rhs; rw [← List.map_id l]
    apply List.map_congr_left
    intro x hx
    exact decode_encode (hQ.plain x (hl x hx))
  · intro x hx
    obtain ⟨y, _, rfl⟩ := List.mem_map.1 hx
    exact comma_not_mem_encode y

/-! ## Properties -/

/-- Every request of the history is about paths of the family and tame where it happens. -/
def TameRun (Q : Str → Prop) (l : List Str) : List Req → Prop
  | [] => True
  | r :: rs => (∀ p, r = .put p ∨ r = .remove p → Q p) ∧ Tame l r ∧ TameRun Q (specStep l r) rs

theorem run_holds {Q : Str → Prop} (hQ : Family Q) (rs : List Req) {v : Option Str} {l : List Str}
    (hl : ∀ a ∈ l, Q a) (h : Holds v l) (ht : TameRun Q l rs) :
    Holds (run v rs) (spec l rs) ∧ ∀ a ∈ spec l rs, Q a := by
  induction rs generalizing v l with
  | nil => exact ⟨h, hl⟩
  | cons r rs ih =>
    obtain ⟨t1, t2, t3⟩ := ht
    have key : Holds (step v r) (specStep l r) ∧ ∀ a ∈ specStep l r, Q a := by
      cases r with
      | put p =>
        refine ⟨put_holds p (fun a ha => hQ.ne a (hl a ha)) h, ?_⟩
        intro a ha
        rcases List.mem_append.1 ha with ha | ha
        · exact hl a ha
        · rw [List.mem_singleton.1 ha]; exact t1 p (.inl rfl)
      | remove p =>
        exact ⟨remove_holds hQ hl (t1 p (.inr rfl)) t2 h, fun a ha => hl a (List.erase_subset ha)⟩
      | removeAll => exact ⟨.inl rfl, by simp [specStep]⟩
    exact ih key.2 key.1 t3

/-- **C51** (histories; partial): for every history of puts and removals of paths none of which is
part of another one, in which no removal takes the most recent of several paths: the lookup of all
paths returns them in order, and the lookup of the most recent one returns it when there are at least
two.

Missing: with one path left the lookup reports not-found (`C51_single_not_found`), after removing the
most recent one it returns the empty path (`C51_removed_last`), and paths that contain each other or
`%2C` are confused (`C51_removes_inside`, `C51_percent`). -/
theorem C51_history_partial {Q : Str → Prop} (hQ : Family Q) (rs : List Req) (ht : TameRun Q [] rs) :
    (2 ≤ (spec [] rs).length → getLast (run none rs) = (spec [] rs).getLast?) ∧
      (spec [] rs = [] → getLast (run none rs) = none) ∧
      (spec [] rs ≠ [] → getAll (run none rs) = some (spec [] rs)) := by
  obtain ⟨h, hl⟩ := run_holds hQ rs (v := none) (l := []) (by simp) (.inl rfl) ht
  have := getLast_holds hQ hl h
  refine ⟨fun h2 => ?_, fun h0 => ?_, fun hne => getAll_holds hQ hl hne h⟩
  · rw [this, if_pos h2]
  · rw [this, h0]; rfl

/-- **C51** (the path just put; partial): whatever happened before, also with paths that contain each
other: if the name has a non-empty value, the lookup returns the path just put.

Missing: the first path of a name. -/
theorem C51_after_put_partial (v : Str) (hv : v ≠ []) (p : Str) (hp : Plain p) :
    getLast (put (some v) p) = some p := by
  cases v with
  | nil => exact absurd rfl hv
  | cons c o =>
    simp only [put, getLast, cutLast_append (comma_not_mem_encode p), decode_encode hp]
    simp

/-- Two paths as they occur: the same file on two mount points. -/
def exA : Str := "/mnt/a/objects/h.0".toList
def exB : Str := "/mnt/b/objects/h.0".toList

theorem plain_of_not_mem {p : Str} (h : '%' ∉ p) : Plain p := fun hi => h (hi.subset (by simp))

theorem exFamily : Family fun x => x = exA ∨ x = exB where
  plain := by rintro a (rfl | rfl) <;> exact plain_of_not_mem (by decide)
  ne := by rintro a (rfl | rfl) <;> decide
  apart := by
    rintro a b (rfl | rfl) (rfl | rfl) h
    · exact absurd rfl h
    · intro hi; exact absurd (hi.eq_of_length (by decide)) (by decide)
    · intro hi; exact absurd (hi.eq_of_length (by decide)) (by decide)
    · exact absurd rfl h

example : TameRun (fun x => x = exA ∨ x = exB) [] [.put exA, .put exB, .put exA, .remove exA] := by
  simp [TameRun, Tame, specStep]

example : getLast (run none [.put exA, .put exB, .put exA, .remove exA]) = some exA := by decide

/-! ## Findings -/

/-- **C51** (finding): a single recorded path is never found, whatever it is. -/
theorem C51_single_not_found (p : Str) : getLast (run none [.put p]) = none := by
  simp [run, step, put, getLast, cutLast_none.2 (comma_not_mem_encode p)]

/-- **C51** (finding): the same when all but one path were removed. -/
theorem C51_one_left : spec [] [.put exA, .put exB, .remove exA] = [exB] ∧
    getLast (run none [.put exA, .put exB, .remove exA]) = none := by decide

theorem C51_statement_fails : ¬ C51_statement := by
  intro h
  have := h [.put exA]
  rw [C51_single_not_found] at this
  cases this

/-- **C51** (finding): removing the most recent path leaves a comma behind; the lookup returns the
empty path instead of the one that is left. -/
theorem C51_removed_last : spec [] [.put exA, .put exB, .remove exB] = [exA] ∧
    getLast (run none [.put exA, .put exB, .remove exB]) = some [] ∧
    getAll (run none [.put exA, .put exB, .remove exB]) = some [exA, []] := by decide

/-- **C51** (finding): a path that ends another one is removed inside of it, as on a root file system
next to a mounted one. -/
theorem C51_removes_inside :
    let r : Str := "/objects/h.0".toList
    let m : Str := "/mnt/objects/h.0".toList
    spec [] [.put m, .put r, .put m, .remove r] = [m, m] ∧
      getAll (run none [.put m, .put r, .put m, .remove r]) = some ["/mnt".toList, r, m] := by decide

/-- **C51** (finding): a path with `%2C` comes back changed. -/
theorem C51_percent :
    getLast (run none [.put exA, .put "/a%2Cb".toList]) = some "/a,b".toList := by decide

/-- **C51** (finding): a name whose paths were all removed has the empty path, not none. -/
theorem C51_all_removed : spec [] [.put exA, .remove exA] = [] ∧
    getAll (run none [.put exA, .remove exA]) = some [[]] := by decide

end Verif.PathDb
