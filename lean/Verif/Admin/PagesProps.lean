import Verif.Admin.Pages
import Verif.Object.ClientProps

/-! # Objects and buckets on the administration pages (theorems): C88 -/

namespace Verif.Admin.Pages

open Verif Verif.Api.Bind Verif.Api.BucketHttp Verif.Object.Client

/-! ## Specification -/

/-- A name without the characters that have a meaning in a URL. -/
structure Fit (n : Str) : Prop where
  bytes : Bytewise n
  ne : n ≠ []
  slash : '/' ∉ n
  query : '?' ∉ n
  hash : '#' ∉ n
  pct : '%' ∉ n
  ctl : hasCtl n = false

/-- A text without the characters that have a meaning in a query. -/
structure Tame (s : Str) : Prop where
  amp : '&' ∉ s
  semi : ';' ∉ s
  eq : '=' ∉ s
  pct : '%' ∉ s
  plus : '+' ∉ s
  hash : '#' ∉ s
  blank : ' ' ∉ s
  ctl : hasCtl s = false

/-! ## Lemmas: paths -/

/-- The path the routes of the API server are matched with, for a URL with the path `s`. -/
def landing (s : Str) : Option Str :=
  match setPath s with
  | none => none
  | some (path, raw) => (setPath (escapedPath path raw)).map fun x => if x.2 ≠ [] then x.2 else x.1

theorem bytewise_append {a b : Str} (ha : Bytewise a) (hb : Bytewise b) : Bytewise (a ++ b) := by
  intro c hc
  rcases List.mem_append.1 hc with h | h
  · exact ha c h
  · exact hb c h

theorem arrive_eq {s q : Str} (hs : '?' ∉ s) (h1 : '#' ∉ s) (h2 : '#' ∉ q) (hq : ' ' ∉ q)
    (hc1 : hasCtl s = false) (hc2 : hasCtl q = false) :
    arrive (s ++ '?' :: q) = (landing s).map (·, q) := by
  have c1 : cut '#' (s ++ '?' :: q) = (s ++ '?' :: q, []) := cut_self (by simp [h1, h2])
  have c2 : cut '?' (s ++ '?' :: q) = (s, q) := cut_append hs
  have c3 : hasCtl (s ++ '?' :: q) = false := by
    rw [hasCtl_append, hc1]
    simp only [hasCtl] at hc2
    simp [hasCtl, hc2]
  have u0 : unescape false [] = some [] := rfl
  unfold arrive sentPath landing
  simp only [c1, c2, c3, u0, if_neg hq, Bool.false_eq_true, ↓reduceIte]
  cases setPath s with
  | none => rfl
  | some x => simp only [Option.map_map]; rfl

theorem arrive_plain {s : Str} (hs : '?' ∉ s) (h1 : '#' ∉ s) (hc1 : hasCtl s = false) :
    arrive s = (landing s).map (·, []) := by
  have c1 : cut '#' s = (s, []) := cut_self h1
  have c2 : cut '?' s = (s, []) := cut_self hs
  have u0 : unescape false [] = some [] := rfl
  unfold arrive sentPath landing
  simp only [c1, c2, hc1, u0, List.not_mem_nil, Bool.false_eq_true, ↓reduceIte]
  cases setPath s with
  | none => rfl
  | some x => simp only [Option.map_map]; rfl

theorem arrive_frag {s f : Str} (hs : '?' ∉ s) (h1 : '#' ∉ s) (hc1 : hasCtl s = false) (hf : '%' ∉ f)
    (hc2 : hasCtl f = false) : arrive (s ++ '#' :: f) = (landing s).map (·, []) := by
  have c1 : cut '#' (s ++ '#' :: f) = (s, f) := cut_append h1
  have c2 : cut '?' s = (s, []) := cut_self hs
  have c3 : hasCtl (s ++ '#' :: f) = false := by
    rw [hasCtl_append, hc1]
    simp only [hasCtl] at hc2
    simp [hasCtl, hc2]
  have u0 : unescape false f = some f := unescape_self hf (by intro h; cases h)
  unfold arrive sentPath landing
  simp only [c1, c2, c3, u0, List.not_mem_nil, Bool.false_eq_true, ↓reduceIte]
  cases setPath s with
  | none => rfl
  | some x => simp only [Option.map_map]; rfl

/-- A path without `%` is sent as it is or in its standard encoding. -/
theorem sent_cases {s : Str} (hp : '%' ∉ s) :
    ∃ x, setPath s = some (s, x) ∧
      ((escapePath s = s ∧ escapedPath s x = s) ∨
       (escapePath s ≠ s ∧ s ≠ [] ∧ escapedPath s x = s) ∨ escapedPath s x = escapePath s) := by
  have hu : unescape false s = some s := unescape_self hp (by intro h; cases h)
  by_cases he : escapePath s = s
  · exact ⟨[], by simp [setPath, hu, he], Or.inl ⟨he, by simp [escapedPath, he]⟩⟩
  · refine ⟨s, by simp [setPath, hu, he], Or.inr ?_⟩
    by_cases hv : s ≠ [] ∧ s.all encodedOk = true
    · exact Or.inl ⟨he, hv.1, by unfold escapedPath; rw [if_pos ⟨hv.1, hv.2, hu⟩]⟩
    · exact Or.inr (by unfold escapedPath; rw [if_neg (fun h => hv ⟨h.1, h.2.1⟩)])

theorem setPath_escaped {s : Str} (hb : Bytewise s) : setPath (escapePath s) = some (s, []) := by
  simp [setPath, unescape_escapePath hb]

/-- A path without `%` arrives as it is. -/
theorem landing_self {s : Str} (hb : Bytewise s) (hp : '%' ∉ s) : landing s = some s := by
  have hu : unescape false s = some s := unescape_self hp (by intro h; cases h)
  obtain ⟨x, hx, h⟩ := sent_cases hp
  unfold landing
  simp only [hx]
  rcases h with ⟨h1, h2⟩ | ⟨h1, h0, h2⟩ | h2
  · rw [h2]; simp [setPath, hu, h1]
  · rw [h2]; simp [setPath, hu, h1, h0]
  · rw [h2, setPath_escaped hb]; simp

/-- A path in its standard encoding arrives decoded. -/
theorem landing_escaped {s : Str} (hb : Bytewise s) : landing (escapePath s) = some s := by
  unfold landing
  have h : escapedPath s [] = escapePath s := by unfold escapedPath; rw [if_neg (fun h => h.1 rfl)]
  simp only [setPath_escaped hb, h]
  simp

/-- A path in another encoding arrives encoded. -/
theorem landing_raw {s p : Str} (hne : p ≠ []) (hok : p.all encodedOk = true) (hu : unescape false p = some s)
    (hd : escapePath s ≠ p) : landing p = some p := by
  have h1 : setPath p = some (s, p) := by simp [setPath, hu, hd]
  have h2 : escapedPath s p = p := by unfold escapedPath; rw [if_pos ⟨hne, hok, hu⟩]
  unfold landing
  simp only [h1, h2]
  simp [hne]

theorem escaped_no_hash {s : Str} (hb : Bytewise s) : '#' ∉ escapePath s := by
  induction s with
  | nil => simp [escapePath]
  | cons c r ih =>
    have hc : c.toNat < 256 := hb c (List.mem_cons_self ..)
    have ih := ih (fun d hd => hb d (List.mem_cons_of_mem _ hd))
    unfold escapePath
    by_cases hp : pathSafe c = true
    · rw [if_pos hp]; simp [ih, Ne.symm (pathSafe_no hp).2.1]
    · rw [if_neg hp]
      simp [ih, Ne.symm (hexDigit_plain (show c.toNat / 16 < 16 by omega)).2.2.2.1,
        Ne.symm (hexDigit_plain (show c.toNat % 16 < 16 by omega)).2.2.2.1]

theorem seg_path {c : Char} (h : segSafe c = true) : pathSafe c = true := by
  unfold segSafe at h
  unfold pathSafe
  rw [Bool.or_eq_true] at h ⊢
  rcases h with h | h
  · exact Or.inl h
  · have hall : ∀ d ∈ "-_.~$&+:=@".toList, "-_.~$&+,/:;=@".toList.contains d = true := by decide
    exact Or.inr (hall c (List.contains_iff_mem.1 h))

theorem path_seg {c : Char} (h : pathSafe c = true) (h1 : c ≠ '/') (h2 : c ≠ ',') (h3 : c ≠ ';') : segSafe c = true := by
  unfold pathSafe at h
  unfold segSafe
  rw [Bool.or_eq_true] at h ⊢
  rcases h with h | h
  · exact Or.inl h
  · have hall : ∀ d ∈ "-_.~$&+,/:;=@".toList, d ≠ '/' → d ≠ ',' → d ≠ ';' → "-_.~$&+:=@".toList.contains d = true := by
      decide
    exact Or.inr (hall c (List.contains_iff_mem.1 h) h1 h2 h3)

/-- Without `/`, `,` and `;` the two encodings are the same. -/
theorem escapeSeg_eq {n : Str} (h1 : '/' ∉ n) (h2 : ',' ∉ n) (h3 : ';' ∉ n) : escapeSeg n = escapePath n := by
  induction n with
  | nil => rfl
  | cons c r ih =>
    simp only [List.mem_cons, not_or] at h1 h2 h3
    unfold escapeSeg escapePath
    rw [ih h1.2 h2.2 h3.2]
    by_cases hp : pathSafe c = true
    · rw [if_pos hp, if_pos (path_seg hp (Ne.symm h1.1) (Ne.symm h2.1) (Ne.symm h3.1))]
    · rw [if_neg hp, if_neg (fun h => hp (seg_path h))]

theorem hex_roundtrip {c : Char} (hc : c.toNat < 256) {r : Str} (t : Option Str) (h : unescape false r = t) :
    unescape false ('%' :: hexDigit (c.toNat / 16) :: hexDigit (c.toNat % 16) :: r) = t.map (c :: ·) := by
  have hk : ∀ k : Fin 16, unhex (hexDigit k.1) = some k.1 := by decide
  have a := hk ⟨c.toNat / 16, by omega⟩
  have b := hk ⟨c.toNat % 16, by omega⟩
  simp only at a b
  rw [unescape_pct, a, b, h]
  simp only
  rw [show 16 * (c.toNat / 16) + c.toNat % 16 = c.toNat by omega, Char.ofNat_toNat]

theorem hex_ok {n : Nat} (h : n < 16) : encodedOk (hexDigit n) = true ∧ hexDigit n ≠ '/' := by
  have hk : ∀ k : Fin 16, encodedOk (hexDigit k.1) = true ∧ hexDigit k.1 ≠ '/' := by decide
  exact hk ⟨n, h⟩

theorem seg_not {c : Char} (h : segSafe c = true) : c ≠ '%' ∧ c ≠ '/' ∧ c ≠ '?' ∧ c ≠ '#' ∧ c ≠ ',' ∧ c ≠ ';' ∧
    encodedOk c = true ∧ ¬ c.toNat < 32 ∧ c.toNat ≠ 127 := by
  have hp := seg_path h
  obtain ⟨h1, h2, h3, h4⟩ := pathSafe_no hp
  refine ⟨?_, ?_, h1, h2, ?_, ?_, ?_, h3, h4⟩
  · rintro rfl; revert h; decide
  · rintro rfl; revert h; decide
  · rintro rfl; revert h; decide
  · rintro rfl; revert h; decide
  · unfold encodedOk; rw [hp, Bool.or_true]

/-- What `url.PathEscape` writes. -/
theorem escapeSeg_spec {n : Str} (hb : Bytewise n) :
    unescape false (escapeSeg n) = some n ∧ (escapeSeg n).all encodedOk = true ∧ '/' ∉ escapeSeg n ∧
      '?' ∉ escapeSeg n ∧ '#' ∉ escapeSeg n ∧ hasCtl (escapeSeg n) = false := by
  induction n with
  | nil => exact ⟨rfl, rfl, by simp [escapeSeg], by simp [escapeSeg], by simp [escapeSeg], rfl⟩
  | cons c r ih =>
    obtain ⟨i1, i2, i3, i4, i5, i6⟩ := ih (fun d hd => hb d (List.mem_cons_of_mem _ hd))
    have hc : c.toNat < 256 := hb c (List.mem_cons_self ..)
    simp only [hasCtl] at i6
    unfold escapeSeg
    by_cases hs : segSafe c = true
    · obtain ⟨n1, n2, n3, n4, _, _, n5, n6, n7⟩ := seg_not hs
      rw [if_pos hs]
      refine ⟨by rw [unescape_plain n1, i1]; simp, by simp only [List.all_cons, n5, i2, Bool.and_self], by simp [i3, Ne.symm n2],
        by simp [i4, Ne.symm n3], by simp [i5, Ne.symm n4], ?_⟩
      simp only [hasCtl, List.any_cons, i6, n6, n7, decide_false, Bool.or_false]
    · rw [if_neg hs]
      obtain ⟨a1, a2, a3, a4, a5⟩ := hexDigit_plain (show c.toNat / 16 < 16 by omega)
      obtain ⟨b1, b2, b3, b4, b5⟩ := hexDigit_plain (show c.toNat % 16 < 16 by omega)
      obtain ⟨c1, _⟩ := hex_ok (show c.toNat / 16 < 16 by omega)
      obtain ⟨d1, _⟩ := hex_ok (show c.toNat % 16 < 16 by omega)
      have hpc : encodedOk '%' = true := by decide
      refine ⟨by rw [hex_roundtrip hc _ i1]; rfl, by simp only [List.all_cons, hpc, c1, d1, i2, Bool.and_self],
        by simp [i3, Ne.symm a5, Ne.symm b5], by simp [i4, Ne.symm a1, Ne.symm b1], by simp [i5, Ne.symm a4, Ne.symm b4], ?_⟩
      simp only [hasCtl, List.any_cons, i6, a2, a3, b2, b3, decide_false, Bool.or_false]
      decide

theorem escapeSeg_ne {n : Str} (hne : n ≠ []) : escapeSeg n ≠ [] := by
  cases n with
  | nil => exact absurd rfl hne
  | cons c r => unfold escapeSeg; split <;> simp

theorem escapeSeg_no {n : Str} : ',' ∉ escapeSeg n ∧ ';' ∉ escapeSeg n := by
  have hk : ∀ k : Fin 16, hexDigit k.1 ≠ ',' ∧ hexDigit k.1 ≠ ';' := by decide
  have hk' : ∀ m, hexDigit m ≠ ',' ∧ hexDigit m ≠ ';' := by
    intro m
    by_cases hm : m < 16
    · exact hk ⟨m, hm⟩
    · have : hexDigit m = '0' := by
        unfold hexDigit
        rw [List.getD_eq_getElem?_getD, List.getElem?_eq_none (show "0123456789ABCDEF".toList.length ≤ m by
          show 16 ≤ m; omega)]
        rfl
      rw [this]; decide
  induction n with
  | nil => simp [escapeSeg]
  | cons c r ih =>
    unfold escapeSeg
    by_cases hs : segSafe c = true
    · obtain ⟨_, _, _, _, n5, n6, _⟩ := seg_not hs
      rw [if_pos hs]
      exact ⟨by simp [ih.1, Ne.symm n5], by simp [ih.2, Ne.symm n6]⟩
    · rw [if_neg hs]
      exact ⟨by simp [ih.1, Ne.symm (hk' _).1], by simp [ih.2, Ne.symm (hk' _).2]⟩

/-- With one of `/`, `,` and `;` the two encodings differ. -/
theorem escapeSeg_differs {n : Str} (hb : Bytewise n) (h : '/' ∈ n ∨ ',' ∈ n ∨ ';' ∈ n) :
    escapeSeg n ≠ escapePath n ∧ escapeSeg n ≠ n := by
  have hin : ∀ (m : Str) (d : Char), pathSafe d = true → d ∈ m → d ∈ escapePath m := by
    intro m d hd hm
    induction m with
    | nil => cases hm
    | cons c r ih =>
      unfold escapePath
      rcases List.mem_cons.1 hm with rfl | hm
      · rw [if_pos hd]; exact List.mem_cons_self ..
      · split
        · exact List.mem_cons_of_mem _ (ih hm)
        · simp [ih hm]
  obtain ⟨_, _, s3, _⟩ := escapeSeg_spec hb
  obtain ⟨s1, s2⟩ := @escapeSeg_no n
  rcases h with h | h | h
  · exact ⟨fun e => s3 (e ▸ hin n '/' (by decide) h), fun e => s3 (e.symm ▸ h)⟩
  · exact ⟨fun e => s1 (e ▸ hin n ',' (by decide) h), fun e => s1 (e.symm ▸ h)⟩
  · exact ⟨fun e => s2 (e ▸ hin n ';' (by decide) h), fun e => s2 (e.symm ▸ h)⟩

theorem segment_own {pre suf n : Str} (hne : n ≠ []) (hs : '/' ∉ n) : segment pre suf (pre ++ (n ++ suf)) = some n := by
  have h1 : hasPrefix (pre ++ (n ++ suf)) pre = true := hasPrefix_append _ _
  have h2 : (pre ++ (n ++ suf)).drop pre.length = n ++ suf := List.drop_left
  have h3 : hasPrefix (n ++ suf).reverse suf.reverse = true := by rw [List.reverse_append]; exact hasPrefix_append _ _
  have h4 : (n ++ suf).take ((n ++ suf).length - suf.length) = n := by
    rw [List.length_append, Nat.add_sub_cancel, List.take_left]
  unfold segment
  simp only [h1, h2, h3, h4, hne, hs, and_self, or_self, ↓reduceIte]

theorem segment_object {n : Str} (hne : n ≠ []) (hs : '/' ∉ n) : segment objectsPre [] (objectsPre ++ n) = some n := by
  have := segment_own (pre := objectsPre) (suf := []) hne hs
  rwa [List.append_nil] at this

theorem segment_other (s : Str) : segment objectsPre [] (metadataPre ++ s) = none := by
  have : hasPrefix (metadataPre ++ s) objectsPre = false := rfl
  unfold segment
  simp [this]

theorem pre_ok : (∀ c ∈ objectsPre, pathSafe c = true) ∧ Bytewise objectsPre ∧
    (∀ c ∈ metadataPre, pathSafe c = true) ∧ Bytewise metadataPre ∧
    (∀ c ∈ versionsSuf, pathSafe c = true) ∧ Bytewise versionsSuf := by
  refine ⟨by decide, ?_, by decide, ?_, by decide, ?_⟩ <;> (unfold Bytewise; decide)

/-! ## Lemmas: queries -/

theorem pairs_last {k v : Str} (hk : Tame k) (hv : Tame v) : queryPairs (k ++ '=' :: v) = [(k, v)] := by
  unfold queryPairs
  rw [splitOn_of_not_mem (by simp [hk.amp, hv.amp]), List.filterMap_cons, if_neg (by simp [hk.semi, hv.semi]),
    cut_append hk.eq]
  simp only [unescape_self hk.pct (fun _ => hk.plus), unescape_self hv.pct (fun _ => hv.plus)]
  rfl

theorem pairs_more {k v r : Str} (hk : Tame k) (hv : Tame v) :
    queryPairs (k ++ '=' :: (v ++ '&' :: r)) = (k, v) :: queryPairs r := by
  have hs : splitOn '&' ((k ++ '=' :: v) ++ '&' :: r) = (k ++ '=' :: v) :: splitOn '&' r :=
    splitOn_append (by simp [hk.amp, hv.amp])
  have e : k ++ '=' :: (v ++ '&' :: r) = (k ++ '=' :: v) ++ '&' :: r := by simp
  unfold queryPairs
  rw [e, hs, List.filterMap_cons, if_neg (by simp [hk.semi, hv.semi]), cut_append hk.eq]
  simp only [unescape_self hk.pct (fun _ => hk.plus), unescape_self hv.pct (fun _ => hv.plus)]

theorem tame_fmtInt (z : Int) : Tame (fmtInt z) := by
  have hd : ∀ c ∈ fmtInt z, c.isDigit = true ∨ c = '-' := by
    intro c hc
    cases z with
    | ofNat n => exact Or.inl (fmtNat_isDigit hc)
    | negSucc n =>
      rcases List.mem_cons.1 hc with rfl | h
      · exact Or.inr rfl
      · exact Or.inl (fmtNat_isDigit h)
  have no : ∀ c : Char, c.isDigit = false → c ≠ '-' → c ∉ fmtInt z := by
    intro c h1 h2 hc
    rcases hd c hc with h | h
    · rw [h1] at h; cases h
    · exact h2 h
  refine ⟨no _ (by decide) (by decide), no _ (by decide) (by decide), no _ (by decide) (by decide), no _ (by decide) (by decide),
    no _ (by decide) (by decide), no _ (by decide) (by decide), no _ (by decide) (by decide), ?_⟩
  unfold hasCtl
  rw [List.any_eq_false]
  intro c hc
  rcases hd c hc with h | h
  · simp only [Char.isDigit, Bool.and_eq_true, decide_eq_true_eq] at h
    have h1 : 48 ≤ c.toNat := h.1
    have h2 : c.toNat ≤ 57 := h.2
    simp; omega
  · subst h; decide

theorem means32 {z : Int} (h : Int64 z) (z' : Int) :
    MeansInt 32 (fmtInt z) z' ↔ z' = z ∧ -(2 ^ 31 : Int) ≤ z ∧ z < 2 ^ 31 := by
  unfold MeansInt
  rw [atoi_fmtInt h]
  constructor
  · rintro (⟨h1, _⟩ | ⟨h1, h2, h3⟩)
    · exact absurd h1 (fmtInt_ne z)
    · cases h1; exact ⟨rfl, h2, h3⟩
  · rintro ⟨rfl, h1, h2⟩
    exact Or.inr ⟨rfl, h1, h2⟩

theorem tame_append {a b : Str} (ha : Tame a) (hb : Tame b) : Tame (a ++ b) := by
  refine ⟨?_, ?_, ?_, ?_, ?_, ?_, ?_, ?_⟩
  · simp [ha.amp, hb.amp]
  · simp [ha.semi, hb.semi]
  · simp [ha.eq, hb.eq]
  · simp [ha.pct, hb.pct]
  · simp [ha.plus, hb.plus]
  · simp [ha.hash, hb.hash]
  · simp [ha.blank, hb.blank]
  · rw [hasCtl_append, ha.ctl, hb.ctl]; rfl

theorem allOf_skip {k v k' : Str} {l : List (Str × Str)} (h : k ≠ k') : allOf ((k, v) :: l) k' = allOf l k' := by
  unfold allOf
  rw [List.filter_cons_of_neg (by simpa using h)]

theorem allOf_one (k v : Str) : allOf [(k, v)] k = some [v] := by
  unfold allOf
  simp

theorem allOf_nil (k : Str) : allOf [] k = none := rfl

theorem join_ctl {a b : Str} (ha : hasCtl a = false) (hb : hasCtl b = false) : hasCtl (a ++ b) = false := by
  rw [hasCtl_append, ha, hb]; rfl

theorem object_path {n : Str} (hn : Fit n) : Bytewise (objectsPre ++ n) ∧ '?' ∉ objectsPre ++ n ∧ '#' ∉ objectsPre ++ n ∧
    '%' ∉ objectsPre ++ n ∧ hasCtl (objectsPre ++ n) = false := by
  have h1 : '?' ∉ objectsPre := by decide
  have h2 : '#' ∉ objectsPre := by decide
  have h3 : '%' ∉ objectsPre := by decide
  refine ⟨bytewise_append pre_ok.2.1 hn.bytes, ?_, ?_, ?_, join_ctl (hasCtl_safe pre_ok.1) hn.ctl⟩
  · simp [h1, hn.query]
  · simp [h2, hn.hash]
  · simp [h3, hn.pct]

/-- A request to read an object, by its path and query. -/
theorem serve_get {t n raw b tok : Str} (ha : arrive t = some (objectsPre ++ n, raw)) (hne : n ≠ []) (hs : '/' ∉ n) :
    serve ⟨.get, t, [("Bucket".toList, b), ("Authorization".toList, tok)]⟩ =
      (bindGet (request ⟨.get, t, [("Bucket".toList, b), ("Authorization".toList, tok)]⟩ n raw)).map .get := by
  unfold serve
  simp only [ha, segment_object hne hs]

/-- What the API server reads, by what the query says. -/
theorem read_get (t n raw b tok : Str) (hR : allOf (queryPairs raw) "Range".toList = none) (g : Get) :
    bindGet (request ⟨.get, t, [("Bucket".toList, b), ("Authorization".toList, tok)]⟩ n raw) = some g ↔
      g.name = pick (allOf (queryPairs raw) sName) n ∧ g.name ≠ [] ∧
      g.bucket = pick (allOf (queryPairs raw) sBucket) b ∧ g.bucket ≠ [] ∧
      MeansInt 32 (text (allOf (queryPairs raw) "version".toList)) g.version ∧ 0 ≤ g.version := by
  rw [C85_get _ (only_name _ _ _) rfl hR]
  rfl

theorem all3 {P : Str → Prop} {a b c : Str} (h1 : P a) (h2 : P b) (h3 : P c) : ∀ k ∈ [a, b, c], P k := by
  intro k hk
  rcases List.mem_cons.1 hk with rfl | hk
  · exact h1
  · rcases List.mem_cons.1 hk with rfl | hk
    · exact h2
    · rw [List.mem_singleton.1 hk]; exact h3

theorem all4 {P : Str → Prop} {a b c d : Str} (h0 : P a) (h1 : P b) (h2 : P c) (h3 : P d) : ∀ k ∈ [a, b, c, d], P k := by
  intro k hk
  rcases List.mem_cons.1 hk with rfl | hk
  · exact h0
  · exact all3 h1 h2 h3 k hk

/-- An upload, by the path that arrives. -/
theorem serve_put {n n' : Str} (hne : n' ≠ []) (hs : '/' ∉ n')
    (ha : arrive (objectsPre ++ escapeSeg n) = some (objectsPre ++ n', [])) (token bucket digest : Str) (hd : digest ≠ []) :
    serve (ask token (.upload n bucket digest)) =
      if bucket = [] then none else some (.put ⟨n', bucket, digest, false, 0⟩) := by
  unfold serve ask
  simp only [ha, segment_object hne hs]
  generalize hr : request _ n' [] = r
  have key := C85_put_partial r (by subst hr; exact only_name _ _ _)
    (by subst hr; exact all3 rfl rfl rfl) (by subst hr; exact all4 rfl rfl rfl rfl)
  have e1 : (r.param "name".toList).getD [] = n' := by subst hr; rfl
  have e2 : text (r.header "Bucket".toList) = bucket := by subst hr; rfl
  have e3 : text (r.header "Digest".toList) = digest := by subst hr; rfl
  have e4 : text (r.query "compress".toList) = [] := by subst hr; rfl
  have e5 : text (r.query "ss".toList) = [] := by subst hr; rfl
  rw [e1, e2, e3, e4, e5] at key
  by_cases h0 : bucket = []
  · rw [if_pos h0]
    cases hp : bindPut r with
    | none => rfl
    | some p =>
      obtain ⟨_, _, k3, k4, _⟩ := (key p).1 hp
      exact absurd (k3.trans h0) k4
  · have hm : MeansBool [] false := List.mem_cons_self ..
    rw [if_neg h0, (key ⟨n', bucket, digest, false, 0⟩).2 ⟨rfl, hne, rfl, h0, rfl, hd, hm, Or.inl ⟨rfl, rfl⟩⟩]
    rfl

theorem arrive_upload {n : Str} (hb : Bytewise n) :
    arrive (objectsPre ++ escapeSeg n) = (landing (objectsPre ++ escapeSeg n)).map (·, []) := by
  obtain ⟨_, _, _, s4, s5, s6⟩ := escapeSeg_spec hb
  have q1 : '?' ∉ objectsPre := by decide
  have q2 : '#' ∉ objectsPre := by decide
  exact arrive_plain (by simp [q1, s4]) (by simp [q2, s5]) (join_ctl (hasCtl_safe pre_ok.1) s6)

theorem unescape_prefix {pre s t : Str} (hp : '%' ∉ pre) (h : unescape false s = some t) :
    unescape false (pre ++ s) = some (pre ++ t) := by
  induction pre with
  | nil => exact h
  | cons c r ih =>
    simp only [List.mem_cons, not_or] at hp
    rw [List.cons_append, unescape_plain (Ne.symm hp.1), ih hp.2]
    simp

/-- A read, by the query that arrives. -/
theorem serve_download {n t raw : Str} (hne : n ≠ []) (hs : '/' ∉ n) (ha : arrive t = some (objectsPre ++ n, raw))
    (b tok : Str) (hR : allOf (queryPairs raw) "Range".toList = none) (hN : allOf (queryPairs raw) sName = none)
    (hB : allOf (queryPairs raw) sBucket = none) {v : Int} {P : Prop} [Decidable P]
    (hv : ∀ z, MeansInt 32 (text (allOf (queryPairs raw) "version".toList)) z ∧ 0 ≤ z ↔ z = v ∧ P) :
    serve ⟨.get, t, [("Bucket".toList, b), ("Authorization".toList, tok)]⟩ =
      if b = [] ∨ ¬ P then none else some (.get ⟨n, b, v⟩) := by
  rw [serve_get ha hne hs]
  have key := read_get t n raw b tok hR
  rw [hN, hB] at key
  simp only [pick] at key
  generalize bindGet _ = o at key ⊢
  by_cases h0 : b = [] ∨ ¬ P
  · rw [if_pos h0]
    cases o with
    | none => rfl
    | some g =>
      obtain ⟨_, _, k3, k4, k5⟩ := (key g).1 rfl
      rcases h0 with h0 | h0
      · exact absurd (k3.trans h0) k4
      · exact absurd ((hv _).1 k5).2 h0
  · rw [if_neg h0]
    simp only [not_or, Decidable.not_not] at h0
    rw [(key ⟨n, b, v⟩).2 ⟨rfl, hne, rfl, h0.1, (hv v).2 ⟨rfl, h0.2⟩⟩]
    rfl

/-- The versions that exist: `0` is the latest one. -/
def Version (v : Int) : Prop := 0 ≤ v ∧ v < 2 ^ 31

instance (v : Int) : Decidable (Version v) := inferInstanceAs (Decidable (_ ∧ _))

theorem version_asked {v : Int} (h : Int64 v) (z : Int) : MeansInt 32 (fmtInt v) z ∧ 0 ≤ z ↔ z = v ∧ Version v := by
  rw [means32 h]
  constructor
  · rintro ⟨⟨rfl, h1, h2⟩, h3⟩; exact ⟨rfl, h3, h2⟩
  · rintro ⟨rfl, h1, h2⟩; exact ⟨⟨rfl, by omega, h2⟩, h1⟩

theorem version_none (z : Int) : MeansInt 32 (text none) z ∧ 0 ≤ z ↔ z = 0 ∧ True := by
  have : text none = [] := rfl
  rw [this]
  unfold MeansInt
  constructor
  · rintro ⟨⟨_, rfl⟩ | ⟨h, _⟩, _⟩
    · exact ⟨rfl, trivial⟩
    · cases h
  · rintro ⟨rfl, _⟩; exact ⟨Or.inl ⟨rfl, rfl⟩, by omega⟩

theorem tame_version : Tame "version".toList := by constructor <;> decide
theorem tame_page : Tame "page".toList := by constructor <;> decide
theorem tame_page_size : Tame "page_size".toList := by constructor <;> decide
theorem tame_name : Tame sName := by constructor <;> decide
theorem tame_bucket : Tame sBucket := by constructor <;> decide

/-! ## C88: objects -/

/-- **C88**, partial: for a name without `/`, `,` and `;` the upload page stores the object under its name, in the
bucket of the page, with the digest of the file; without a bucket it is refused. -/
theorem C88_upload_partial {n : Str} (hb : Bytewise n) (hne : n ≠ []) (h1 : '/' ∉ n) (h2 : ',' ∉ n) (h3 : ';' ∉ n)
    (token bucket digest : Str) (hd : digest ≠ []) :
    serve (ask token (.upload n bucket digest)) =
      if bucket = [] then none else some (.put ⟨n, bucket, digest, false, 0⟩) := by
  have he : objectsPre ++ escapeSeg n = escapePath (objectsPre ++ n) := by
    rw [escapePath_append, escapePath_self pre_ok.1, escapeSeg_eq h1 h2 h3]
  refine serve_put hne h1 ?_ token bucket digest hd
  rw [arrive_upload hb, he, landing_escaped (bytewise_append pre_ok.2.1 hb)]
  rfl

example : serve (ask "t".toList (.upload "50% off?#1 (é).txt".toList "b".toList "d".toList)) =
    some (.put ⟨"50% off?#1 (é).txt".toList, "b".toList, "d".toList, false, 0⟩) :=
  C88_upload_partial (by unfold Bytewise; decide) (by decide) (by decide) (by decide) (by decide) _ _ _ (by decide)

/-- **C88 fails**: a file with one of `/`, `,` and `;` in its name is stored under another name, the encoded one. -/
theorem C88_upload_renamed {n : Str} (hb : Bytewise n) (h : '/' ∈ n ∨ ',' ∈ n ∨ ';' ∈ n)
    (token bucket digest : Str) (hd : digest ≠ []) :
    escapeSeg n ≠ n ∧
    serve (ask token (.upload n bucket digest)) =
      if bucket = [] then none else some (.put ⟨escapeSeg n, bucket, digest, false, 0⟩) := by
  have hne : n ≠ [] := by rintro rfl; simp at h
  obtain ⟨s1, s2, s3, _⟩ := escapeSeg_spec hb
  obtain ⟨d1, d2⟩ := escapeSeg_differs hb h
  refine ⟨d2, serve_put (escapeSeg_ne hne) s3 ?_ token bucket digest hd⟩
  rw [arrive_upload hb, landing_raw (s := objectsPre ++ n)]
  · rfl
  · simp [escapeSeg_ne hne]
  · rw [List.all_append, s2, Bool.and_true]; decide
  · exact unescape_prefix (by decide) s1
  · rw [escapePath_append, escapePath_self pre_ok.1]
    intro e
    exact d1 (List.append_cancel_left e).symm

example : escapeSeg "a,b".toList = "a%2Cb".toList := by decide

/-- **C88**, partial: for a name without the characters that have a meaning in a URL, the download page reads the
object of that name, in the bucket and the version of the page; other versions, and no bucket, are refused. -/
theorem C88_download_partial {n : Str} (hn : Fit n) (token bucket : Str) {v : Int} (hv : Int64 v) :
    serve (ask token (.download n bucket v)) =
      if bucket = [] ∨ ¬ Version v then none else some (.get ⟨n, bucket, v⟩) := by
  obtain ⟨p1, p2, p3, p4, p5⟩ := object_path hn
  have tv := tame_fmtInt v
  have e : objectsPre ++ (n ++ ("?version=".toList ++ fmtInt v)) =
      (objectsPre ++ n) ++ '?' :: ("version".toList ++ '=' :: fmtInt v) := by simp
  have ha : arrive (objectsPre ++ (n ++ ("?version=".toList ++ fmtInt v))) =
      some (objectsPre ++ n, "version".toList ++ '=' :: fmtInt v) := by
    rw [e, arrive_eq p2 p3 (by simp [tv.hash]) (by simp [tv.blank]) p5 (join_ctl (by decide) ?_), landing_self p1 p4]
    · rfl
    · have := tv.ctl
      simp only [hasCtl] at this ⊢
      rw [List.any_cons, this]; decide
  have hq := pairs_last tame_version tv
  refine serve_download hn.ne hn.slash ha bucket token ?_ ?_ ?_ ?_
  · rw [hq, allOf_skip (by decide)]; rfl
  · rw [hq, allOf_skip (by decide)]; rfl
  · rw [hq, allOf_skip (by decide)]; rfl
  · rw [hq, allOf_one]
    exact version_asked hv

example : Fit "50 off (1)!, [é];.txt".toList := by constructor <;> first | decide | (unfold Bytewise; decide)

example : serve (ask "t".toList (.download "a,b".toList "b".toList 3)) = some (.get ⟨"a,b".toList, "b".toList, 3⟩) := by
  rw [C88_download_partial (by constructor <;> first | decide | (unfold Bytewise; decide)) _ _ (by constructor <;> decide)]
  decide

/-- **C88**: a name with a slash is refused by the download page. -/
theorem C88_download_slash {n : Str} (hb : Bytewise n) (hs : '/' ∈ n) (hq : '?' ∉ n) (hh : '#' ∉ n) (hp : '%' ∉ n)
    (hc : hasCtl n = false) (token bucket : Str) (v : Int) : serve (ask token (.download n bucket v)) = none := by
  have tv := tame_fmtInt v
  have h0 : '?' ∉ objectsPre ∧ '#' ∉ objectsPre ∧ '%' ∉ objectsPre := by decide
  have e : objectsPre ++ (n ++ ("?version=".toList ++ fmtInt v)) =
      (objectsPre ++ n) ++ '?' :: ("version".toList ++ '=' :: fmtInt v) := by simp
  have ha : arrive (objectsPre ++ (n ++ ("?version=".toList ++ fmtInt v))) =
      some (objectsPre ++ n, "version".toList ++ '=' :: fmtInt v) := by
    have hv : hasCtl ("version".toList ++ '=' :: fmtInt v) = false :=
      join_ctl (by decide) (join_ctl (a := ['=']) (by decide) tv.ctl)
    rw [e, arrive_eq (by simp [h0, hq]) (by simp [h0, hh]) (by simp [tv.hash]) (by simp [tv.blank])
      (join_ctl (hasCtl_safe pre_ok.1) hc) hv,
      landing_self (bytewise_append pre_ok.2.1 hb) (by simp [h0, hp])]
    rfl
  have h1 : segment objectsPre [] (objectsPre ++ n) = none := by
    unfold segment
    simp [hs]
  have h2 : segment metadataPre versionsSuf (objectsPre ++ n) = none := by
    have : hasPrefix (objectsPre ++ n) metadataPre = false := rfl
    unfold segment
    simp [this]
  unfold serve ask
  simp only [ha, h1, h2]

example : serve (ask "t".toList (.download "a/b".toList "c".toList 1)) = none :=
  C88_download_slash (by unfold Bytewise; decide) (by decide) (by decide) (by decide) (by decide) (by decide) _ _ _

/-- **C88**, partial: what the upload page stored under a name that is also without `,` and `;` is what the download
page reads under it. -/
theorem C88_round_trip_partial {n : Str} (hn : Fit n) (h1 : ',' ∉ n) (h2 : ';' ∉ n) (token bucket digest : Str)
    (hb : bucket ≠ []) (hd : digest ≠ []) {v : Int} (hv : Version v) :
    ∃ p g, serve (ask token (.upload n bucket digest)) = some (.put p) ∧
      serve (ask token (.download n bucket v)) = some (.get g) ∧
      p.name = n ∧ g.name = p.name ∧ p.bucket = bucket ∧ g.bucket = p.bucket ∧ g.version = v ∧ p.digest = digest := by
  refine ⟨⟨n, bucket, digest, false, 0⟩, ⟨n, bucket, v⟩, ?_, ?_, rfl, rfl, rfl, rfl, rfl, rfl⟩
  · rw [C88_upload_partial hn.bytes hn.ne hn.slash h1 h2 _ _ _ hd, if_neg hb]
  · have hi : Int64 v := ⟨by have := hv.1; omega, by have := hv.2; omega⟩
    rw [C88_download_partial hn _ _ hi, if_neg (by simp [hb, hv])]

/-- **C88 fails**: what the upload page stored under a name with `,` or `;` is not found by the download page. -/
theorem C88_round_trip_lost {n : Str} (hn : Fit n) (h : ',' ∈ n ∨ ';' ∈ n) (token bucket digest : Str)
    (hb : bucket ≠ []) (hd : digest ≠ []) {v : Int} (hv : Version v) :
    ∃ p g, serve (ask token (.upload n bucket digest)) = some (.put p) ∧
      serve (ask token (.download n bucket v)) = some (.get g) ∧ g.name ≠ p.name := by
  obtain ⟨h1, h2⟩ := C88_upload_renamed hn.bytes (Or.inr h) token bucket digest hd
  refine ⟨⟨escapeSeg n, bucket, digest, false, 0⟩, ⟨n, bucket, v⟩, ?_, ?_, fun e => h1 e.symm⟩
  · rw [h2, if_neg hb]
  · have hi : Int64 v := ⟨by have := hv.1; omega, by have := hv.2; omega⟩
    rw [C88_download_partial hn _ _ hi, if_neg (by simp [hb, hv])]

/-- **C88 fails**: for a name that goes on with `?` the download page reads the **latest** version of the object named
by the part before it. -/
theorem C88_download_query {a r : Str} (ha : Fit a) (hr : Tame r) (token bucket : Str) (hb : bucket ≠ []) (v : Int) :
    serve (ask token (.download (a ++ '?' :: r) bucket v)) = some (.get ⟨a, bucket, 0⟩) := by
  obtain ⟨p1, p2, p3, p4, p5⟩ := object_path ha
  have tv := tame_fmtInt v
  have tk : Tame (r ++ "?version".toList) := tame_append hr (by constructor <;> decide)
  have e : objectsPre ++ ((a ++ '?' :: r) ++ ("?version=".toList ++ fmtInt v)) =
      (objectsPre ++ a) ++ '?' :: ((r ++ "?version".toList) ++ '=' :: fmtInt v) := by simp
  have hin : ∀ k : Str, '?' ∉ k → r ++ "?version".toList ≠ k := by
    intro k hk e
    exact hk (e ▸ by simp)
  have harr : arrive (objectsPre ++ ((a ++ '?' :: r) ++ ("?version=".toList ++ fmtInt v))) =
      some (objectsPre ++ a, (r ++ "?version".toList) ++ '=' :: fmtInt v) := by
    rw [e, arrive_eq p2 p3 (by simp [tv.hash, hr.hash]) (by simp [tv.blank, hr.blank]) p5 (join_ctl tk.ctl ?_),
      landing_self p1 p4]
    · rfl
    · have := tv.ctl
      simp only [hasCtl] at this ⊢
      rw [List.any_cons, this]; decide
  have hq := pairs_last tk tv
  have := serve_download ha.ne ha.slash harr bucket token (v := 0) (P := True) (by rw [hq, allOf_skip (hin _ (by decide))]; rfl)
    (by rw [hq, allOf_skip (hin _ (by decide))]; rfl) (by rw [hq, allOf_skip (hin _ (by decide))]; rfl)
    (by rw [hq, allOf_skip (hin _ (by decide)), allOf_nil]; exact version_none)
  rw [if_neg (by simp [hb])] at this
  exact this

example : serve (ask "t".toList (.download "a?b".toList "c".toList 3)) = some (.get ⟨"a".toList, "c".toList, 0⟩) :=
  C88_download_query (a := "a".toList) (r := "b".toList) (by constructor <;> first | decide | (unfold Bytewise; decide))
    (by constructor <;> decide) _ _ (by decide) _

/-- **C88 fails** in the same way for `#`. -/
theorem C88_download_fragment {a r : Str} (ha : Fit a) (hp : '%' ∉ r) (hc : hasCtl r = false) (token bucket : Str)
    (hb : bucket ≠ []) (v : Int) :
    serve (ask token (.download (a ++ '#' :: r) bucket v)) = some (.get ⟨a, bucket, 0⟩) := by
  obtain ⟨p1, p2, p3, p4, p5⟩ := object_path ha
  have tv := tame_fmtInt v
  have e : objectsPre ++ ((a ++ '#' :: r) ++ ("?version=".toList ++ fmtInt v)) =
      (objectsPre ++ a) ++ '#' :: (r ++ ("?version=".toList ++ fmtInt v)) := by simp
  have harr : arrive (objectsPre ++ ((a ++ '#' :: r) ++ ("?version=".toList ++ fmtInt v))) =
      some (objectsPre ++ a, []) := by
    rw [e, arrive_frag p2 p3 p5 (by simp [hp, tv.pct]) (join_ctl hc (join_ctl (by decide) tv.ctl)), landing_self p1 p4]
    rfl
  have := serve_download ha.ne ha.slash harr bucket token (v := 0) (P := True) rfl rfl rfl version_none
  rw [if_neg (by simp [hb])] at this
  exact this

example : serve (ask "t".toList (.download "a#b".toList "c".toList 3)) = some (.get ⟨"a".toList, "c".toList, 0⟩) :=
  C88_download_fragment (a := "a".toList) (r := "b".toList) (by constructor <;> first | decide | (unfold Bytewise; decide))
    (by decide) (by decide) _ _ (by decide) _

/-- **C88 fails**: if a name is the encoding of another one, the download page reads the other object. -/
theorem C88_download_encoded {m : Str} (hb : Bytewise m) (hne : m ≠ []) (hs : '/' ∉ m) (token bucket : Str)
    (hbk : bucket ≠ []) {v : Int} (hv : Version v) :
    serve (ask token (.download (escapePath m) bucket v)) = some (.get ⟨m, bucket, v⟩) := by
  have hbb := bytewise_append pre_ok.2.1 hb
  have tv := tame_fmtInt v
  have hi : Int64 v := ⟨by have := hv.1; omega, by have := hv.2; omega⟩
  have e : objectsPre ++ (escapePath m ++ ("?version=".toList ++ fmtInt v)) =
      escapePath (objectsPre ++ m) ++ '?' :: ("version".toList ++ '=' :: fmtInt v) := by
    rw [escapePath_append, escapePath_self pre_ok.1]; simp
  obtain ⟨c1, c2⟩ := escapePath_clean hbb
  have c3 : '#' ∉ escapePath (objectsPre ++ m) := escaped_no_hash hbb
  have ha : arrive (objectsPre ++ (escapePath m ++ ("?version=".toList ++ fmtInt v))) =
      some (objectsPre ++ m, "version".toList ++ '=' :: fmtInt v) := by
    rw [e, arrive_eq c1 c3 (by simp [tv.hash]) (by simp [tv.blank]) c2 (join_ctl (by decide) ?_), landing_escaped hbb]
    · rfl
    · have := tv.ctl
      simp only [hasCtl] at this ⊢
      rw [List.any_cons, this]; decide
  have hq := pairs_last tame_version tv
  have := serve_download hne hs ha bucket token (v := v) (P := Version v) (by rw [hq, allOf_skip (by decide)]; rfl)
    (by rw [hq, allOf_skip (by decide)]; rfl) (by rw [hq, allOf_skip (by decide)]; rfl)
    (by rw [hq, allOf_one]; exact version_asked hi)
  rw [if_neg (by simp [hbk, hv])] at this
  exact this

example : serve (ask "t".toList (.download "a%20b".toList "c".toList 3)) = some (.get ⟨"a b".toList, "c".toList, 3⟩) :=
  C88_download_encoded (m := "a b".toList) (by unfold Bytewise; decide) (by decide) (by decide) _ _ (by decide)
    (by decide)

/-- **C88 fails**: by its name a request to the download page, for the bucket `bucket`, reads an object of any other
bucket. -/
theorem C88_download_elsewhere {a n b : Str} (ha : Fit a) (hn : Tame n) (hne : n ≠ []) (hb : Tame b) (hbn : b ≠ [])
    (token bucket : Str) (v : Int) :
    serve (ask token (.download (a ++ ("?Name=".toList ++ (n ++ ("&Bucket=".toList ++ (b ++ "&".toList))))) bucket v)) =
      some (.get ⟨n, b, 0⟩) := by
  obtain ⟨p1, p2, p3, p4, p5⟩ := object_path ha
  have tv := tame_fmtInt v
  have tk : Tame "?version".toList := by constructor <;> decide
  have e : objectsPre ++ ((a ++ ("?Name=".toList ++ (n ++ ("&Bucket=".toList ++ (b ++ "&".toList))))) ++
        ("?version=".toList ++ fmtInt v)) =
      (objectsPre ++ a) ++ '?' :: (sName ++ '=' :: (n ++ '&' :: (sBucket ++ '=' :: (b ++ '&' ::
        ("?version".toList ++ '=' :: fmtInt v))))) := by simp [sName, sBucket]
  have hq : queryPairs (sName ++ '=' :: (n ++ '&' :: (sBucket ++ '=' :: (b ++ '&' ::
        ("?version".toList ++ '=' :: fmtInt v))))) =
      [(sName, n), (sBucket, b), ("?version".toList, fmtInt v)] := by
    rw [pairs_more tame_name hn, pairs_more tame_bucket hb, pairs_last tk tv]
  have hcons : ∀ (c : Char) (s : Str), hasCtl [c] = false → hasCtl s = false → hasCtl (c :: s) = false := by
    intro c s h1 h2
    exact join_ctl (a := [c]) h1 h2
  have harr : arrive (objectsPre ++ ((a ++ ("?Name=".toList ++ (n ++ ("&Bucket=".toList ++ (b ++ "&".toList))))) ++
        ("?version=".toList ++ fmtInt v))) =
      some (objectsPre ++ a, sName ++ '=' :: (n ++ '&' :: (sBucket ++ '=' :: (b ++ '&' ::
        ("?version".toList ++ '=' :: fmtInt v))))) := by
    rw [e, arrive_eq p2 p3 ?_ ?_ p5 ?_, landing_self p1 p4]
    · rfl
    · simp [sName, sBucket, hn.hash, hb.hash, tv.hash]
    · simp [sName, sBucket, hn.blank, hb.blank, tv.blank]
    · exact join_ctl (by decide) (hcons _ _ (by decide) (join_ctl hn.ctl (hcons _ _ (by decide) (join_ctl (by decide)
        (hcons _ _ (by decide) (join_ctl hb.ctl (hcons _ _ (by decide) (join_ctl (by decide) (hcons _ _ (by decide)
          tv.ctl)))))))))
  have l1 : allOf [(sName, n), (sBucket, b), ("?version".toList, fmtInt v)] sName = some [n] := by
    unfold allOf; rfl
  have l2 : allOf [(sName, n), (sBucket, b), ("?version".toList, fmtInt v)] sBucket = some [b] := by
    unfold allOf; rfl
  have l3 : allOf [(sName, n), (sBucket, b), ("?version".toList, fmtInt v)] "version".toList = none := rfl
  unfold ask
  simp only
  rw [serve_get harr ha.ne ha.slash, (read_get _ _ _ _ _ (by rw [hq]; rfl) ⟨n, b, 0⟩).2]
  · rfl
  · rw [hq, l1, l2, l3]
    exact ⟨rfl, hne, rfl, hbn, Or.inl ⟨rfl, rfl⟩, Int.le_refl 0⟩

example : serve (ask "t".toList (.download "x?Name=secret&Bucket=other&".toList "mine".toList 7)) =
    some (.get ⟨"secret".toList, "other".toList, 0⟩) :=
  C88_download_elsewhere (a := "x".toList) (n := "secret".toList) (b := "other".toList)
    (by constructor <;> first | decide | (unfold Bytewise; decide)) (by constructor <;> decide) (by decide)
    (by constructor <;> decide) (by decide) _ _ _

/-- **C88**, partial: for a name without the characters that have a meaning in a URL, the page of versions lists the
versions of the object of that name, of the bucket, page and page size given; page 0, size 0 and no bucket are
refused. -/
theorem C88_versions_partial {n : Str} (hn : Fit n) (token bucket : Str) {p z : Int} (hp : Int64 p) (hz : Int64 z) :
    serve (ask token (.versions n bucket p z)) =
      if bucket = [] ∨ p = 0 ∨ z = 0 then none else some (.versions n bucket p z) := by
  have tp := tame_fmtInt p
  have tz := tame_fmtInt z
  have h1 : '?' ∉ metadataPre ∧ '#' ∉ metadataPre ∧ '%' ∉ metadataPre := by decide
  have h2 : '?' ∉ versionsSuf ∧ '#' ∉ versionsSuf ∧ '%' ∉ versionsSuf := by decide
  have e : metadataPre ++ (n ++ (versionsSuf ++ ("?page=".toList ++ (fmtInt p ++ ("&page_size=".toList ++ fmtInt z))))) =
      (metadataPre ++ (n ++ versionsSuf)) ++ '?' :: ("page".toList ++ '=' :: (fmtInt p ++ '&' ::
        ("page_size".toList ++ '=' :: fmtInt z))) := by simp
  have hcons : ∀ (c : Char) (s : Str), hasCtl [c] = false → hasCtl s = false → hasCtl (c :: s) = false := by
    intro c s h1 h2
    exact join_ctl (a := [c]) h1 h2
  have ha : arrive (metadataPre ++ (n ++ (versionsSuf ++ ("?page=".toList ++ (fmtInt p ++
        ("&page_size=".toList ++ fmtInt z)))))) =
      some (metadataPre ++ (n ++ versionsSuf), "page".toList ++ '=' :: (fmtInt p ++ '&' ::
        ("page_size".toList ++ '=' :: fmtInt z))) := by
    rw [e, arrive_eq ?_ ?_ ?_ ?_ ?_ ?_, landing_self ?_ ?_]
    · rfl
    · exact bytewise_append pre_ok.2.2.2.1 (bytewise_append hn.bytes pre_ok.2.2.2.2.2)
    · simp [h1, h2, hn.pct]
    · simp [h1, h2, hn.query]
    · simp [h1, h2, hn.hash]
    · simp [tp.hash, tz.hash]
    · simp [tp.blank, tz.blank]
    · exact join_ctl (hasCtl_safe pre_ok.2.2.1) (join_ctl hn.ctl (hasCtl_safe pre_ok.2.2.2.2.1))
    · exact join_ctl (by decide) (hcons _ _ (by decide) (join_ctl tp.ctl (hcons _ _ (by decide) (join_ctl (by decide)
        (hcons _ _ (by decide) tz.ctl)))))
  have hq := pairs_more (r := "page_size".toList ++ '=' :: fmtInt z) tame_page tp
  rw [pairs_last tame_page_size tz] at hq
  unfold serve ask
  simp only [ha, segment_other, segment_own hn.ne hn.slash]
  generalize hr : request _ n _ = r
  have q1 : r.query = allOf [("page".toList, fmtInt p), ("page_size".toList, fmtInt z)] := by
    subst hr; show allOf (queryPairs _) = _; rw [hq]
  have key := C85_versions_partial r (by subst hr; exact only_name _ _ _) (by subst hr; exact all3 rfl rfl rfl)
    (by rw [q1]; intro k hk; rcases List.mem_cons.1 hk with rfl | hk
        · rfl
        · rw [List.mem_singleton.1 hk]; rfl)
  have e1 : (r.param "name".toList).getD [] = n := by subst hr; rfl
  have e2 : text (r.header "Bucket".toList) = bucket := by subst hr; rfl
  have e3 : text (r.query "page".toList) = fmtInt p := by rw [q1]; rfl
  have e4 : text (r.query "page_size".toList) = fmtInt z := by rw [q1]; rfl
  simp only [e1, e2, e3, e4, means_fmtInt hp, means_fmtInt hz] at key
  by_cases h0 : bucket = [] ∨ p = 0 ∨ z = 0
  · rw [if_pos h0]
    cases ho : bindVersions r with
    | none => rfl
    | some x =>
      obtain ⟨n', b', p', z'⟩ := x
      obtain ⟨_, _, rfl, k4, rfl, k6, rfl, k8⟩ := (key _ _ _ _).1 ho
      rcases h0 with h | h | h
      · exact absurd h k4
      · exact absurd h k6
      · exact absurd h k8
  · rw [if_neg h0]
    simp only [not_or] at h0
    rw [(key n bucket p z).2 ⟨rfl, hn.ne, rfl, h0.1, rfl, h0.2.1, rfl, h0.2.2⟩]
    rfl

example : serve (ask "t".toList (.versions "a b".toList "c".toList 2 10)) = some (.versions "a b".toList "c".toList 2 10) := by
  rw [C88_versions_partial (by constructor <;> first | decide | (unfold Bytewise; decide)) _ _ (by constructor <;> decide)
    (by constructor <;> decide)]
  decide

/-- What the download page reads: for every request with a name in its path.  A query parameter `Name` takes precedence
over the path. -/
theorem C88_page_any (r : Request) (hp : OnlyName r) (n b : Str) (v : Int) :
    downloadPage r = some (.download n b v) ↔
      n = pick (r.query sName) ((r.param "name".toList).getD []) ∧ b = text (r.query "bucket".toList) ∧
        MeansInt 64 (text (r.query "version".toList)) v := by
  have hU : (bindOne downloadType r .uri (downloadType.map fun f => zero f.kind)).1 =
      [.str ((r.param "name".toList).getD []), .str [], .int 0] := by
    have h1 := hp sBucket (by decide)
    have h2 := hp "Version".toList (by decide)
    simp only [bindOne, downloadType, mapFields_cons, mapFields_nil, key, values, Option.getD, h1, h2, List.map,
      Option.map, zero, fails_none, upd_none, fails_str, Bool.false_eq_true, ↓reduceIte]
    cases r.param "name".toList <;> rfl
  have hb : bind downloadType [.uri, .query] r =
      if (bindOne downloadType r .query (bindOne downloadType r .uri (downloadType.map fun f => zero f.kind)).1).2 then none
      else some (bindOne downloadType r .query (bindOne downloadType r .uri (downloadType.map fun f => zero f.kind)).1).1 := rfl
  rw [hU] at hb
  have hQ : bindOne downloadType r .query [.str ((r.param "name".toList).getD []), .str [], .int 0] =
      ([.str (pick (r.query sName) ((r.param "name".toList).getD [])), .str (text (r.query "bucket".toList)),
        upd (.int 64) (r.query "version".toList) (.int 0)], fails (.int 64) (r.query "version".toList)) := by
    have hk : pick (r.query "bucket".toList) [] = text (r.query "bucket".toList) := by
      cases r.query "bucket".toList <;> rfl
    simp only [bindOne, downloadType, mapFields_cons, mapFields_nil, key, values, Option.getD, fails_none, upd_none,
      fails_str, upd_str, hk, Bool.false_eq_true, ↓reduceIte, validate, ruleOk]
    cases hf : fails (.int 64) (r.query "version".toList) with
    | false => simp only [Bool.false_eq_true, ↓reduceIte, Bool.false_or]; rfl
    | true =>
      have hu : upd (.int 64) (r.query "version".toList) (.int 0) = .int 0 := by
        cases h : r.query "version".toList with
        | none => rfl
        | some l =>
          simp only [h, fails] at hf
          simp only [upd, Option.isNone_iff_eq_none.1 hf, Option.getD_none]
      rw [hu]; rfl
  rw [hQ] at hb
  unfold downloadPage
  rw [hb]
  cases h : r.query "version".toList with
  | none =>
    have ht : text none = [] := rfl
    simp only [fails, upd, ht, Bool.false_eq_true, ↓reduceIte, Option.some.injEq, Page.download.injEq]
    unfold MeansInt
    constructor
    · rintro ⟨rfl, rfl, rfl⟩; exact ⟨rfl, rfl, Or.inl ⟨rfl, rfl⟩⟩
    · rintro ⟨rfl, rfl, ⟨_, rfl⟩ | ⟨h, _⟩⟩
      · exact ⟨rfl, rfl, rfl⟩
      · cases h
  | some l =>
    have ht : text (some l) = first l := rfl
    rw [ht]
    have hs := setVal_int 64 l
    cases hv : setVal (.int 64) l with
    | none =>
      rw [hv] at hs
      simp only [fails, hv, Option.isNone_none, ↓reduceIte]
      constructor
      · intro h; cases h
      · rintro ⟨_, _, hm⟩
        cases (hs (.int v)).2 ⟨v, rfl, hm⟩
    | some w =>
      obtain ⟨z, rfl, hz⟩ := (hs w).1 hv
      simp only [fails, upd, hv, Option.isNone_some, Bool.false_eq_true, ↓reduceIte, Option.getD_some, Option.some.injEq,
        Page.download.injEq]
      constructor
      · rintro ⟨rfl, rfl, rfl⟩; exact ⟨rfl, rfl, hz⟩
      · rintro ⟨rfl, rfl, hm⟩
        have := (hs (.int v)).2 ⟨v, rfl, hm⟩
        rw [hv] at this
        cases this
        exact ⟨rfl, rfl, rfl⟩

/-- **C88**: the download page asks for the object of its path, with the bucket and the version of its query; it is
refused exactly if the version is no number of 64 bits.  (For a query without `Name`, see `C85`.) -/
theorem C88_page (r : Request) (hp : OnlyName r) (hq : r.query sName = none) (n b : Str) (v : Int) :
    downloadPage r = some (.download n b v) ↔
      n = (r.param "name".toList).getD [] ∧ b = text (r.query "bucket".toList) ∧
        MeansInt 64 (text (r.query "version".toList)) v := by
  rw [C88_page_any r hp, hq]
  rfl

example : downloadPage ⟨fun k => if k = "name".toList then some "a?b".toList else none, fun _ => none,
    allOf [("bucket".toList, "c".toList), ("version".toList, "3".toList)], none⟩ =
    some (.download "a?b".toList "c".toList 3) := rfl

/-! ## C88: buckets -/

theorem bucket_arrives {n : Str} (hn : Fit n) : ∃ seg, bucketSeg n = some seg ∧ apiParam seg = some n := by
  have hb := bytewise_append prefix_safe.2.1 hn.bytes
  have h0 : '?' ∉ apiPrefix ∧ '#' ∉ apiPrefix ∧ '%' ∉ apiPrefix := by decide
  have q1 : '?' ∉ apiPrefix ++ n := by simp [h0, hn.query]
  have q2 : '#' ∉ apiPrefix ++ n := by simp [h0, hn.hash]
  have q3 : '%' ∉ apiPrefix ++ n := by simp [h0, hn.pct]
  have q4 : hasCtl (apiPrefix ++ n) = false := join_ctl (hasCtl_safe prefix_safe.1) hn.ctl
  have hu : unescape false (apiPrefix ++ n) = some (apiPrefix ++ n) := unescape_self q3 (by intro h; cases h)
  have u0 : unescape false [] = some [] := rfl
  obtain ⟨x, hx, h⟩ := sent_cases q3
  have hs : sentPath (apiPrefix ++ n) = some (escapedPath (apiPrefix ++ n) x) := by
    unfold sentPath
    simp only [q4, cut_self q2, cut_self q1, u0, hx, Bool.false_eq_true, ↓reduceIte]
  have same : escapedPath (apiPrefix ++ n) x = apiPrefix ++ n → ∃ seg, bucketSeg n = some seg ∧ apiParam seg = some n := by
    intro e
    refine ⟨n, by unfold bucketSeg; rw [hs, e]; simp, ?_⟩
    unfold apiParam routeParam
    rw [cut_self q1, q4]
    simp only [setPath, hu, Bool.false_eq_true, ↓reduceIte]
    have hr : (if (if escapePath (apiPrefix ++ n) = apiPrefix ++ n then ([] : Str) else apiPrefix ++ n) ≠ [] then
        (if escapePath (apiPrefix ++ n) = apiPrefix ++ n then ([] : Str) else apiPrefix ++ n) else apiPrefix ++ n) =
        apiPrefix ++ n := by
      by_cases he : escapePath (apiPrefix ++ n) = apiPrefix ++ n
      · rw [if_pos he]; simp
      · rw [if_neg he]; simp
    rw [hr, if_neg (by simp [hasPrefix_append]), List.drop_left, if_neg (by simp [hn.ne, hn.slash]), if_neg (by simp)]
  rcases h with ⟨_, h2⟩ | ⟨_, _, h2⟩ | h2
  · exact same h2
  · exact same h2
  · refine ⟨escapePath n, ?_, apiParam_standard hn.bytes hn.ne hn.slash⟩
    unfold bucketSeg
    rw [hs, h2, escapePath_append, escapePath_self prefix_safe.1]
    simp

theorem Fit.of_clean {n : Str} (h : Clean n) : Fit n := ⟨h.bytes, h.ne, h.slash, h.query, h.hash, h.pct, h.ctl⟩

/-- A name that goes on with `?` or `#`. -/
theorem bucket_cut {a b : Str} {c : Char} (hc : c = '?' ∨ c = '#') (ha : Fit a) (hh : '#' ∉ b) (hp : '%' ∉ b)
    (hctl : hasCtl b = false) : bucketSeg (a ++ c :: b) = bucketSeg a := by
  have h0 : '?' ∉ apiPrefix ∧ '#' ∉ apiPrefix := by decide
  have q1 : '?' ∉ apiPrefix ++ a := by simp [h0, ha.query]
  have q2 : '#' ∉ apiPrefix ++ a := by simp [h0, ha.hash]
  have q4 : hasCtl (apiPrefix ++ a) = false := join_ctl (hasCtl_safe prefix_safe.1) ha.ctl
  have q5 : hasCtl ((apiPrefix ++ a) ++ c :: b) = false :=
    join_ctl q4 (join_ctl (a := [c]) (by rcases hc with rfl | rfl <;> decide) hctl)
  have u0 : unescape false [] = some [] := rfl
  unfold bucketSeg sentPath
  rw [← List.append_assoc, q4, q5]
  rcases hc with rfl | rfl
  · rw [cut_self (show '#' ∉ (apiPrefix ++ a) ++ '?' :: b by simp [h0, ha.hash, hh]), cut_self q2]
    simp only [cut_append q1, cut_self q1]
  · rw [cut_append q2, cut_self q2]
    have ub : unescape false b = some b := unescape_self hp (by intro h; cases h)
    simp only [ub, u0]
    cases setPath (cut '?' (apiPrefix ++ a)).fst <;> rfl

/-- A name that is the encoding of another one. -/
theorem bucket_encoded {m : Str} (hb : Bytewise m) : bucketSeg (escapePath m) = some (escapePath m) := by
  have hbb := bytewise_append prefix_safe.2.1 hb
  have e : apiPrefix ++ escapePath m = escapePath (apiPrefix ++ m) := by
    rw [escapePath_append, escapePath_self prefix_safe.1]
  obtain ⟨c1, c2⟩ := escapePath_clean hbb
  have c3 : '#' ∉ escapePath (apiPrefix ++ m) := escaped_no_hash hbb
  have u0 : unescape false [] = some [] := rfl
  have h : escapedPath (apiPrefix ++ m) [] = escapePath (apiPrefix ++ m) := by
    unfold escapedPath; rw [if_neg (fun h => h.1 rfl)]
  unfold bucketSeg sentPath
  rw [e, c2, cut_self c3, cut_self c1]
  simp only [Bool.false_eq_true, ↓reduceIte, u0, setPath_escaped hbb, h]
  rw [← e, List.drop_left]

theorem deletePage_eq {w : World} (hw : w.Healthy) {name seg n r : Str} {i : Nat} (hs : bucketSeg name = some seg)
    (h1 : apiParam seg = some n) (h2 : metaParam n = some r) (ho : w.owner n = some i) (ho2 : w.owner r = some i) :
    (deletePage w name).1 = .ok ∧
    (∀ m, Meta.bucketsOf ((deletePage w name).2.store i) m = if m = r then none else Meta.bucketsOf (w.store i) m) ∧
    (∀ j, j ≠ i → (deletePage w name).2.store j = w.store j) := by
  have e : deletePage w name = (.ok, w.set i (Meta.step (w.store i) (.bucketDelete r)).2) := by
    unfold deletePage
    rw [hs]
    exact delete_eq hw h1 h2 ho ho2
  rw [e]
  refine ⟨rfl, fun m => ?_, fun j hj => ?_⟩
  · show Meta.bucketsOf (if i = i then _ else _) m = _
    rw [if_pos rfl]; exact (step_delete _ r).2 m
  · show (if j = i then _ else _) = _
    rw [if_neg hj]

/-- **C88**, partial: for `Clean` names the deletion page removes the bucket of that name and nothing else. -/
theorem C88_delete_partial {w : World} (hw : w.Healthy) {n : Str} (hn : Clean n) {i : Nat} (ho : w.owner n = some i) :
    (deletePage w n).1 = .ok ∧
    (∀ m, Meta.bucketsOf ((deletePage w n).2.store i) m = if m = n then none else Meta.bucketsOf (w.store i) m) ∧
    (∀ j, j ≠ i → (deletePage w n).2.store j = w.store j) := by
  obtain ⟨seg, h1, h2⟩ := bucket_arrives (Fit.of_clean hn)
  exact deletePage_eq hw h1 h2 (metaParam_clean hn) ho ho

/-- **C88 fails**: for a name that goes on with `?` or `#` after a `Clean` part, the deletion page removes the bucket
named by that part instead and answers success, wherever the named bucket is. -/
theorem C88_deletes_other {w : World} (hw : w.Healthy) {a b : Str} {c : Char} (hc : c = '?' ∨ c = '#') (ha : Clean a)
    (hh : '#' ∉ b) (hp : '%' ∉ b) (hctl : hasCtl b = false) {i : Nat} (ho : w.owner a = some i) :
    (deletePage w (a ++ c :: b)).1 = .ok ∧
    (∀ m, Meta.bucketsOf ((deletePage w (a ++ c :: b)).2.store i) m =
      if m = a then none else Meta.bucketsOf (w.store i) m) ∧
    (∀ j, j ≠ i → (deletePage w (a ++ c :: b)).2.store j = w.store j) := by
  obtain ⟨seg, h1, h2⟩ := bucket_arrives (Fit.of_clean ha)
  exact deletePage_eq hw ((bucket_cut hc (Fit.of_clean ha) hh hp hctl).trans h1) h2 (metaParam_clean ha) ho ho

/-- **C88 fails**: if a name is the encoding of another, `Clean`, one, the deletion page removes the other bucket. -/
theorem C88_deletes_decoded {w : World} (hw : w.Healthy) {m : Str} (hm : Clean m) {i : Nat} (ho : w.owner m = some i) :
    (deletePage w (escapePath m)).1 = .ok ∧
    (∀ k, Meta.bucketsOf ((deletePage w (escapePath m)).2.store i) k =
      if k = m then none else Meta.bucketsOf (w.store i) k) ∧
    (∀ j, j ≠ i → (deletePage w (escapePath m)).2.store j = w.store j) :=
  deletePage_eq hw (bucket_encoded hm.bytes) (apiParam_standard hm.bytes hm.ne hm.slash) (metaParam_clean hm) ho ho

example : escapePath "a b".toList = "a%20b".toList ∧ Clean "a b".toList := by
  refine ⟨by decide, ?_⟩
  constructor <;> first | decide | (unfold Bytewise; decide)

theorem update_seg (w : World) {s s' : Str} (h : apiParam s = apiParam s') (b : Api.MetaRpc.EBucket) :
    update w s b = update w s' b := by
  unfold update
  rw [h]

/-- **C88**, partial: for `Clean` names the page of settings replaces the settings of the bucket it names and keeps its
time of creation; a bucket that does not exist, or was changed later, is not changed, and no other bucket ever is. -/
theorem C88_update_partial {w : World} (hw : w.Healthy) (hr : ∀ i, Meta.Reachable (w.store i)) {b : Api.MetaRpc.EBucket}
    (hn : Clean b.name) {i : Nat} (ho : w.owner b.name = some i)
    (hf : fits32 b.dataShards && fits32 b.parityShards && fits32 b.versionRemains) :
    (∀ o, Meta.bucketsOf (w.store i) b.name = some o → o.updateTime < (w.mode i).now →
      (updatePage w b).1 = .ok ∧
      ∀ m, Meta.bucketsOf ((updatePage w b).2.store i) m =
        if m = b.name then some (updated b.name (w.mode i).now b o.createTime) else Meta.bucketsOf (w.store i) m) ∧
    ((∀ o, Meta.bucketsOf (w.store i) b.name = some o → (w.mode i).now ≤ o.updateTime) →
      (updatePage w b).1 = .fail ∧
      ∀ m, Meta.bucketsOf ((updatePage w b).2.store i) m = Meta.bucketsOf (w.store i) m) ∧
    (∀ j, j ≠ i → (updatePage w b).2.store j = w.store j) := by
  obtain ⟨seg, h1, h2⟩ := bucket_arrives (Fit.of_clean hn)
  have e : updatePage w b = update w (escapePath b.name) b := by
    unfold updatePage
    rw [h1]
    exact update_seg w (h2.trans (apiParam_standard hn.bytes hn.ne hn.slash).symm) b
  rw [e]
  exact C84_update_partial hw hr hn ho hf

/-! ## Examples -/

example : (deletePage sampleWorld "a b".toList).1 = .ok ∧
    Meta.bucketsOf ((deletePage sampleWorld "a b".toList).2.store 0) "a b".toList = none ∧
    Meta.bucketsOf ((deletePage sampleWorld "a b".toList).2.store 0) "a".toList = some (named "a") := by
  have h := C88_delete_partial sampleWorld_healthy clean_ab (i := 0) rfl
  exact ⟨h.1, h.2.1 _, h.2.1 _⟩

example : (deletePage sampleWorld "a?b".toList).1 = .ok ∧
    Meta.bucketsOf ((deletePage sampleWorld "a?b".toList).2.store 0) "a".toList = none ∧
    Meta.bucketsOf ((deletePage sampleWorld "a?b".toList).2.store 0) "a?b".toList = some (named "a?b") := by
  have h := C88_deletes_other (c := '?') sampleWorld_healthy (.inl rfl) clean_a (b := "b".toList) (by decide) (by decide)
    (by decide) (i := 0) rfl
  exact ⟨h.1, h.2.1 _, h.2.1 _⟩

example : (updatePage sampleWorld { name := "a b".toList, readonly := true }).1 = .ok :=
  ((C88_update_partial sampleWorld_healthy sampleWorld_reachable (b := { name := "a b".toList, readonly := true }) clean_ab
    (i := 0) rfl rfl).1 (named "a b") rfl (by decide)).1

end Verif.Admin.Pages
