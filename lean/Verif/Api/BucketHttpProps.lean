import Verif.Api.BucketHttp
import Verif.Api.MetaRpcProps
import Verif.Meta.Props

/-!
# Bucket administration over HTTP (theorems): C84

A request under `/v1/bucket/<segment>` should concern the bucket whose name the segment encodes, and
no other.  Reading does, for every name that is encoded the standard way; updating and deleting do for
names without `/ ? # % +` and control characters.  For other names they may act on a different bucket,
because the API server builds the URL for the metadata server from the bare name.
-/

namespace Verif.Api.BucketHttp

open Verif Verif.Msgp Verif.Api.MetaRpc

/-! ## Specification -/

/-- The value of a hexadecimal digit. -/
inductive HexVal : Char → Nat → Prop
  | digit {c n} : n < 10 → c.toNat = 48 + n → HexVal c n
  | upper {c n} : n < 6 → c.toNat = 65 + n → HexVal c (10 + n)
  | lower {c n} : n < 6 → c.toNat = 97 + n → HexVal c (10 + n)

/-- RFC 3986: the text a path segment stands for. -/
inductive Means : Str → Str → Prop
  | nil : Means [] []
  | plain {c s t} : c ≠ '%' → Means s t → Means (c :: s) (c :: t)
  | enc {a b x y s t} : HexVal a x → HexVal b y → Means s t →
      Means ('%' :: a :: b :: s) (Char.ofNat (16 * x + y) :: t)

/-- A name of bytes, as all Go strings are. -/
def Bytewise (n : Str) : Prop := ∀ c ∈ n, c.toNat < 256

/-- All servers take writes: not migrating, and the masters lead. -/
def World.Healthy (w : World) : Prop :=
  ∀ i, (w.mode i).normal = true ∧ ((w.mode i).enabled = true → (w.mode i).leadGuard = true)

/-- The buckets that differ between two states of the cluster. -/
def Touched (w w' : World) (i : Nat) (n : Str) : Prop :=
  Meta.bucketsOf (w.store i) n ≠ Meta.bucketsOf (w'.store i) n

/-- The full property: a request changes at most the bucket that its path names, and reading returns
a bucket of that name. -/
def OnlyNamed : Prop :=
  ∀ (w : World) (seg name : Str), (∀ i, Meta.Reachable (w.store i)) → Means seg name → '/' ∉ name →
    (∀ i n, Touched w (delete w seg).2 i n → n = name) ∧
    (∀ b i n, Touched w (update w seg b).2 i n → n = name) ∧
    (∀ b, get w seg = some b → b.name = name)

/-! ## Paths -/

theorem hexDigit_val {n : Nat} (h : n < 16) : unhex (hexDigit n) = some n := by
  have : ∀ k : Fin 16, unhex (hexDigit k.1) = some k.1 := by decide
  exact this ⟨n, h⟩

theorem hexDigit_plain {n : Nat} (h : n < 16) :
    hexDigit n ≠ '?' ∧ ¬ (hexDigit n).toNat < 32 ∧ (hexDigit n).toNat ≠ 127 ∧ hexDigit n ≠ '#' ∧ hexDigit n ≠ '/' := by
  have : ∀ k : Fin 16, hexDigit k.1 ≠ '?' ∧ ¬ (hexDigit k.1).toNat < 32 ∧ (hexDigit k.1).toNat ≠ 127 ∧
    hexDigit k.1 ≠ '#' ∧ hexDigit k.1 ≠ '/' := by decide
  exact this ⟨n, h⟩

theorem unescape_plain {q : Bool} {c : Char} {r : Str} (h : c ≠ '%') :
    unescape q (c :: r) = (unescape q r).map ((if q && c = '+' then ' ' else c) :: ·) := by
  unfold unescape
  rw [unescapeAt, if_neg h]

theorem unescape_pct {q : Bool} {a b : Char} {r : Str} :
    unescape q ('%' :: a :: b :: r) =
      match unhex a, unhex b with
      | some x, some y => (unescape q r).map (Char.ofNat (16 * x + y) :: ·)
      | _, _ => none := by
  unfold unescape
  rw [unescapeAt, if_pos rfl, unescapeAt]
  cases unhex a with
  | none => rfl
  | some x =>
    simp only [unescapeAt]
    cases unhex b <;> rfl

theorem unescape_escapePath {s : Str} (h : Bytewise s) : unescape false (escapePath s) = some s := by
  induction s with
  | nil => rfl
  | cons c r ih =>
    have ih := ih (fun d hd => h d (List.mem_cons_of_mem _ hd))
    have hc : c.toNat < 256 := h c (List.mem_cons_self ..)
    unfold escapePath
    by_cases hp : pathSafe c = true
    · have hne : c ≠ '%' := by rintro rfl; revert hp; decide
      rw [if_pos hp]
      rw [unescape_plain hne, ih]
      rfl
    · rw [if_neg hp]
      rw [unescape_pct, hexDigit_val (show c.toNat / 16 < 16 by omega),
        hexDigit_val (show c.toNat % 16 < 16 by omega), ih]
      simp only [Option.map_some]
      rw [show 16 * (c.toNat / 16) + c.toNat % 16 = c.toNat by omega, Char.ofNat_toNat]

theorem unescape_self {s : Str} {q : Bool} (h : '%' ∉ s) (hq : q = true → '+' ∉ s) :
    unescape q s = some s := by
  induction s with
  | nil => rfl
  | cons c r ih =>
    have h1 : c ≠ '%' := by rintro rfl; exact h (List.mem_cons_self ..)
    have ih := ih (fun hh => h (List.mem_cons_of_mem _ hh)) (fun hh h2 => hq hh (List.mem_cons_of_mem _ h2))
    have h2 : (q && decide (c = '+')) = false := by
      cases q with
      | false => rfl
      | true =>
        have : c ≠ '+' := by rintro rfl; exact hq rfl (List.mem_cons_self ..)
        simp [this]
    rw [unescape_plain h1, ih, h2]
    rfl

theorem escapePath_append (a b : Str) : escapePath (a ++ b) = escapePath a ++ escapePath b := by
  induction a with
  | nil => rfl
  | cons c r ih => simp only [List.cons_append, escapePath, ih]; split <;> rfl

theorem escapePath_self {s : Str} (h : ∀ c ∈ s, pathSafe c = true) : escapePath s = s := by
  induction s with
  | nil => rfl
  | cons c r ih =>
    rw [escapePath, if_pos (h c (List.mem_cons_self ..)), ih (fun d hd => h d (List.mem_cons_of_mem _ hd))]

theorem pathSafe_no {c : Char} (h : pathSafe c = true) :
    c ≠ '?' ∧ c ≠ '#' ∧ ¬ c.toNat < 32 ∧ c.toNat ≠ 127 := by
  refine ⟨by rintro rfl; revert h; decide, by rintro rfl; revert h; decide, fun h2 => ?_, fun h2 => ?_⟩
  · have h3 : c = Char.ofNat c.toNat := (Char.ofNat_toNat c).symm
    have : ∀ k : Fin 32, pathSafe (Char.ofNat k.1) = false := by decide
    have := this ⟨c.toNat, h2⟩
    simp only [Char.ofNat_toNat, h] at this
    cases this
  · have h3 : c = Char.ofNat c.toNat := (Char.ofNat_toNat c).symm
    rw [h2] at h3; rw [h3] at h; revert h; decide

theorem escapePath_clean {s : Str} (hb : Bytewise s) :
    '?' ∉ escapePath s ∧ hasCtl (escapePath s) = false := by
  induction s with
  | nil => exact ⟨by simp [escapePath], rfl⟩
  | cons c r ih =>
    obtain ⟨i1, i2⟩ := ih (fun d hd => hb d (List.mem_cons_of_mem _ hd))
    have hc : c.toNat < 256 := hb c (List.mem_cons_self ..)
    unfold escapePath
    simp only [hasCtl] at i2
    by_cases hp : pathSafe c = true
    · obtain ⟨h1, _, h3, h4⟩ := pathSafe_no hp
      rw [if_pos hp]
      refine ⟨by simp [i1, Ne.symm h1], ?_⟩
      simp only [hasCtl, List.any_cons, i2, h3, h4, decide_false, Bool.or_false]
    · rw [if_neg hp]
      obtain ⟨a1, a2, a3, _⟩ := hexDigit_plain (show c.toNat / 16 < 16 by omega)
      obtain ⟨b1, b2, b3, _⟩ := hexDigit_plain (show c.toNat % 16 < 16 by omega)
      refine ⟨by simp [i1, Ne.symm a1, Ne.symm b1], ?_⟩
      simp only [hasCtl, List.any_cons, i2, a2, a3, b2, b3, decide_false, Bool.or_false]
      decide

theorem cut_self {sep : Char} {s : Str} (h : sep ∉ s) : cut sep s = (s, []) := by
  unfold cut; rw [cutOn_none.2 h]; rfl

theorem cut_append {sep : Char} {a b : Str} (h : sep ∉ a) : cut sep (a ++ sep :: b) = (a, b) := by
  unfold cut; rw [cutOn_append h]; rfl

theorem hasPrefix_append (p t : Str) : hasPrefix (p ++ t) p = true := (hasPrefix_iff _ _).2 ⟨t, rfl⟩

/-- The route for a path in its standard encoding. -/
theorem routeParam_standard {pre n : Str} (u : Bool) (hpre : ∀ c ∈ pre, pathSafe c = true)
    (hpb : Bytewise pre) (hb : Bytewise n) (hne : n ≠ []) (hs : '/' ∉ n) :
    routeParam u pre (pre ++ escapePath n) = some n := by
  have he : pre ++ escapePath n = escapePath (pre ++ n) := by
    rw [escapePath_append, escapePath_self hpre]
  have hb' : Bytewise (pre ++ n) := by
    intro c hc; rcases List.mem_append.1 hc with h | h
    · exact hpb c h
    · exact hb c h
  obtain ⟨h1, h2⟩ := escapePath_clean hb'
  unfold routeParam
  rw [he, h2, cut_self h1]
  simp only [setPath, unescape_escapePath hb', ↓reduceIte, Bool.false_eq_true, ne_eq, not_true_eq_false,
    hasPrefix_append, List.drop_left, hne, hs, or_self, false_and, Bool.true_eq_false]

theorem prefix_safe : (∀ c ∈ apiPrefix, pathSafe c = true) ∧ Bytewise apiPrefix ∧
    (∀ c ∈ metaPrefix, pathSafe c = true) ∧ Bytewise metaPrefix := by
  refine ⟨by decide, ?_, by decide, ?_⟩ <;> (unfold Bytewise; decide)

theorem apiParam_standard {n : Str} (hb : Bytewise n) (hne : n ≠ []) (hs : '/' ∉ n) :
    apiParam (escapePath n) = some n :=
  routeParam_standard false prefix_safe.1 prefix_safe.2.1 hb hne hs

/-- The names for which the two servers agree. -/
structure Clean (n : Str) : Prop where
  bytes : Bytewise n
  ne : n ≠ []
  slash : '/' ∉ n
  query : '?' ∉ n
  hash : '#' ∉ n
  pct : '%' ∉ n
  ctl : hasCtl n = false
  plus : '+' ∈ n → ∀ c ∈ n, c ∉ "!'()*[]".toList

theorem hasCtl_append (a b : Str) : hasCtl (a ++ b) = (hasCtl a || hasCtl b) := by
  unfold hasCtl; exact List.any_append

theorem safe_of_encodedOk {c : Char} (h : encodedOk c = true) (h1 : c ≠ '%') (h2 : c ∉ "!'()*[]".toList) :
    pathSafe c = true := by
  unfold encodedOk at h
  rw [Bool.or_eq_true] at h
  rcases h with h | h
  · have hall : ∀ d ∈ "!$&'()*+,;=:@[]%".toList, d ≠ '%' → d ∉ "!'()*[]".toList → pathSafe d = true := by decide
    exact hall c (List.contains_iff_mem.1 h) h1 h2
  · exact h

theorem metaParam_clean {n : Str} (h : Clean n) : metaParam n = some n := by
  obtain ⟨hb, hne, hsl, hq, hh, hp, hc, hplus⟩ := h
  have hbb : Bytewise (metaPrefix ++ n) := by
    intro c hc; rcases List.mem_append.1 hc with h | h
    · exact prefix_safe.2.2.2 c h
    · exact hb c h
  have q1 : '?' ∉ metaPrefix ++ n := by
    intro h; rcases List.mem_append.1 h with h | h
    · revert h; decide
    · exact hq h
  have q2 : '#' ∉ metaPrefix ++ n := by
    intro h; rcases List.mem_append.1 h with h | h
    · revert h; decide
    · exact hh h
  have q3 : '%' ∉ metaPrefix ++ n := by
    intro h; rcases List.mem_append.1 h with h | h
    · revert h; decide
    · exact hp h
  have q4 : hasCtl (metaPrefix ++ n) = false := by rw [hasCtl_append, hc]; decide
  have hu : unescape false (metaPrefix ++ n) = some (metaPrefix ++ n) := unescape_self q3 (by intro h; cases h)
  unfold metaParam sentPath
  rw [q4, cut_self q2, cut_self q1]
  have hu0 : unescape false [] = some [] := rfl
  simp only [Bool.false_eq_true, ↓reduceIte, hu0, setPath, hu]
  by_cases he : escapePath (metaPrefix ++ n) = metaPrefix ++ n
  · simp only [he, ↓reduceIte, escapedPath, ne_eq, not_true_eq_false, false_and]
    have := routeParam_standard true prefix_safe.2.2.1 prefix_safe.2.2.2 hb hne hsl
    rwa [show metaPrefix ++ escapePath n = metaPrefix ++ n by
      rw [escapePath_append, escapePath_self prefix_safe.2.2.1] at he; exact he] at this
  · rw [if_neg he]
    by_cases hv : (metaPrefix ++ n).all encodedOk = true
    · have hplus' : '+' ∉ n := by
        intro hm
        apply he
        apply escapePath_self
        intro c hcm
        rcases List.mem_append.1 hcm with h | h
        · exact prefix_safe.2.2.1 c h
        · exact safe_of_encodedOk (List.all_eq_true.1 hv c hcm) (by rintro rfl; exact hp h) (hplus hm c h)
      have hne2 : metaPrefix ++ n ≠ [] := by simp [hne]
      unfold escapedPath
      rw [if_pos ⟨hne2, hv, hu⟩]
      simp only [routeParam, q4, cut_self q1, setPath, hu, he, ↓reduceIte, Bool.false_eq_true, ne_eq, hne2, not_false_eq_true,
        hasPrefix_append, Bool.true_eq_false, List.drop_left, hne, hsl, or_self, and_self,
        unescape_self hp (fun _ => hplus'), Option.getD_some]
    · unfold escapedPath
      rw [if_neg (by rintro ⟨_, h, _⟩; exact hv h), escapePath_append, escapePath_self prefix_safe.2.2.1]
      exact routeParam_standard true prefix_safe.2.2.1 prefix_safe.2.2.2 hb hne hsl

/-! ## The effect of a request on the metadata server -/

def ansOf : Meta.Res → Ans
  | .ok => .ok
  | _ => .fail

theorem settle_submit {s : Meta.Store} {e : Meta.Env} {op : Meta.Op} {c : Meta.Cmd}
    (hc : Meta.opCmd op = some c) (hid : op.hasIds)
    (hr : (Meta.step s op).1 = .ok ∨ ∃ x, x ≠ .exists ∧ (Meta.step s op).1 = .err x) :
    settle s (Meta.submit e op) = (ansOf (Meta.step s op).1, (Meta.step s op).2) := by
  have hd : settle s (.direct op) = (ansOf (Meta.step s op).1, (Meta.step s op).2) := by
    cases h : Meta.step s op with
    | mk r s' =>
      rw [h] at hr
      rcases hr with hr | ⟨x, _, hr⟩ <;> (simp only at hr; subst hr; simp only [settle, h, ansOf])
  unfold Meta.submit
  by_cases hl : (e.leadApply && e.enabled) = true
  · rw [if_pos hl, hc]
    obtain ⟨data, h1, _⟩ := Meta.C27_log_refines_store s op c hc hid
    simp only [settle, h1]
    rcases hr with hr | ⟨x, hx, hr⟩
    · rw [hr]; rfl
    · rw [hr]; cases x <;> first | rfl | exact absurd rfl hx
  · rw [if_neg hl]; exact hd

theorem httpWrite_pass {w : World} (hw : w.Healthy) {i : Nat} {r : Str} (ho : w.owner r = some i) (o : Meta.Outcome) :
    Meta.httpWrite (w.env i) r o = o := by
  obtain ⟨h1, h2⟩ := hw i
  unfold Meta.httpWrite World.env
  simp only [h1, ho, Bool.not_true, Bool.false_eq_true, ↓reduceIte, beq_self_eq_true, Bool.true_eq_false, and_false]
  cases he : (w.mode i).enabled with
  | false => simp
  | true => simp [h2 he]

theorem httpWrite_other {w : World} {i : Nat} {r : Str} (hr : r ≠ []) (ho : w.owner r ≠ some i) (o : Meta.Outcome) :
    Meta.httpWrite (w.env i) r o = .refused := by
  unfold Meta.httpWrite World.env
  have : (w.owner r == some i) = false := by simp [ho]
  simp [this, hr]

theorem step_delete (s : Meta.Store) (n : Str) :
    (Meta.step s (.bucketDelete n)).1 = .ok ∧
    ∀ m, Meta.bucketsOf (Meta.step s (.bucketDelete n)).2 m = if m = n then none else Meta.bucketsOf s m := by
  refine ⟨rfl, fun m => ?_⟩
  simp only [Meta.bucketsOf_eq, Meta.step, Meta.update, Meta.bucketDelete, KMap.get_del]

theorem delete_eq {w : World} (hw : w.Healthy) {seg n r : Str} {i : Nat} (h1 : apiParam seg = some n)
    (h2 : metaParam n = some r) (ho : w.owner n = some i) (ho2 : w.owner r = some i) :
    delete w seg = (.ok, w.set i (Meta.step (w.store i) (.bucketDelete r)).2) := by
  have hs := settle_submit (s := w.store i) (e := w.env i) (op := .bucketDelete r) rfl trivial (.inl rfl)
  unfold delete
  simp only [h1, ho, h2, Meta.serve, httpWrite_pass hw ho2, hs]
  rfl

/-! ## Theorems -/

theorem unhex_spec (c : Char) (n : Nat) : unhex c = some n ↔ HexVal c n := by
  have hle : ∀ a b : Char, (a ≤ b) = (a.toNat ≤ b.toNat) := fun a b => rfl
  unfold unhex
  simp only [hle, show '0'.toNat = 48 from rfl, show '9'.toNat = 57 from rfl, show 'a'.toNat = 97 from rfl,
    show 'f'.toNat = 102 from rfl, show 'A'.toNat = 65 from rfl, show 'F'.toNat = 70 from rfl]
  constructor
  · intro h
    split at h
    · cases h; exact .digit (by omega) (by omega)
    · split at h
      · cases h
        have := HexVal.lower (c := c) (n := c.toNat - 97) (by omega) (by omega)
        rwa [show 10 + (c.toNat - 97) = c.toNat - 87 by omega] at this
      · split at h
        · cases h
          have := HexVal.upper (c := c) (n := c.toNat - 65) (by omega) (by omega)
          rwa [show 10 + (c.toNat - 65) = c.toNat - 55 by omega] at this
        · cases h
  · intro h
    cases h with
    | digit h1 h2 => rw [if_pos (by omega)]; congr 1; omega
    | upper h1 h2 => rw [if_neg (by omega), if_neg (by omega), if_pos (by omega)]; congr 1; omega
    | lower h1 h2 => rw [if_neg (by omega), if_pos (by omega)]; congr 1; omega

theorem means_of_unescape (k : Nat) : ∀ s t : Str, s.length ≤ k → unescape false s = some t → Means s t := by
  induction k with
  | zero =>
    intro s t hk h
    cases s with
    | nil => cases h; exact .nil
    | cons c r => simp at hk
  | succ k ih =>
    intro s t hk h
    cases s with
    | nil => cases h; exact .nil
    | cons c r =>
      by_cases hc : c = '%'
      · subst hc
        match r, hk, h with
        | [], _, h => cases h
        | [a], _, h =>
          rw [unescape, unescapeAt, if_pos rfl, unescapeAt] at h
          cases h1 : unhex a <;> simp only [h1] at h <;> cases h
        | a :: b :: r, hk, h =>
          rw [unescape_pct] at h
          cases h1 : unhex a with
          | none => simp only [h1] at h; cases h
          | some x =>
            cases h2 : unhex b with
            | none => simp only [h1, h2] at h; cases h
            | some y =>
              cases h3 : unescape false r with
              | none => simp only [h1, h2, h3] at h; cases h
              | some u =>
                simp only [h1, h2, h3, Option.map_some] at h
                cases h
                exact .enc ((unhex_spec ..).1 h1) ((unhex_spec ..).1 h2)
                  (ih r u (by simp only [List.length_cons] at hk; omega) h3)
      · rw [unescape_plain hc] at h
        cases h3 : unescape false r with
        | none => simp only [h3] at h; cases h
        | some u =>
          simp only [h3, Bool.false_and, Bool.false_eq_true, ↓reduceIte, Option.map_some] at h
          cases h
          exact .plain hc (ih r u (by simp only [List.length_cons] at hk; omega) h3)

/-- **C84** The model's decoding is that of RFC 3986. -/
theorem C84_decode_spec (s t : Str) : unescape false s = some t ↔ Means s t := by
  refine ⟨means_of_unescape _ s t (Nat.le_refl _), fun h => ?_⟩
  induction h with
  | nil => rfl
  | plain hc _ ih => rw [unescape_plain hc, ih]; rfl
  | enc h1 h2 _ ih => rw [unescape_pct, (unhex_spec ..).2 h1, (unhex_spec ..).2 h2, ih]; rfl

example : Means "a%3Fb".toList "a?b".toList ∧ ¬ ∃ t, Means "a%3".toList t := by
  refine ⟨(C84_decode_spec _ _).1 rfl, ?_⟩
  rintro ⟨t, h⟩
  have := (C84_decode_spec _ _).2 h
  cases this

/-- **C84** The standard encoding of a name stands for the name. -/
theorem C84_standard {n : Str} (hb : Bytewise n) : Means (escapePath n) n :=
  (C84_decode_spec _ _).1 (unescape_escapePath hb)

/-- **C84** The parameter on the API server is never empty and contains no slash. -/
theorem C84_param {seg n : Str} (h : apiParam seg = some n) : n ≠ [] ∧ '/' ∉ n := by
  unfold apiParam routeParam at h
  split at h
  · cases h
  · split at h
    · cases h
    · rename_i path raw _
      dsimp only at h
      generalize (if raw ≠ [] then raw else path) = r at h
      by_cases h1 : hasPrefix r apiPrefix = false
      · rw [if_pos h1] at h; cases h
      · rw [if_neg h1] at h
        by_cases h2 : r.drop apiPrefix.length = [] ∨ '/' ∈ r.drop apiPrefix.length
        · rw [if_pos h2] at h; cases h
        · rw [if_neg h2, if_neg (by simp)] at h
          cases h
          exact not_or.1 h2

example : apiParam "a%20b".toList = some "a b".toList := by decide

/-- **C84** Reading a bucket by the standard encoding of its name reads the bucket of that name. -/
theorem C84_get {w : World} {n : Str} {i : Nat} (hb : Bytewise n) (hne : n ≠ []) (hs : '/' ∉ n)
    (ho : w.owner n = some i) :
    (∀ o, Meta.bucketsOf (w.store i) n = some o → (ofMetaB o).Ok →
      get w (escapePath n) = some (entOfB (ofMetaB o))) ∧
    (Meta.bucketsOf (w.store i) n = none → get w (escapePath n) = none) := by
  unfold get
  simp only [apiParam_standard hb hne hs, ho]
  constructor
  · intro o h hok
    rw [Meta.bucketsOf_eq] at h
    rw [getBucket_of_stored hne h hok]; rfl
  · intro h
    rw [Meta.bucketsOf_eq] at h
    have := (C75_missing (s := w.store i) hne).2.1 (by unfold Meta.bucketGet; rw [h])
    rw [this]; rfl

/-- **C84** (partial: for `Clean` names in their standard encoding) Deleting removes the bucket of
that name and nothing else. -/
theorem C84_delete_partial {w : World} (hw : w.Healthy) {n : Str} (hn : Clean n) {i : Nat}
    (ho : w.owner n = some i) :
    (delete w (escapePath n)).1 = .ok ∧
    (∀ m, Meta.bucketsOf ((delete w (escapePath n)).2.store i) m =
      if m = n then none else Meta.bucketsOf (w.store i) m) ∧
    (∀ j, j ≠ i → (delete w (escapePath n)).2.store j = w.store j) := by
  rw [delete_eq hw (apiParam_standard hn.bytes hn.ne hn.slash) (metaParam_clean hn) ho ho]
  refine ⟨rfl, fun m => ?_, fun j hj => ?_⟩
  · show Meta.bucketsOf (if i = i then _ else _) m = _
    rw [if_pos rfl]; exact (step_delete _ n).2 m
  · show (if j = i then _ else _) = _
    rw [if_neg hj]

/-- The record that an update with the body `b` should store at the time `now` for a bucket created at
`created`. -/
def updated (n : Str) (now : Int) (b : EBucket) (created : Int) : Meta.Bucket where
  versioning := b.versioning
  readonly := b.readonly
  compress := b.compress
  storeStrategy := b.storeStrategy
  dataShards := b.dataShards
  parityShards := b.parityShards
  versionRemains := b.versionRemains
  createTime := created
  updateTime := now
  name := n
  policies := b.policies

theorem step_update {s : Meta.Store} (hr : Meta.Reachable s) (d : Meta.Bucket) (hne : d.name ≠ []) :
    (∀ o, Meta.bucketsOf s d.name = some o → o.updateTime < d.updateTime →
      (Meta.step s (.bucketUpdate d)).1 = .ok ∧
      ∀ m, Meta.bucketsOf (Meta.step s (.bucketUpdate d)).2 m =
        if m = d.name then some { d with createTime := o.createTime } else Meta.bucketsOf s m) ∧
    ((∀ o, Meta.bucketsOf s d.name = some o → d.updateTime ≤ o.updateTime) →
      (∃ x, x ≠ .exists ∧ (Meta.step s (.bucketUpdate d)).1 = .err x) ∧
      ∀ m, Meta.bucketsOf (Meta.step s (.bucketUpdate d)).2 m = Meta.bucketsOf s m) := by
  obtain ⟨h1, h2⟩ := Meta.C56_bucket_refinement hr (.bucketUpdate d)
  have h2 := h2 (.inr (.inl ⟨d, rfl⟩))
  rw [h1, h2]
  simp only [Meta.bucketSpec, hne, ↓reduceIte]
  constructor
  · intro o ho hlt
    rw [ho]
    simp only [show ¬ d.updateTime ≤ o.updateTime by omega, ↓reduceIte]
    exact ⟨trivial, fun m => trivial⟩
  · intro h
    cases hb : Meta.bucketsOf s d.name with
    | none => exact ⟨⟨.notFound, by simp, rfl⟩, fun m => rfl⟩
    | some o =>
      simp only [h o hb, ↓reduceIte]
      exact ⟨⟨.oldData, by simp, rfl⟩, fun m => trivial⟩

theorem update_eq {w : World} (hw : w.Healthy) (hr : ∀ i, Meta.Reachable (w.store i)) {seg n r : Str} {i : Nat}
    {b : EBucket} (h1 : apiParam seg = some n) (h2 : metaParam n = some r) (hrn : r ≠ []) (ho : w.owner n = some i)
    (ho2 : w.owner r = some i) (hf : fits32 b.dataShards && fits32 b.parityShards && fits32 b.versionRemains) :
    update w seg b =
      (ansOf (Meta.step (w.store i) (.bucketUpdate (updated r (w.mode i).now b b.createTime))).1,
       w.set i (Meta.step (w.store i) (.bucketUpdate (updated r (w.mode i).now b b.createTime))).2) := by
  have hn := (C84_param h1).1
  have hs := settle_submit (s := w.store i) (e := w.env i)
    (op := .bucketUpdate (updated r (w.mode i).now b b.createTime)) rfl trivial (by
      obtain ⟨g1, g2⟩ := step_update (hr i) (updated r (w.mode i).now b b.createTime) hrn
      by_cases hex : ∃ o, Meta.bucketsOf (w.store i) r = some o ∧ o.updateTime < (w.mode i).now
      · obtain ⟨o, e1, e2⟩ := hex
        exact .inl (g1 o e1 e2).1
      · exact .inr (g2 (fun o e1 => by
          apply Int.not_lt.1; intro e2; exact hex ⟨o, e1, e2⟩)).1)
  unfold update
  simp only [h1, hn, ↓reduceIte, ho, h2, jsonBucket, hf, Meta.serve, httpWrite_pass hw ho2]
  unfold updated at hs ⊢
  have henv : (w.env i).now = (w.mode i).now := rfl
  rw [henv, hs]

/-- **C84** (partial: for `Clean` names in their standard encoding) Updating replaces the settings of
the bucket of that name and keeps its time of creation; a bucket that does not exist, or was changed
later, is not changed, and no other bucket ever is. -/
theorem C84_update_partial {w : World} (hw : w.Healthy) (hr : ∀ i, Meta.Reachable (w.store i)) {n : Str}
    (hn : Clean n) {i : Nat} (ho : w.owner n = some i) {b : EBucket}
    (hf : fits32 b.dataShards && fits32 b.parityShards && fits32 b.versionRemains) :
    (∀ o, Meta.bucketsOf (w.store i) n = some o → o.updateTime < (w.mode i).now →
      (update w (escapePath n) b).1 = .ok ∧
      ∀ m, Meta.bucketsOf ((update w (escapePath n) b).2.store i) m =
        if m = n then some (updated n (w.mode i).now b o.createTime) else Meta.bucketsOf (w.store i) m) ∧
    ((∀ o, Meta.bucketsOf (w.store i) n = some o → (w.mode i).now ≤ o.updateTime) →
      (update w (escapePath n) b).1 = .fail ∧
      ∀ m, Meta.bucketsOf ((update w (escapePath n) b).2.store i) m = Meta.bucketsOf (w.store i) m) ∧
    (∀ j, j ≠ i → (update w (escapePath n) b).2.store j = w.store j) := by
  rw [update_eq hw hr (apiParam_standard hn.bytes hn.ne hn.slash) (metaParam_clean hn) hn.ne ho ho hf]
  obtain ⟨g1, g2⟩ := step_update (hr i) (updated n (w.mode i).now b b.createTime) hn.ne
  refine ⟨fun o e1 e2 => ?_, fun h => ?_, fun j hj => ?_⟩
  · obtain ⟨a1, a2⟩ := g1 o e1 e2
    refine ⟨by rw [a1]; rfl, fun m => ?_⟩
    show Meta.bucketsOf (if i = i then _ else _) m = _
    rw [if_pos rfl]; exact a2 m
  · obtain ⟨⟨x, _, a1⟩, a2⟩ := g2 h
    refine ⟨by rw [a1]; rfl, fun m => ?_⟩
    show Meta.bucketsOf (if i = i then _ else _) m = _
    rw [if_pos rfl]; exact a2 m
  · show (if j = i then _ else _) = _
    rw [if_neg hj]

/-- **C84** An update whose numbers do not fit into 32 bits is refused and changes nothing (creating
such a bucket succeeds, with other numbers: `C75_saved_bucket`). -/
theorem C84_update_numbers (w : World) (seg : Str) (b : EBucket)
    (h : (fits32 b.dataShards && fits32 b.parityShards && fits32 b.versionRemains) = false) :
    update w seg b = (.fail, w) := by
  unfold update
  simp only [jsonBucket, h, Bool.false_eq_true, ↓reduceIte]
  split
  · rfl
  · split
    · rfl
    · split
      · rfl
      · split <;> rfl

/-! ## Requests that reach another bucket -/

theorem escapePath_no (n : Str) (hb : Bytewise n) : hasCtl (escapePath n) = false := (escapePath_clean hb).2

/-- What is sent for a name that goes on with `?` or `#` is what is sent for the part before it. -/
theorem metaParam_query {a b : Str} (ha : '?' ∉ a) (ha2 : '#' ∉ a) (hb : '#' ∉ b) (hc : hasCtl b = false) :
    metaParam (a ++ '?' :: b) = metaParam a := by
  have p1 : '?' ∉ metaPrefix ++ a := by
    intro h; rcases List.mem_append.1 h with h | h
    · revert h; decide
    · exact ha h
  have p2 : '#' ∉ metaPrefix ++ a := by
    intro h; rcases List.mem_append.1 h with h | h
    · revert h; decide
    · exact ha2 h
  have p3 : '#' ∉ (metaPrefix ++ a) ++ '?' :: b := by
    intro h; rcases List.mem_append.1 h with h | h
    · exact p2 h
    · simp at h; exact hb h
  have p4 : hasCtl ((metaPrefix ++ a) ++ '?' :: b) = hasCtl (metaPrefix ++ a) := by
    have h2 : hasCtl ('?' :: b) = false := by
      unfold hasCtl at hc ⊢
      rw [List.any_cons, hc]; decide
    rw [hasCtl_append, h2, Bool.or_false]
  unfold metaParam sentPath
  rw [← List.append_assoc, p4, cut_self p3, cut_self p2]
  simp only [cut_append p1, cut_self p1]

theorem metaParam_fragment {a b : Str} (ha : '#' ∉ a) (hb : '%' ∉ b) (hc : hasCtl b = false) :
    metaParam (a ++ '#' :: b) = metaParam a := by
  have p2 : '#' ∉ metaPrefix ++ a := by
    intro h; rcases List.mem_append.1 h with h | h
    · revert h; decide
    · exact ha h
  have p4 : hasCtl ((metaPrefix ++ a) ++ '#' :: b) = hasCtl (metaPrefix ++ a) := by
    have h2 : hasCtl ('#' :: b) = false := by
      unfold hasCtl at hc ⊢
      rw [List.any_cons, hc]; decide
    rw [hasCtl_append, h2, Bool.or_false]
  unfold metaParam sentPath
  rw [← List.append_assoc, p4, cut_append p2, cut_self p2]
  have h0 : unescape false [] = some [] := rfl
  simp only [unescape_self (q := false) hb (by intro h; cases h), h0]
  cases setPath (cut '?' (metaPrefix ++ a)).fst <;> rfl

/-- **C84** Deleting a bucket whose name goes on with `?` or `#` after a `Clean` part, by the standard
encoding of its name, deletes the bucket named by that part instead and answers success, if one master
holds both names. -/
theorem C84_deletes_other {w : World} (hw : w.Healthy) {a b : Str} {c : Char} (hc : c = '?' ∨ c = '#') (ha : Clean a)
    (hb : Bytewise b) (hs : '/' ∉ b) (hh : '#' ∉ b) (hp : '%' ∉ b) (hctl : hasCtl b = false) {i : Nat}
    (ho : w.owner (a ++ c :: b) = some i) (ho2 : w.owner a = some i) :
    Means (escapePath (a ++ c :: b)) (a ++ c :: b) ∧
    (delete w (escapePath (a ++ c :: b))).1 = .ok ∧
    ∀ m, Meta.bucketsOf ((delete w (escapePath (a ++ c :: b))).2.store i) m =
      if m = a then none else Meta.bucketsOf (w.store i) m := by
  have hbb : Bytewise (a ++ c :: b) := by
    intro d hd
    rcases List.mem_append.1 hd with h | h
    · exact ha.bytes d h
    · rcases List.mem_cons.1 h with rfl | h
      · rcases hc with rfl | rfl <;> decide
      · exact hb d h
  have hss : '/' ∉ a ++ c :: b := by
    intro hd
    rcases List.mem_append.1 hd with h | h
    · exact ha.slash h
    · rcases List.mem_cons.1 h with h | h
      · rcases hc with rfl | rfl <;> exact absurd h (by decide)
      · exact hs h
  have hm : metaParam (a ++ c :: b) = some a := by
    rcases hc with rfl | rfl
    · rw [metaParam_query ha.query ha.hash hh hctl, metaParam_clean ha]
    · rw [metaParam_fragment ha.hash hp hctl, metaParam_clean ha]
  rw [delete_eq hw (apiParam_standard hbb (by simp) hss) hm ho ho2]
  refine ⟨C84_standard hbb, rfl, fun m => ?_⟩
  show Meta.bucketsOf (if i = i then _ else _) m = _
  rw [if_pos rfl]; exact (step_delete _ a).2 m

/-- **C84** Likewise an update of such a bucket replaces the settings of the other one. -/
theorem C84_updates_other {w : World} (hw : w.Healthy) (hr : ∀ i, Meta.Reachable (w.store i)) {a b : Str} (ha : Clean a)
    (hb : Bytewise b) (hs : '/' ∉ b) (hh : '#' ∉ b) (hctl : hasCtl b = false) {i : Nat}
    (ho : w.owner (a ++ '?' :: b) = some i) (ho2 : w.owner a = some i) {d : EBucket} {o : Meta.Bucket}
    (hf : fits32 d.dataShards && fits32 d.parityShards && fits32 d.versionRemains)
    (he : Meta.bucketsOf (w.store i) a = some o) (hlt : o.updateTime < (w.mode i).now) :
    (update w (escapePath (a ++ '?' :: b)) d).1 = .ok ∧
    ∀ m, Meta.bucketsOf ((update w (escapePath (a ++ '?' :: b)) d).2.store i) m =
      if m = a then some (updated a (w.mode i).now d o.createTime) else Meta.bucketsOf (w.store i) m := by
  have hbb : Bytewise (a ++ '?' :: b) := by
    intro x hx
    rcases List.mem_append.1 hx with h | h
    · exact ha.bytes x h
    · rcases List.mem_cons.1 h with rfl | h
      · decide
      · exact hb x h
  have hss : '/' ∉ a ++ '?' :: b := by
    intro hd
    rcases List.mem_append.1 hd with h | h
    · exact ha.slash h
    · rcases List.mem_cons.1 h with h | h
      · exact absurd h (by decide)
      · exact hs h
  have hm : metaParam (a ++ '?' :: b) = some a := by
    rw [metaParam_query ha.query ha.hash hh hctl, metaParam_clean ha]
  rw [update_eq hw hr (apiParam_standard hbb (by simp) hss) hm ha.ne ho ho2 hf]
  obtain ⟨a1, a2⟩ := (step_update (hr i) (updated a (w.mode i).now d d.createTime) ha.ne).1 o he hlt
  refine ⟨by rw [a1]; rfl, fun m => ?_⟩
  show Meta.bucketsOf (if i = i then _ else _) m = _
  rw [if_pos rfl]; exact a2 m

/-- **C84** A request that reaches a server under a name of another server changes nothing. -/
theorem C84_other_server {w : World} {seg n r : Str} {i : Nat} (h1 : apiParam seg = some n) (h2 : metaParam n = some r)
    (hr : r ≠ []) (ho : w.owner n = some i) (ho2 : w.owner r ≠ some i) (b : EBucket) (j : Nat) :
    (delete w seg).1 = .fail ∧ (delete w seg).2.store j = w.store j ∧
    (update w seg b).1 = .fail ∧ (update w seg b).2.store j = w.store j := by
  have hn := (C84_param h1).1
  have hset : (w.set i (w.store i)).store j = w.store j := by
    show (if j = i then _ else _) = _
    by_cases h : j = i
    · rw [if_pos h, h]
    · rw [if_neg h]
  unfold delete update
  simp only [h1, hn, ↓reduceIte, ho, h2, Meta.serve, httpWrite_other hr ho2, settle, hset]
  split <;> simp [hset]

/-- **C84** Whatever the segment, a deletion removes at most one bucket, on one server, and only one
that this server holds. -/
theorem C84_confined (w : World) (seg : Str) (i : Nat) (n : Str) (h : Touched w (delete w seg).2 i n) :
    ∃ p, apiParam seg = some p ∧ w.owner p = some i ∧ metaParam p = some n ∧
      (n ≠ [] → w.owner n = some i) ∧ Meta.bucketsOf ((delete w seg).2.store i) n = none := by
  unfold Touched at h
  unfold delete at h ⊢
  cases h1 : apiParam seg with
  | none => simp only [h1] at h; exact absurd rfl h
  | some p =>
    simp only [h1] at h ⊢
    cases h2 : w.owner p with
    | none => simp only [h2] at h; exact absurd rfl h
    | some k =>
      simp only [h2] at h ⊢
      cases h3 : metaParam p with
      | none => simp only [h3] at h; exact absurd rfl h
      | some r =>
        simp only [h3] at h ⊢
        have hst : ∀ s, (w.set k s).store i = if i = k then s else w.store i := fun s => rfl
        simp only [hst] at h ⊢
        by_cases hik : i = k
        · subst hik
          simp only [↓reduceIte] at h ⊢
          simp only [Meta.serve] at h ⊢
          have hpass : Meta.httpWrite (w.env i) r (Meta.submit (w.env i) (.bucketDelete r)) = .refused ∨
              (Meta.httpWrite (w.env i) r (Meta.submit (w.env i) (.bucketDelete r)) = Meta.submit (w.env i) (.bucketDelete r) ∧
                (r ≠ [] → w.owner r = some i)) := by
            by_cases ho : r ≠ [] ∧ w.owner r ≠ some i
            · exact .inl (httpWrite_other ho.1 ho.2 _)
            · have ho' : r ≠ [] → w.owner r = some i := by
                intro hr
                cases hq : decide (w.owner r = some i) with
                | true => exact of_decide_eq_true hq
                | false => exact absurd ⟨hr, of_decide_eq_false hq⟩ ho
              unfold Meta.httpWrite
              split
              · exact .inl rfl
              · split
                · exact .inl rfl
                · split
                  · exact .inl rfl
                  · exact .inr ⟨rfl, ho'⟩
          rcases hpass with hp | ⟨hp, ho⟩
          · rw [hp] at h; exact absurd rfl h
          · have hs := settle_submit (s := w.store i) (e := w.env i) (op := .bucketDelete r) rfl trivial (.inl rfl)
            rw [hp, hs] at h ⊢
            have hd := (step_delete (w.store i) r).2 n
            by_cases hnr : n = r
            · subst hnr
              rw [if_pos rfl] at hd
              exact ⟨p, rfl, h2, h3, ho, hd⟩
            · rw [if_neg hnr] at hd
              exact absurd hd.symm h
        · simp only [hik, ↓reduceIte] at h
          exact absurd rfl h

theorem unescapeAt_trailing (q : Bool) (a : Str) : ∀ p, unescapeAt q p (a ++ ['%']) = none := by
  induction a with
  | nil => intro p; cases p <;> rfl
  | cons c r ih =>
    intro p
    rw [List.cons_append]
    cases p with
    | text =>
      rw [unescapeAt]
      split
      · exact ih _
      · rw [ih]; rfl
    | pct =>
      rw [unescapeAt]
      split
      · exact ih _
      · rfl
    | digit x =>
      rw [unescapeAt]
      split
      · rw [ih]; rfl
      · rfl

/-- **C84** A bucket whose name ends with `%` can be neither updated nor deleted by the standard
encoding of its name. -/
theorem C84_percent_stuck (w : World) {a : Str} (hb : Bytewise a) (hs : '/' ∉ a) (hq : '?' ∉ a) (hh : '#' ∉ a) (b : EBucket) :
    delete w (escapePath (a ++ ['%'])) = (.fail, w) ∧ update w (escapePath (a ++ ['%'])) b = (.fail, w) := by
  have hbb : Bytewise (a ++ ['%']) := by
    intro d hd
    rcases List.mem_append.1 hd with h | h
    · exact hb d h
    · rw [List.mem_singleton.1 h]; decide
  have hss : '/' ∉ a ++ ['%'] := by simp [hs]
  have hm : metaParam (a ++ ['%']) = none := by
    have pre : '?' ∉ metaPrefix ∧ '#' ∉ metaPrefix := by decide
    have p1 : '?' ∉ metaPrefix ++ (a ++ ['%']) := by
      simp only [List.mem_append, List.mem_singleton, pre.1, hq, false_or]; decide
    have p2 : '#' ∉ metaPrefix ++ (a ++ ['%']) := by
      simp only [List.mem_append, List.mem_singleton, pre.2, hh, false_or]; decide
    have hu : unescape false (metaPrefix ++ (a ++ ['%'])) = none := by
      rw [← List.append_assoc]; exact unescapeAt_trailing _ _ _
    unfold metaParam sentPath
    rw [cut_self p2, cut_self p1]
    have h0 : unescape false [] = some [] := rfl
    simp only [setPath, hu, h0, ite_self]
  have ha := apiParam_standard hbb (by simp) hss
  unfold delete update
  simp only [ha, hm, (C84_param ha).1, ↓reduceIte]
  constructor <;> split <;> rfl

/-! ## Concrete cases -/

def sampleMode : Meta.Env := ⟨false, false, false, true, fun _ => true, 100, []⟩

/-- A bucket of the store model with a name only. -/
def named (n : String) : Meta.Bucket := updated n.toList 5 {} 5

def sampleOps : List Meta.Op := [.bucketCreate (named "a"), .bucketCreate (named "a?b"), .bucketCreate (named "a b")]

/-- One master with the buckets `a`, `a?b` and `a b`. -/
def sampleWorld : World := ⟨fun _ => some 0, fun _ => sampleMode, fun _ => (Meta.run .empty sampleOps).2⟩

theorem sampleWorld_healthy : sampleWorld.Healthy := fun _ => ⟨rfl, by intro h; cases h⟩
theorem sampleWorld_reachable (i : Nat) : Meta.Reachable (sampleWorld.store i) := ⟨sampleOps, rfl⟩

theorem clean_ab : Clean "a b".toList :=
  ⟨by unfold Bytewise; decide, by decide, by decide, by decide, by decide, by decide, by decide, by decide⟩
theorem clean_a : Clean "a".toList :=
  ⟨by unfold Bytewise; decide, by decide, by decide, by decide, by decide, by decide, by decide, by decide⟩

example : (delete sampleWorld "a%20b".toList).1 = .ok ∧
    Meta.bucketsOf ((delete sampleWorld "a%20b".toList).2.store 0) "a b".toList = none ∧
    Meta.bucketsOf ((delete sampleWorld "a%20b".toList).2.store 0) "a".toList = some (named "a") := by
  have h := C84_delete_partial sampleWorld_healthy clean_ab (i := 0) rfl
  exact ⟨h.1, h.2.1 _, h.2.1 _⟩

example : (update sampleWorld "a%20b".toList { readonly := true }).1 = .ok :=
  ((C84_update_partial sampleWorld_healthy sampleWorld_reachable clean_ab (i := 0) rfl rfl).1 (named "a b") rfl (by decide)).1

example : (get sampleWorld "a%3Fb".toList).map (·.name) = some "a?b".toList := rfl

example : update sampleWorld "a".toList { versionRemains := 2147483648 } = (.fail, sampleWorld) :=
  C84_update_numbers _ _ _ rfl

example : delete sampleWorld "a%25".toList = (.fail, sampleWorld) :=
  (C84_percent_stuck sampleWorld (a := "a".toList) (by unfold Bytewise; decide) (by decide) (by decide) (by decide) {}).1

/-- **C84** `DELETE /v1/bucket/a%3Fb` deletes the bucket `a` and keeps `a?b`. -/
theorem C84_query_fails :
    (delete sampleWorld "a%3Fb".toList).1 = .ok ∧
    Meta.bucketsOf ((delete sampleWorld "a%3Fb".toList).2.store 0) "a".toList = none ∧
    Meta.bucketsOf ((delete sampleWorld "a%3Fb".toList).2.store 0) "a?b".toList = some (named "a?b") := by
  have h := C84_deletes_other (c := '?') sampleWorld_healthy (.inl rfl) clean_a (b := "b".toList) (by unfold Bytewise; decide)
    (by decide) (by decide) (by decide) (by decide) (i := 0) rfl rfl
  exact ⟨h.2.1, h.2.2 _, h.2.2 _⟩

example : Meta.bucketsOf ((update sampleWorld "a%3Fb".toList { readonly := true }).2.store 0) "a".toList =
    some (updated "a".toList 100 { readonly := true } 5) :=
  (C84_updates_other sampleWorld_healthy sampleWorld_reachable clean_a (b := "b".toList) (by unfold Bytewise; decide)
    (by decide) (by decide) (by decide) (i := 0) rfl rfl rfl (o := named "a") rfl (by decide)).2 _

/-- **C84** The full property does not hold. -/
theorem C84_statement_fails : ¬ OnlyNamed := by
  intro h
  have := (h sampleWorld "a%3Fb".toList "a?b".toList sampleWorld_reachable ((C84_decode_spec _ _).1 rfl) (by decide)).1 0 "a".toList
    (by unfold Touched; rw [C84_query_fails.2.1]; decide)
  revert this; decide

/-- **C84** The spelling of a segment matters: `a%3Fb` and `a%3fb` stand for the same name, but deleting
by the one removes the bucket `a`, and by the other `a?b`; and reading by the other finds nothing. -/
theorem C84_spelling :
    Means "a%3Fb".toList "a?b".toList ∧ Means "a%3fb".toList "a?b".toList ∧
    Meta.bucketsOf ((delete sampleWorld "a%3Fb".toList).2.store 0) "a?b".toList = some (named "a?b") ∧
    Meta.bucketsOf ((delete sampleWorld "a%3fb".toList).2.store 0) "a?b".toList = none ∧
    (get sampleWorld "a%3Fb".toList).isSome = true ∧ get sampleWorld "a%3fb".toList = none :=
  ⟨(C84_decode_spec _ _).1 rfl, (C84_decode_spec _ _).1 rfl, C84_query_fails.2.2, rfl, rfl, rfl⟩

/-- **C84** Names with `%` and two digits are decoded once too often, and a `+` beside one of
`!'()*[]` becomes a space. -/
theorem C84_decoded_twice :
    apiParam "a%2541".toList = some "a%41".toList ∧ metaParam "a%41".toList = some "aA".toList ∧
    apiParam "a+b!".toList = some "a+b!".toList ∧ metaParam "a+b!".toList = some "a b!".toList ∧
    metaParam "a+b".toList = some "a+b".toList := by decide

/-- **C84** Escapes that the standard encoding does not use stay in the name when it is read:
`GET /v1/bucket/a%3Ab` (the name `a:b` as JavaScript encodes it) asks for a bucket `a%3Ab`, and
`DELETE` for `a:b`. -/
theorem C84_undecoded :
    Means "a%3Ab".toList "a:b".toList ∧ apiParam "a%3Ab".toList = some "a%3Ab".toList ∧
    metaParam "a%3Ab".toList = some "a:b".toList :=
  ⟨(C84_decode_spec _ _).1 rfl, by decide, by decide⟩

end Verif.Api.BucketHttp
