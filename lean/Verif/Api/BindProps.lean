import Verif.Api.Bind

/-!
# Binding of requests: C85
-/

namespace Verif.Api.Bind

open Verif

/-! ## The last binding -/

theorem mapFields_length (look : Field → Option (List Str)) (t : List Field) (vs : List Val) :
    (mapFields look t vs).1.length = vs.length := by
  induction t generalizing vs with
  | nil => cases vs <;> rfl
  | cons f fs ih =>
    cases vs with
    | nil => rfl
    | cons v vs =>
      unfold mapFields
      cases look f with
      | none => simp [ih]
      | some l =>
        dsimp only
        cases setVal f.kind l with
        | none => rfl
        | some w => simp [ih]

theorem mapJson_length (m : List (Str × JVal)) (t : List Field) (vs : List Val) :
    (mapJson m t vs).1.length = vs.length := by
  induction t generalizing vs with
  | nil => cases vs <;> rfl
  | cons f fs ih =>
    cases vs with
    | nil => rfl
    | cons v vs =>
      unfold mapJson
      dsimp only
      cases m.lookup (key .json f) with
      | none => simp [ih]
      | some j =>
        dsimp only
        cases setJson f.kind j <;> simp [ih]

theorem bindOne_length (t : List Field) (r : Request) (s : Source) (vs : List Val) :
    (bindOne t r s vs).1.length = vs.length := by
  unfold bindOne
  cases s with
  | json =>
    dsimp only
    cases r.body with
    | none => rfl
    | some m => exact mapJson_length m t vs
  | uri => exact mapFields_length _ t vs
  | header => exact mapFields_length _ t vs
  | query => exact mapFields_length _ t vs

theorem bindAll_length (t : List Field) (r : Request) (ss : List Source) (vs : List Val) (e : Bool) :
    (ss.foldl (fun p s => bindOne t r s p.1) (vs, e)).1.length = vs.length := by
  induction ss generalizing vs e with
  | nil => rfl
  | cons s ss ih =>
    rw [List.foldl_cons, ← Prod.eta (bindOne t r s vs)]
    rw [ih, bindOne_length]

theorem bindAll_snoc (t : List Field) (r : Request) (ss : List Source) (s : Source) (vs : List Val) :
    bindAll t r (ss ++ [s]) vs = bindOne t r s (bindAll t r ss vs).1 := by
  simp [bindAll]

/-- **C85**: only the last binding decides: whatever errors the bindings before it return, the request is
refused exactly if the last one returns an error. -/
theorem C85_last_error (t : List Field) (r : Request) (ss : List Source) (s : Source) :
    (bind t (ss ++ [s]) r).isSome =
      !(bindOne t r s (bindAll t r ss (t.map fun f => zero f.kind)).1).2 := by
  unfold bind
  rw [bindAll_snoc]
  cases h : (bindOne t r s (bindAll t r ss (t.map fun f => zero f.kind)).1).2 <;> simp [h]

theorem validate_get {t : List Field} {vs : List Val} (h : validate t vs = true) {i : Nat} {f : Field} {v : Val}
    (hf : t[i]? = some f) (hv : vs[i]? = some v) : ruleOk f v = true := by
  induction t generalizing vs i with
  | nil => simp at hf
  | cons g t ih =>
    cases vs with
    | nil => simp at hv
    | cons w vs =>
      simp only [validate, Bool.and_eq_true] at h
      cases i with
      | zero => simp at hf hv; subst hf hv; exact h.1
      | succ i => exact ih h.2 (by simpa using hf) (by simpa using hv)

theorem bindOne_ok_validate {t : List Field} {r : Request} {s : Source} {vs : List Val}
    (h : (bindOne t r s vs).2 = false) : validate t (bindOne t r s vs).1 = true := by
  unfold bindOne at h ⊢
  cases s with
  | json =>
    dsimp only at h ⊢
    cases hb : r.body with
    | none => rw [hb] at h; exact absurd h (by simp)
    | some m => rw [hb] at h; simp at h ⊢; exact h.2
  | uri => simp at h ⊢; exact h.2
  | header => simp at h ⊢; exact h.2
  | query => simp at h ⊢; exact h.2

/-- The rules are checked on every accepted request, although earlier errors are forgotten: no field with the
rule `required` is empty or zero.  For every request type and every order of at least one binding. -/
theorem C85_required (t : List Field) (r : Request) (ss : List Source) (hs : ss ≠ []) {vs : List Val}
    (h : bind t ss r = some vs) {i : Nat} {f : Field} {v : Val} (hf : t[i]? = some f) (hv : vs[i]? = some v) :
    (f.rule = .required → v ≠ zero f.kind) ∧ (f.rule = .min0 → ∀ n, v = .int n → 0 ≤ n) ∧
      (f.rule = .min1 → v ≠ .str []) := by
  obtain ⟨ss', s, rfl⟩ : ∃ a b, ss = a ++ [b] := ⟨ss.dropLast, ss.getLast hs, (List.dropLast_concat_getLast hs).symm⟩
  unfold bind at h
  rw [bindAll_snoc] at h
  by_cases he : (bindOne t r s (bindAll t r ss' (t.map fun f => zero f.kind)).1).2 = true
  · simp [he] at h
  · have he' := Bool.not_eq_true _ ▸ he
    simp [he'] at h
    have hval := validate_get (bindOne_ok_validate he') hf (h ▸ hv)
    unfold ruleOk at hval
    refine ⟨fun hr => ?_, fun hr n hn => ?_, fun hr hn => ?_⟩
    · rw [hr] at hval; simpa using hval
    · rw [hr, hn] at hval; simpa using hval
    · rw [hr, hn] at hval; simp at hval

theorem mapFields_get {look : Field → Option (List Str)} {t : List Field} {vs : List Val}
    (he : (mapFields look t vs).2 = false) {i : Nat} {f : Field} {l : List Str} (hf : t[i]? = some f)
    (hl : look f = some l) (hi : i < vs.length) : ∃ v, setVal f.kind l = some v ∧ (mapFields look t vs).1[i]? = some v := by
  induction t generalizing vs i with
  | nil => simp at hf
  | cons g t ih =>
    cases vs with
    | nil => simp at hi
    | cons w vs =>
      unfold mapFields at he ⊢
      cases i with
      | zero =>
        simp at hf
        subst hf
        simp only [hl] at he ⊢
        cases hs : setVal g.kind l with
        | none => simp [hs] at he
        | some v => exact ⟨v, rfl, by simp⟩
      | succ i =>
        cases hg : look g with
        | none =>
          simp only [hg] at he ⊢
          exact ih he (by simpa using hf) (by simpa using hi)
        | some l' =>
          simp only [hg] at he ⊢
          cases hs : setVal g.kind l' with
          | none => simp [hs] at he
          | some v =>
            simp only [hs] at he ⊢
            exact ih he (by simpa using hf) (by simpa using hi)

/-- What the last binding finds wins: in an accepted request every field whose name occurs in the last source
has the value given there. -/
theorem C85_last_wins (t : List Field) (r : Request) (ss : List Source) (s : Source) {vs : List Val}
    (h : bind t (ss ++ [s]) r = some vs) {i : Nat} {f : Field} {l : List Str} (hf : t[i]? = some f)
    (hl : values s r (key s f) = some l) : ∃ v, setVal f.kind l = some v ∧ vs[i]? = some v := by
  have hj : s ≠ .json := by rintro rfl; cases hl
  unfold bind at h
  rw [bindAll_snoc] at h
  by_cases he : (bindOne t r s (bindAll t r ss (t.map fun f => zero f.kind)).1).2 = true
  · simp [he] at h
  · have he' := Bool.not_eq_true _ ▸ he
    simp [he'] at h
    have hi : i < (bindAll t r ss (t.map fun f => zero f.kind)).1.length := by
      rw [show (bindAll t r ss (t.map fun f => zero f.kind)).1.length = _ from bindAll_length t r ss _ false]
      simpa using (List.getElem?_eq_some_iff.1 hf).1
    have hb : bindOne t r s = fun vs =>
        ((mapFields (fun f => values s r (key s f)) t vs).1,
          (mapFields (fun f => values s r (key s f)) t vs).2 ||
            !validate t (mapFields (fun f => values s r (key s f)) t vs).1) := by
      funext vs; cases s <;> first | rfl | exact absurd rfl hj
    rw [hb] at he' h
    simp only [Bool.or_eq_false_iff] at he'
    rw [← h]
    exact mapFields_get he'.1 hf hl hi

/-! ## The requests of the API server -/

/-- The text a client sends under a name; absent and empty are the same. -/
def text (o : Option (List Str)) : Str := (o.getD []).headD []

/-- The texts that mean yes. -/
def trueWords : List Str := [['1'], ['t'], ['T'], "TRUE".toList, "true".toList, "True".toList]

/-- The texts that mean no. -/
def falseWords : List Str := [[], ['0'], ['f'], ['F'], "FALSE".toList, "false".toList, "False".toList]

/-- A text means a yes or a no. -/
def MeansBool (s : Str) (b : Bool) : Prop := s ∈ if b then trueWords else falseWords

/-- A text means a number of at most `bits` bits. -/
def MeansInt (bits : Nat) (s : Str) (n : Int) : Prop :=
  (s = [] ∧ n = 0) ∨ (atoi s = some n ∧ -(2 ^ (bits - 1) : Int) ≤ n ∧ n < 2 ^ (bits - 1))

theorem setVal_bool (l : List Str) (w : Val) :
    setVal .bool l = some w ↔ ∃ b, w = .bool b ∧ MeansBool (first l) b := by
  unfold setVal MeansBool
  generalize first l = s
  dsimp only
  by_cases h0 : s = []
  · subst h0
    constructor
    · intro h; cases h; exact ⟨false, rfl, by decide⟩
    · rintro ⟨b, rfl, hb⟩
      cases b
      · rfl
      · exact absurd hb (by decide)
  · rw [if_neg h0]
    have hp : ∀ b, parseBool s = some b ↔ s ∈ if b then trueWords else falseWords := by
      intro b
      unfold parseBool
      by_cases h1 : s ∈ trueWords
      · rw [if_pos (by simpa [trueWords] using h1)]
        cases b
        · constructor
          · intro h; cases h
          · intro h
            exfalso
            have hd : ∀ x ∈ trueWords, x ∉ falseWords := by decide
            exact hd s h1 h
        · exact ⟨fun _ => h1, fun _ => rfl⟩
      · rw [if_neg (by simpa [trueWords] using h1)]
        by_cases h2 : s ∈ falseWords
        · rw [if_pos (by simpa [falseWords, h0] using h2)]
          cases b
          · exact ⟨fun _ => h2, fun _ => rfl⟩
          · exact ⟨fun h => (nomatch h), fun h => absurd h h1⟩
        · rw [if_neg (by simpa [falseWords, h0] using h2)]
          cases b
          · exact ⟨fun h => (nomatch h), fun h => absurd h h2⟩
          · exact ⟨fun h => (nomatch h), fun h => absurd h h1⟩
    rw [Option.map_eq_some_iff]
    exact ⟨fun ⟨b, h1, h2⟩ => ⟨b, h2.symm, (hp b).1 h1⟩, fun ⟨b, h1, h2⟩ => ⟨b, (hp b).2 h2, h1.symm⟩⟩

theorem setVal_int (bits : Nat) (l : List Str) (w : Val) :
    setVal (.int bits) l = some w ↔ ∃ n, w = .int n ∧ MeansInt bits (first l) n := by
  unfold setVal MeansInt
  generalize first l = s
  dsimp only
  by_cases h0 : s = []
  · subst h0
    simp [atoi, parseDigits, eq_comm]
  · rw [if_neg h0, Option.map_eq_some_iff]
    have hp : ∀ n, parseInt bits s = some n ↔ atoi s = some n ∧ -(2 ^ (bits - 1) : Int) ≤ n ∧ n < 2 ^ (bits - 1) := by
      intro n
      unfold parseInt
      cases atoi s with
      | none => simp
      | some i =>
        dsimp only
        by_cases h : -(2 ^ (bits - 1) : Int) ≤ i ∧ i < 2 ^ (bits - 1)
        · rw [if_pos h]
          constructor
          · intro h'; cases h'; exact ⟨rfl, h⟩
          · rintro ⟨h', _⟩; exact h'
        · rw [if_neg h]
          constructor
          · intro h'; cases h'
          · rintro ⟨h', h2⟩; cases h'; exact absurd h2 h
    constructor
    · rintro ⟨n, h1, h2⟩; exact ⟨n, h2.symm, Or.inr ((hp n).1 h1)⟩
    · rintro ⟨n, h1, h2⟩
      rcases h2 with ⟨h2, _⟩ | h2
      · exact absurd h2 h0
      · exact ⟨n, (hp n).2 h2, h1.symm⟩

/-- The value of a field after a binding that finds `l` for it. -/
def upd (k : Kind) (o : Option (List Str)) (v : Val) : Val :=
  match o with
  | none => v
  | some l => (setVal k l).getD v

/-- Whether a field stops the mapping. -/
def fails (k : Kind) (o : Option (List Str)) : Bool :=
  match o with
  | none => false
  | some l => (setVal k l).isNone

theorem mapFields_cons (look : Field → Option (List Str)) (f : Field) (fs : List Field) (v : Val) (vs : List Val) :
    mapFields look (f :: fs) (v :: vs) =
      if fails f.kind (look f) then (v :: vs, true)
      else (upd f.kind (look f) v :: (mapFields look fs vs).1, (mapFields look fs vs).2) := by
  rw [mapFields.eq_def]
  dsimp only
  cases look f with
  | none => rfl
  | some l =>
    dsimp only
    cases h : setVal f.kind l with
    | none => simp [fails, h]
    | some w => simp [fails, upd, h]

theorem fails_str (o : Option (List Str)) : fails .str o = false := by cases o <;> rfl
theorem fails_strs (o : Option (List Str)) : fails .strs o = false := by cases o <;> rfl
theorem fails_none (k : Kind) : fails k none = false := rfl
theorem upd_none (k : Kind) (v : Val) : upd k none v = v := rfl

theorem mapFields_nil (look : Field → Option (List Str)) : mapFields look [] [] = ([], false) := rfl

theorem canon_name : canon sName = sName := by decide
theorem canon_bucket : canon "bucket".toList = sBucket := by decide
theorem canon_digest : canon "digest".toList = "Digest".toList := by decide
theorem canon_size : canon "size".toList = "Size".toList := by decide
theorem canon_store : canon "Store".toList = "Store".toList := by decide
theorem canon_compress : canon "Compress".toList = "Compress".toList := by decide
theorem canon_version : canon "Version".toList = "Version".toList := by decide
theorem canon_range : canon "Range".toList = "Range".toList := by decide

/-- Nothing but the name is a parameter of the route. -/
def OnlyName (r : Request) : Prop := ∀ k, k ≠ "name".toList → r.param k = none

theorem bind3 (t : List Field) (a b c : Source) (r : Request) :
    bind t [a, b, c] r =
      if (bindOne t r c (bindOne t r b (bindOne t r a (t.map fun f => zero f.kind)).1).1).2 then none
      else some (bindOne t r c (bindOne t r b (bindOne t r a (t.map fun f => zero f.kind)).1).1).1 := rfl

theorem put_uri (r : Request) (hp : OnlyName r) :
    (bindOne putType r .uri (putType.map fun f => zero f.kind)).1 =
      [.int 0, .bool false, .str ((r.param "name".toList).getD []), .str [], .str [], .str [], .strs [], .other] := by
  have h1 := hp "Store".toList (by decide)
  have h2 := hp "Compress".toList (by decide)
  have h3 := hp sBucket (by decide)
  have h4 := hp sHash (by decide)
  have h5 := hp "Ext".toList (by decide)
  have h6 := hp "Locate".toList (by decide)
  have h7 := hp "Body".toList (by decide)
  simp only [bindOne, putType, List.map, zero, mapFields_cons, mapFields_nil, key, values, Option.getD, h1, h2, h3, h4, h5,
    h6, h7, Option.map_none, fails_none, fails_str, upd_none, if_neg Bool.false_ne_true]
  cases r.param "name".toList <;> rfl

/-- The text of a field after one more source: the one given there, if there is one. -/
def pick (o : Option (List Str)) (s : Str) : Str :=
  match o with
  | none => s
  | some l => l.headD []

theorem upd_str (o : Option (List Str)) (s : Str) : upd .str o (.str s) = .str (pick o s) := by cases o <;> rfl

theorem pick_nil (o : Option (List Str)) : pick o [] = text o := by cases o <;> rfl

theorem put_header (r : Request) (h1 : r.header "Store".toList = none) (h2 : r.header "Compress".toList = none)
    (a b o : Val) (n s1 s2 : Str) (e l : Val) :
    ∃ e' l', (bindOne putType r .header [a, b, .str n, .str s1, .str s2, e, l, o]).1 =
      [a, b, .str (pick (r.header sName) n), .str (pick (r.header sBucket) s1),
        .str (pick (r.header "Digest".toList) s2), e', l', o] := by
  simp only [bindOne, putType, mapFields_cons, mapFields_nil, key, values, Option.getD, canon_name, canon_bucket,
    canon_digest, canon_store, canon_compress, h1, h2, fails_none, fails_str, fails_strs, upd_none, upd_str,
    if_neg Bool.false_ne_true]
  refine ⟨upd .str (r.header (canon "Ext".toList)) e, upd .strs (r.header (canon "Locate".toList)) l, ?_⟩
  cases hb : fails .other (r.header (canon "Body".toList)) with
  | true => rfl
  | false =>
    cases hc : r.header (canon "Body".toList) with
    | none => rfl
    | some x => rw [hc] at hb; cases hb

theorem put_query (r : Request) (h4 : r.query "Body".toList = none) (n b h : Str) (e l : Val) :
    ∃ x e' l', bindOne putType r .query [.int 0, .bool false, .str n, .str b, .str h, e, l, .other] =
      if fails (.int 8) (r.query "ss".toList) || fails .bool (r.query "compress".toList) then (x, true)
      else
        ([upd (.int 8) (r.query "ss".toList) (.int 0), upd .bool (r.query "compress".toList) (.bool false),
          .str (pick (r.query sName) n), .str (pick (r.query sBucket) b), .str (pick (r.query sHash) h), e', l', .other],
          !(pick (r.query sName) n ≠ [] && pick (r.query sBucket) b ≠ [] && pick (r.query sHash) h ≠ [])) := by
  simp only [bindOne, putType, mapFields_cons, mapFields_nil, key, values, Option.getD,
    h4, fails_none, fails_str, fails_strs, upd_none, upd_str, if_neg Bool.false_ne_true]
  generalize pick (r.query sName) n = n'
  generalize pick (r.query sBucket) b = b'
  generalize pick (r.query sHash) h = h'
  refine ⟨(if fails (.int 8) (r.query "ss".toList) then [.int 0, .bool false, .str n, .str b, .str h, e, l, .other] else
      [upd (.int 8) (r.query "ss".toList) (.int 0), .bool false, .str n, .str b, .str h, e, l, .other]),
    upd .str (r.query "Ext".toList) e, upd .strs (r.query "Locate".toList) l, ?_⟩
  cases h5 : fails (.int 8) (r.query "ss".toList) with
  | true => simp
  | false =>
    cases h6 : fails .bool (r.query "compress".toList) with
    | true => simp
    | false =>
      by_cases hn : n' = [] <;> by_cases hb : b' = [] <;> by_cases hd : h' = [] <;>
        simp [validate, ruleOk, zero, hn, hb, hd]

theorem means_int (bits : Nat) (o : Option (List Str)) :
    (fails (.int bits) o = true ∧ ∀ z, ¬ MeansInt bits (text o) z) ∨
      (fails (.int bits) o = false ∧ ∃ z, upd (.int bits) o (.int 0) = .int z ∧
        ∀ z', MeansInt bits (text o) z' ↔ z' = z) := by
  cases o with
  | none => exact Or.inr ⟨rfl, 0, rfl, fun z' => by simp [MeansInt, text, atoi, parseDigits]⟩
  | some l =>
    cases hv : setVal (.int bits) l with
    | none =>
      refine Or.inl ⟨by simp [fails, hv], fun z hz => ?_⟩
      have := (setVal_int bits l (.int z)).2 ⟨z, rfl, by simpa [text, first] using hz⟩
      rw [hv] at this; cases this
    | some w =>
      obtain ⟨z, rfl, hz⟩ := (setVal_int bits l w).1 hv
      refine Or.inr ⟨by simp [fails, hv], z, by simp [upd, hv], fun z' => ⟨fun h => ?_, fun h => ?_⟩⟩
      · have := (setVal_int bits l (.int z')).2 ⟨z', rfl, by simpa [text, first] using h⟩
        rw [hv] at this; cases this; rfl
      · subst h; simpa [text, first] using hz

theorem means_bool (o : Option (List Str)) :
    (fails .bool o = true ∧ ∀ z, ¬ MeansBool (text o) z) ∨
      (fails .bool o = false ∧ ∃ z, upd .bool o (.bool false) = .bool z ∧ ∀ z', MeansBool (text o) z' ↔ z' = z) := by
  cases o with
  | none =>
    refine Or.inr ⟨rfl, false, rfl, fun z' => ?_⟩
    unfold MeansBool
    cases z' <;> decide
  | some l =>
    cases hv : setVal .bool l with
    | none =>
      refine Or.inl ⟨by simp [fails, hv], fun z hz => ?_⟩
      have := (setVal_bool l (.bool z)).2 ⟨z, rfl, by simpa [text, first] using hz⟩
      rw [hv] at this; cases this
    | some w =>
      obtain ⟨z, rfl, hz⟩ := (setVal_bool l w).1 hv
      refine Or.inr ⟨by simp [fails, hv], z, by simp [upd, hv], fun z' => ⟨fun h => ?_, fun h => ?_⟩⟩
      · have := (setVal_bool l (.bool z')).2 ⟨z', rfl, by simpa [text, first] using h⟩
        rw [hv] at this; cases this; rfl
      · subst h; simpa [text, first] using hz

/-- What `PUT /objects/<name>` is accepted for, and with which values: for every request without the headers
`Store` and `Compress` and the query parameter `Body`.  The query comes last and so replaces the rest. -/
theorem C85_put (r : Request) (hp : OnlyName r) (h1 : r.header "Store".toList = none)
    (h2 : r.header "Compress".toList = none) (h3 : r.query "Body".toList = none) (p : Put) :
    bindPut r = some p ↔
      p.name = pick (r.query sName) (pick (r.header sName) ((r.param "name".toList).getD [])) ∧ p.name ≠ [] ∧
      p.bucket = pick (r.query sBucket) (text (r.header "Bucket".toList)) ∧ p.bucket ≠ [] ∧
      p.digest = pick (r.query sHash) (text (r.header "Digest".toList)) ∧ p.digest ≠ [] ∧
      MeansBool (text (r.query "compress".toList)) p.compress ∧
      MeansInt 8 (text (r.query "ss".toList)) p.store := by
  obtain ⟨e1, l1, H⟩ := put_header r h1 h2 (.int 0) (.bool false) .other ((r.param "name".toList).getD []) [] [] (.str [])
    (.strs [])
  obtain ⟨x, e2, l2, Q⟩ := put_query r h3 (pick (r.header sName) ((r.param "name".toList).getD []))
    (pick (r.header sBucket) []) (pick (r.header "Digest".toList) []) e1 l1
  have hb := bind3 putType .uri .header .query r
  rw [put_uri r hp, H, Q] at hb
  have hB : r.header "Bucket".toList = r.header sBucket := rfl
  rw [bindPut, putOrder, hb, hB, pick_nil, pick_nil]
  clear hb H Q
  generalize pick (r.query sName) _ = n
  generalize pick (r.query sBucket) _ = b
  generalize pick (r.query sHash) _ = d
  generalize r.query "ss".toList = q1
  generalize r.query "compress".toList = q2
  rcases means_int 8 q1 with ⟨f1, g1⟩ | ⟨f1, z, u1, g1⟩
  · rw [f1, Bool.true_or, if_pos rfl, if_pos rfl]
    exact ⟨fun h => (nomatch h), fun h => absurd h.2.2.2.2.2.2.2 (g1 _)⟩
  · rcases means_bool q2 with ⟨f2, g2⟩ | ⟨f2, c, u2, g2⟩
    · rw [f2, Bool.or_true, if_pos rfl, if_pos rfl]
      exact ⟨fun h => (nomatch h), fun h => absurd h.2.2.2.2.2.2.1 (g2 _)⟩
    · rw [f1, f2, u1, u2, g1, g2, Bool.or_self, if_neg Bool.false_ne_true]
      obtain ⟨pn, pb, pd, pc, ps⟩ := p
      by_cases hc : n ≠ [] ∧ b ≠ [] ∧ d ≠ []
      · rw [if_neg (by simp [hc])]
        dsimp only
        simp only [Option.some.injEq, Put.mk.injEq]
        constructor
        · rintro ⟨rfl, rfl, rfl, rfl, rfl⟩; exact ⟨rfl, hc.1, rfl, hc.2.1, rfl, hc.2.2, rfl, rfl⟩
        · rintro ⟨rfl, _, rfl, _, rfl, _, rfl, rfl⟩; exact ⟨rfl, rfl, rfl, rfl, rfl⟩
      · rw [if_pos (by
          by_cases a1 : n = [] <;> by_cases a2 : b = [] <;> by_cases a3 : d = [] <;> simp [a1, a2, a3]
          exact hc ⟨a1, a2, a3⟩)]
        constructor
        · intro h; cases h
        · rintro ⟨rfl, h1, rfl, h2, rfl, h3, _⟩; exact absurd ⟨h1, h2, h3⟩ hc

/-- **C85**, partial: for a request that does not use the Go names of the fields, `PUT /objects/<name>` is accepted
exactly if the name in the path, the headers `bucket` and `digest` are not empty and the query parameters
`compress` and `ss` (if present) are a yes or no and a number below 128; and these values are used. -/
theorem C85_put_partial (r : Request) (hp : OnlyName r)
    (hh : ∀ k ∈ ["Store".toList, "Compress".toList, "Name".toList], r.header k = none)
    (hq : ∀ k ∈ ["Name".toList, "Bucket".toList, "Hash".toList, "Body".toList], r.query k = none) (p : Put) :
    bindPut r = some p ↔
      p.name = (r.param "name".toList).getD [] ∧ p.name ≠ [] ∧
      p.bucket = text (r.header "Bucket".toList) ∧ p.bucket ≠ [] ∧
      p.digest = text (r.header "Digest".toList) ∧ p.digest ≠ [] ∧
      MeansBool (text (r.query "compress".toList)) p.compress ∧
      MeansInt 8 (text (r.query "ss".toList)) p.store := by
  have a1 : r.query sName = none := hq "Name".toList (by simp)
  have a2 : r.query sBucket = none := hq "Bucket".toList (by simp)
  have a3 : r.query sHash = none := hq "Hash".toList (by simp)
  have a4 : r.header sName = none := hh "Name".toList (by simp)
  rw [C85_put r hp (hh _ (by simp)) (hh _ (by simp)) (hq _ (by simp)), a1, a2, a3, a4]
  rfl

/-- A request with additional query parameters. -/
def withQuery (r : Request) (l : List (Str × Str)) : Request :=
  { r with query := fun k => match l.lookup k with | some v => some [v] | none => r.query k }

/-- **C85 fails**: whoever may store one object can have the request act on any other object in any other
bucket, by adding the query parameters `Name` and `Bucket`; the same for the digest. -/
theorem C85_put_elsewhere (r : Request) (hp : OnlyName r) (h1 : r.header "Store".toList = none)
    (h2 : r.header "Compress".toList = none) (h3 : r.query "Body".toList = none) (p : Put) (h : bindPut r = some p)
    (n b d : Str) (hn : n ≠ []) (hb : b ≠ []) (hd : d ≠ []) :
    bindPut (withQuery r [("Name".toList, n), ("Bucket".toList, b), ("Hash".toList, d)]) =
      some { p with name := n, bucket := b, digest := d } := by
  have hk := (C85_put r hp h1 h2 h3 p).1 h
  refine (C85_put (withQuery r _) hp h1 h2 ?_ { p with name := n, bucket := b, digest := d }).2
    ⟨rfl, hn, rfl, hb, rfl, hd, ?_, ?_⟩
  · exact h3
  · exact hk.2.2.2.2.2.2.1
  · exact hk.2.2.2.2.2.2.2

theorem get_uri (r : Request) (hp : OnlyName r) :
    (bindOne getType r .uri (getType.map fun f => zero f.kind)).1 =
      [.str ((r.param "name".toList).getD []), .str [], .int 0, .other] := by
  have h2 := hp "Version".toList (by decide)
  have h3 := hp sBucket (by decide)
  have h4 := hp "Range".toList (by decide)
  simp only [bindOne, getType, List.map, zero, mapFields_cons, mapFields_nil, key, values, Option.getD, h2, h3, h4,
    Option.map_none, fails_none, fails_str, upd_none, if_neg Bool.false_ne_true]
  cases r.param "name".toList <;> rfl

theorem get_header (r : Request) (h1 : r.header "Version".toList = none) (n b : Str) :
    (bindOne getType r .header [.str n, .str b, .int 0, .other]).1 =
      [.str (pick (r.header sName) n), .str (pick (r.header sBucket) b), .int 0, .other] := by
  simp only [bindOne, getType, mapFields_cons, mapFields_nil, key, values, Option.getD, canon_name, canon_bucket,
    canon_version, h1, fails_none, fails_str, upd_none, upd_str, if_neg Bool.false_ne_true]
  cases hb : fails .other (r.header (canon "Range".toList)) with
  | true => rfl
  | false =>
    cases hc : r.header (canon "Range".toList) with
    | none => rfl
    | some x => rw [hc] at hb; cases hb

theorem get_query (r : Request) (h4 : r.query "Range".toList = none) (n b : Str) :
    ∃ x, bindOne getType r .query [.str n, .str b, .int 0, .other] =
      if fails (.int 32) (r.query "version".toList) then (x, true)
      else
        ([.str (pick (r.query sName) n), .str (pick (r.query sBucket) b),
          upd (.int 32) (r.query "version".toList) (.int 0), .other],
          !(pick (r.query sName) n ≠ [] && pick (r.query sBucket) b ≠ [] &&
            ruleOk { name := [], kind := .int 32, rule := .min0 } (upd (.int 32) (r.query "version".toList) (.int 0)))) := by
  simp only [bindOne, getType, mapFields_cons, mapFields_nil, key, values, Option.getD,
    h4, fails_none, fails_str, upd_none, upd_str, if_neg Bool.false_ne_true]
  generalize pick (r.query sName) n = n'
  generalize pick (r.query sBucket) b = b'
  refine ⟨[.str n', .str b', .int 0, .other], ?_⟩
  cases h5 : fails (.int 32) (r.query "version".toList) with
  | true => simp
  | false =>
    by_cases hn : n' = [] <;> by_cases hb : b' = [] <;> simp [validate, ruleOk, zero, hn, hb]

/-- What `GET /objects/<name>` is accepted for, and with which values: for every request without the header
`Version` and the query parameter `Range`.  The header `Range` makes the second binding fail, but that error is
forgotten. -/
theorem C85_get (r : Request) (hp : OnlyName r) (h1 : r.header "Version".toList = none)
    (h3 : r.query "Range".toList = none) (p : Get) :
    bindGet r = some p ↔
      p.name = pick (r.query sName) (pick (r.header sName) ((r.param "name".toList).getD [])) ∧ p.name ≠ [] ∧
      p.bucket = pick (r.query sBucket) (text (r.header "Bucket".toList)) ∧ p.bucket ≠ [] ∧
      MeansInt 32 (text (r.query "version".toList)) p.version ∧ 0 ≤ p.version := by
  obtain ⟨x, Q⟩ := get_query r h3 (pick (r.header sName) ((r.param "name".toList).getD [])) (pick (r.header sBucket) [])
  have hb := bind3 getType .uri .header .query r
  rw [get_uri r hp, get_header r h1, Q] at hb
  have hB : r.header "Bucket".toList = r.header sBucket := rfl
  rw [bindGet, getOrder, hb, hB, pick_nil]
  clear hb Q
  generalize pick (r.query sName) _ = n
  generalize pick (r.query sBucket) _ = b
  generalize r.query "version".toList = q
  rcases means_int 32 q with ⟨f1, g1⟩ | ⟨f1, z, u1, g1⟩
  · rw [f1, if_pos rfl, if_pos rfl]
    exact ⟨fun h => (nomatch h), fun h => absurd h.2.2.2.2.1 (g1 _)⟩
  · rw [f1, u1, g1, if_neg Bool.false_ne_true]
    obtain ⟨pn, pb, pv⟩ := p
    by_cases hc : n ≠ [] ∧ b ≠ [] ∧ 0 ≤ z
    · rw [if_neg (by simp [hc, ruleOk])]
      dsimp only
      simp only [Option.some.injEq, Get.mk.injEq]
      constructor
      · rintro ⟨rfl, rfl, rfl⟩; exact ⟨rfl, hc.1, rfl, hc.2.1, rfl, hc.2.2⟩
      · rintro ⟨rfl, _, rfl, _, rfl, _⟩; exact ⟨rfl, rfl, rfl⟩
    · rw [if_pos (by
        by_cases a1 : n = [] <;> by_cases a2 : b = [] <;> by_cases a3 : 0 ≤ z <;> simp [a1, a2, a3, ruleOk]
        exact hc ⟨a1, a2, a3⟩)]
      constructor
      · intro h; cases h
      · rintro ⟨rfl, h1, rfl, h2, rfl, h3⟩; exact absurd ⟨h1, h2, h3⟩ hc

/-- **C85**, partial: for a request that does not use the Go names of the fields, `GET /objects/<name>` reads the
object named in the path, in the bucket of the header, in the version of the query; with or without a
header `Range`. -/
theorem C85_get_partial (r : Request) (hp : OnlyName r)
    (hh : ∀ k ∈ ["Name".toList, "Version".toList], r.header k = none)
    (hq : ∀ k ∈ ["Name".toList, "Bucket".toList, "Range".toList], r.query k = none) (p : Get) :
    bindGet r = some p ↔
      p.name = (r.param "name".toList).getD [] ∧ p.name ≠ [] ∧
      p.bucket = text (r.header "Bucket".toList) ∧ p.bucket ≠ [] ∧
      MeansInt 32 (text (r.query "version".toList)) p.version ∧ 0 ≤ p.version := by
  have a1 : r.query sName = none := hq "Name".toList (by simp)
  have a2 : r.query sBucket = none := hq "Bucket".toList (by simp)
  have a4 : r.header sName = none := hh "Name".toList (by simp)
  rw [C85_get r hp (hh _ (by simp)) (hq _ (by simp)), a1, a2, a4]
  rfl

/-- **C85 fails** in the same way for reading. -/
theorem C85_get_elsewhere (r : Request) (hp : OnlyName r) (h1 : r.header "Version".toList = none)
    (h3 : r.query "Range".toList = none) (p : Get) (h : bindGet r = some p) (n b : Str) (hn : n ≠ []) (hb : b ≠ []) :
    bindGet (withQuery r [("Name".toList, n), ("Bucket".toList, b)]) = some { p with name := n, bucket := b } := by
  have hk := (C85_get r hp h1 h3 p).1 h
  exact (C85_get (withQuery r [("Name".toList, n), ("Bucket".toList, b)]) hp h1 h3 { p with name := n, bucket := b }).2
    ⟨rfl, hn, rfl, hb, hk.2.2.2.2.1, hk.2.2.2.2.2⟩

/-! ### Resumable uploads -/

theorem big_header (r : Request) (h1 : r.header "Compress".toList = none) :
    ∃ n e, (bindOne bigType r .header (bigType.map fun f => zero f.kind)).1 =
      [.bool false, .str n, .str (text (r.header sBucket)), .str (text (r.header "Digest".toList)),
        upd (.int 64) (r.header "Size".toList) (.int 0), .str e] := by
  simp only [bindOne, bigType, List.map, zero, mapFields_cons, mapFields_nil, key, values, Option.getD, canon_name,
    canon_bucket, canon_digest, canon_size, canon_compress, h1, fails_none, fails_str, upd_none, upd_str, pick_nil,
    if_neg Bool.false_ne_true]
  cases hs : fails (.int 64) (r.header "Size".toList) with
  | true =>
    refine ⟨text (r.header sName), [], ?_⟩
    cases hv : r.header "Size".toList with
    | none => rw [hv] at hs; cases hs
    | some l =>
      rw [hv] at hs
      have : setVal (.int 64) l = none := by simpa [fails] using hs
      simp [upd, this]
  | false => exact ⟨text (r.header sName), text (r.header (canon "Ext".toList)), rfl⟩

theorem big_query (r : Request) (h1 : r.query sBucket = none) (h2 : r.query sHash = none)
    (h3 : r.query "Size".toList = none) (n b h e : Str) (z : Val) :
    ∃ n' e', (bindOne bigType r .query [.bool false, .str n, .str b, .str h, z, .str e]).1 =
      [upd .bool (r.query "compress".toList) (.bool false), .str n', .str b, .str h, z, .str e'] := by
  simp only [bindOne, bigType, mapFields_cons, mapFields_nil, key, values, Option.getD,
    h1, h2, h3, fails_none, fails_str, upd_none, upd_str, if_neg Bool.false_ne_true]
  cases hs : fails .bool (r.query "compress".toList) with
  | true =>
    refine ⟨n, e, ?_⟩
    cases hv : r.query "compress".toList with
    | none => rw [hv] at hs; cases hs
    | some l =>
      rw [hv] at hs
      have : setVal .bool l = none := by simpa [fails] using hs
      simp [upd, this]
  | false => exact ⟨pick (r.query sName) n, pick (r.query "Ext".toList) e, rfl⟩

theorem big_uri (r : Request) (hp : OnlyName r) (name : Str) (hn : r.param "name".toList = some name) (c : Bool)
    (n b h e : Str) (z : Int) :
    bindOne bigType r .uri [.bool c, .str n, .str b, .str h, .int z, .str e] =
      ([.bool c, .str name, .str b, .str h, .int z, .str e], !(name ≠ [] && b ≠ [] && h ≠ [] && z ≠ 0)) := by
  have h1 := hp "Compress".toList (by decide)
  have h2 := hp sBucket (by decide)
  have h3 := hp sHash (by decide)
  have h4 := hp "Size".toList (by decide)
  have h5 := hp "Ext".toList (by decide)
  simp only [bindOne, bigType, mapFields_cons, mapFields_nil, key, values, Option.getD,
    h1, h2, h3, h4, h5, hn, Option.map_none, Option.map_some, fails_none, fails_str, upd_none, upd_str,
    if_neg Bool.false_ne_true]
  have hk : pick (some [name]) n = name := rfl
  rw [hk]
  by_cases a1 : name = [] <;> by_cases a2 : b = [] <;> by_cases a3 : h = [] <;> by_cases a4 : z = 0 <;>
    simp [validate, ruleOk, zero, a1, a2, a3, a4]

/-- **C85**, partial: for a request that does not use the Go names of the fields (`Name` may be used), `POST
/big/<name>` is accepted exactly if the name in the path, the headers `bucket` and `digest` are not empty, and the
header `size` is a number that is not zero.  **Missing**: a query parameter `compress` that is neither yes
nor no is taken for no instead of being refused, and a negative size is accepted. -/
theorem C85_big_partial (r : Request) (hp : OnlyName r) (name : Str) (hn : r.param "name".toList = some name)
    (hh : r.header "Compress".toList = none)
    (hq : ∀ k ∈ ["Bucket".toList, "Hash".toList, "Size".toList], r.query k = none) (p : Big) :
    bindBig r = some p ↔
      p.name = name ∧ p.name ≠ [] ∧
      p.bucket = text (r.header "Bucket".toList) ∧ p.bucket ≠ [] ∧
      p.digest = text (r.header "Digest".toList) ∧ p.digest ≠ [] ∧
      MeansInt 64 (text (r.header "Size".toList)) p.size ∧ p.size ≠ 0 ∧
      (p.compress = true ↔ MeansBool (text (r.query "compress".toList)) true) := by
  have a1 : r.query sBucket = none := hq "Bucket".toList (by simp)
  have a2 : r.query sHash = none := hq "Hash".toList (by simp)
  have a3 : r.query "Size".toList = none := hq "Size".toList (by simp)
  obtain ⟨n1, e1, H⟩ := big_header r hh
  obtain ⟨n2, e2, Q⟩ := big_query r a1 a2 a3 n1 (text (r.header sBucket)) (text (r.header "Digest".toList)) e1
    (upd (.int 64) (r.header "Size".toList) (.int 0))
  have hb := bind3 bigType .header .query .uri r
  rw [H, Q] at hb
  have hB : r.header "Bucket".toList = r.header sBucket := rfl
  have hc : ∃ c, upd .bool (r.query "compress".toList) (.bool false) = .bool c ∧
      (c = true ↔ MeansBool (text (r.query "compress".toList)) true) := by
    rcases means_bool (r.query "compress".toList) with ⟨f, g⟩ | ⟨_, c, u, g⟩
    · refine ⟨false, ?_, ⟨fun h => (nomatch h), fun h => absurd h (g _)⟩⟩
      cases hv : r.query "compress".toList with
      | none => rfl
      | some l =>
        rw [hv] at f
        have : setVal .bool l = none := by simpa [fails] using f
        simp [upd, this]
    · exact ⟨c, u, by rw [g]; exact eq_comm⟩
  obtain ⟨c, hc, hcm⟩ := hc
  have hz : ∃ z, upd (.int 64) (r.header "Size".toList) (.int 0) = .int z ∧
      ∀ z', z' ≠ 0 → (MeansInt 64 (text (r.header "Size".toList)) z' ↔ z' = z) := by
    rcases means_int 64 (r.header "Size".toList) with ⟨f, g⟩ | ⟨_, z, u, g⟩
    · refine ⟨0, ?_, fun z' h0 => ⟨fun h => absurd h (g _), fun h => absurd h h0⟩⟩
      cases hv : r.header "Size".toList with
      | none => rfl
      | some l =>
        rw [hv] at f
        have : setVal (.int 64) l = none := by simpa [fails] using f
        simp [upd, this]
    · exact ⟨z, u, fun z' _ => g z'⟩
  obtain ⟨z, hz, hzm⟩ := hz
  rw [hc, hz, big_uri r hp name hn] at hb
  rw [bindBig, bigOrder, hb, hB, ← hcm]
  clear hb H Q
  generalize text (r.header sBucket) = b at *
  generalize text (r.header "Digest".toList) = d at *
  obtain ⟨pn, pb, pd, pz, pc⟩ := p
  by_cases ha : name ≠ [] ∧ b ≠ [] ∧ d ≠ [] ∧ z ≠ 0
  · rw [if_neg (by simp [ha])]
    dsimp only
    simp only [Option.some.injEq, Big.mk.injEq]
    constructor
    · rintro ⟨rfl, rfl, rfl, rfl, rfl⟩
      exact ⟨rfl, ha.1, rfl, ha.2.1, rfl, ha.2.2.1, (hzm _ ha.2.2.2).2 rfl, ha.2.2.2, Iff.rfl⟩
    · rintro ⟨rfl, _, rfl, _, rfl, _, h, h0, hcc⟩
      refine ⟨rfl, rfl, rfl, ((hzm _ h0).1 h).symm, ?_⟩
      cases c <;> cases pc <;> simp_all
  · rw [if_pos (by
      by_cases a1 : name = [] <;> by_cases a2 : b = [] <;> by_cases a3 : d = [] <;> by_cases a4 : z = 0 <;>
        simp [a1, a2, a3, a4]
      exact ha ⟨a1, a2, a3, a4⟩)]
    constructor
    · intro h; cases h
    · rintro ⟨rfl, h1, rfl, h2, rfl, h3, h4, h5, _⟩
      have := (hzm _ h5).1 h4
      exact absurd ⟨h1, h2, h3, this ▸ h5⟩ ha

/-- The name of a resumable upload is always the one in the path, whatever else the request contains. -/
theorem C85_big_name (r : Request) (name : Str) (hn : r.param "name".toList = some name) (p : Big)
    (h : bindBig r = some p) : p.name = name := by
  unfold bindBig at h
  cases hb : bind bigType bigOrder r with
  | none => rw [hb] at h; cases h
  | some vs =>
    have hv : values .uri r (key .uri { name := sName, kind := .str, uri := some "name".toList, rule := .required }) =
        some [name] := by
      show (r.param "name".toList).map _ = _
      rw [hn]; rfl
    obtain ⟨v, h1, h2⟩ := C85_last_wins bigType r [.header, .query] .uri hb (i := 1) rfl hv
    cases h1
    rw [hb] at h
    split at h
    · rename_i heq
      cases heq
      cases h
      simp at h2
      exact h2
    · cases h

/-! ### Metadata -/

theorem upd_int (bits : Nat) (o : Option (List Str)) :
    ∃ z, upd (.int bits) o (.int 0) = .int z ∧
      (MeansInt bits (text o) z ∨ (z = 0 ∧ ∀ z', ¬ MeansInt bits (text o) z')) ∧
      ∀ z', MeansInt bits (text o) z' → z' = z := by
  rcases means_int bits o with ⟨f, g⟩ | ⟨_, z, u, g⟩
  · refine ⟨0, ?_, Or.inr ⟨rfl, g⟩, fun z' h => absurd h (g _)⟩
    cases o with
    | none => rfl
    | some l =>
      have : setVal (.int bits) l = none := by simpa [fails] using f
      simp [upd, this]
  · exact ⟨z, u, Or.inl ((g z).2 rfl), fun z' h => (g z').1 h⟩

theorem fails_upd {k : Kind} {o : Option (List Str)} (h : fails k o = true) (v : Val) : upd k o v = v := by
  cases o with
  | none => cases h
  | some l =>
    have : setVal k l = none := by simpa [fails] using h
    simp [upd, this]

/-- What `GET /metadata/<name>` is accepted for, and with which values: for every request without the header
`Version`.  A query parameter `version` that is no number is not refused but read as 0, the latest version:
the error of the second binding is forgotten. -/
theorem C85_meta (r : Request) (hp : OnlyName r) (h1 : r.header "Version".toList = none) (p : Get) :
    bindMeta r = some p ↔
      p.name = pick (r.header sName) (pick (r.query sName) ((r.param "name".toList).getD [])) ∧
      p.bucket = pick (r.header "Bucket".toList) (text (r.query sBucket)) ∧ p.bucket ≠ [] ∧
      (MeansInt 32 (text (r.query "version".toList)) p.version ∨
        (p.version = 0 ∧ ∀ z, ¬ MeansInt 32 (text (r.query "version".toList)) z)) := by
  have hB : r.header "Bucket".toList = r.header sBucket := rfl
  obtain ⟨z, hz, hm, hu⟩ := upd_int 32 (r.query "version".toList)
  have h2 := hp "Version".toList (by decide)
  have h3 := hp sBucket (by decide)
  have U : (bindOne metaType r .uri (metaType.map fun f => zero f.kind)).1 =
      [.str ((r.param "name".toList).getD []), .str [], .int 0] := by
    simp only [bindOne, metaType, List.map, zero, mapFields_cons, mapFields_nil, key, values, Option.getD, h2, h3,
      Option.map_none, fails_none, fails_str, upd_none, if_neg Bool.false_ne_true]
    cases r.param "name".toList <;> rfl
  have Q : ∀ n b, (bindOne metaType r .query [.str n, .str b, .int 0]).1 =
      [.str (pick (r.query sName) n), .str (pick (r.query sBucket) b), .int z] := by
    intro n b
    rw [← hz]
    simp only [bindOne, metaType, mapFields_cons, mapFields_nil, key, values, Option.getD,
      fails_str, upd_str, if_neg Bool.false_ne_true]
    cases hs : fails (.int 32) (r.query "version".toList) with
    | true => rw [fails_upd hs]; rfl
    | false => rfl
  have H : ∀ n b, bindOne metaType r .header [.str n, .str b, .int z] =
      ([.str (pick (r.header sName) n), .str (pick (r.header sBucket) b), .int z],
        !(pick (r.header sBucket) b ≠ [])) := by
    intro n b
    simp only [bindOne, metaType, mapFields_cons, mapFields_nil, key, values, Option.getD, canon_name, canon_bucket,
      canon_version, h1, fails_none, fails_str, upd_none, upd_str, if_neg Bool.false_ne_true]
    by_cases hb : pick (r.header sBucket) b = [] <;> simp [validate, ruleOk, zero, hb]
  have hb := bind3 metaType .uri .query .header r
  rw [U, Q, H, pick_nil] at hb
  rw [bindMeta, apiOrder, hb, hB]
  clear hb U Q H
  generalize pick (r.header sBucket) _ = b
  generalize pick (r.header sName) _ = n
  obtain ⟨pn, pb, pv⟩ := p
  by_cases ha : b = []
  · rw [if_pos (by simp [ha])]
    constructor
    · intro h; cases h
    · rintro ⟨_, rfl, h, _⟩; exact absurd ha h
  · rw [if_neg (by simp [ha])]
    dsimp only
    simp only [Option.some.injEq, Get.mk.injEq]
    constructor
    · rintro ⟨rfl, rfl, rfl⟩; exact ⟨rfl, rfl, ha, hm⟩
    · rintro ⟨rfl, rfl, _, h⟩
      refine ⟨rfl, rfl, ?_⟩
      rcases h with h | ⟨rfl, h⟩
      · exact (hu _ h).symm
      · rcases hm with hm | hm
        · exact absurd hm (h _)
        · exact hm.1

/-- **C85**, partial: for a request that does not use the Go names of the fields and whose query parameter
`version` is a number or absent, the metadata of the object named in the path are read, in the bucket of the
header, in that version. -/
theorem C85_meta_partial (r : Request) (hp : OnlyName r)
    (hh : ∀ k ∈ ["Name".toList, "Version".toList], r.header k = none)
    (hq : ∀ k ∈ ["Name".toList, "Bucket".toList], r.query k = none)
    (v : Int) (hv : MeansInt 32 (text (r.query "version".toList)) v) (p : Get) :
    bindMeta r = some p ↔
      p.name = (r.param "name".toList).getD [] ∧
      p.bucket = text (r.header "Bucket".toList) ∧ p.bucket ≠ [] ∧ p.version = v := by
  have a1 : r.query sName = none := hq "Name".toList (by simp)
  have a2 : r.query sBucket = none := hq "Bucket".toList (by simp)
  have a4 : r.header sName = none := hh "Name".toList (by simp)
  obtain ⟨z, _, _, hu⟩ := upd_int 32 (r.query "version".toList)
  have hzv := hu v hv
  subst hzv
  rw [C85_meta r hp (hh _ (by simp)), a1, a2, a4, show text none = [] from rfl, pick_nil]
  refine and_congr Iff.rfl (and_congr Iff.rfl (and_congr Iff.rfl ⟨?_, ?_⟩))
  · rintro (h | ⟨_, h⟩)
    · exact hu _ h
    · exact absurd hv (h _)
  · rintro h; exact Or.inl (h ▸ hv)

theorem canon_page : canon "Page".toList = "Page".toList := by decide
theorem canon_page_size : canon "PageSize".toList = "Pagesize".toList := by decide

/-- **C85**, partial: for a request that does not use the Go names of the fields, `GET /metadata/<name>/versions`
is accepted exactly if `page` and `page_size` are numbers that are not zero, the header `bucket` and the name are not
empty; and these values are used. -/
theorem C85_versions_partial (r : Request) (hp : OnlyName r)
    (hh : ∀ k ∈ ["Page".toList, "Pagesize".toList, "Name".toList], r.header k = none)
    (hq : ∀ k ∈ ["Name".toList, "Bucket".toList], r.query k = none) (n b : Str) (pg sz : Int) :
    bindVersions r = some (n, b, pg, sz) ↔
      n = (r.param "name".toList).getD [] ∧ n ≠ [] ∧
      b = text (r.header "Bucket".toList) ∧ b ≠ [] ∧
      MeansInt 64 (text (r.query "page".toList)) pg ∧ pg ≠ 0 ∧
      MeansInt 64 (text (r.query "page_size".toList)) sz ∧ sz ≠ 0 := by
  have hB : r.header "Bucket".toList = r.header sBucket := rfl
  have a1 : r.query sName = none := hq "Name".toList (by simp)
  have a2 : r.query sBucket = none := hq "Bucket".toList (by simp)
  have a3 : r.header sName = none := hh "Name".toList (by simp)
  have a4 := hh "Page".toList (by simp)
  have a5 := hh "Pagesize".toList (by simp)
  obtain ⟨x, hx, hxm, hxu⟩ := upd_int 64 (r.query "page".toList)
  obtain ⟨y, hy, hym, hyu⟩ := upd_int 64 (r.query "page_size".toList)
  have h2 := hp "Page".toList (by decide)
  have h3 := hp sBucket (by decide)
  have h4 := hp "PageSize".toList (by decide)
  have U : (bindOne versionsType r .uri (versionsType.map fun f => zero f.kind)).1 =
      [.int 0, .int 0, .str [], .str ((r.param "name".toList).getD [])] := by
    simp only [bindOne, versionsType, List.map, zero, mapFields_cons, mapFields_nil, key, values, Option.getD, h2, h3,
      h4, Option.map_none, fails_none, fails_str, upd_none, if_neg Bool.false_ne_true]
    cases r.param "name".toList <;> rfl
  have Q : ∀ n, ∃ y', (bindOne versionsType r .query [.int 0, .int 0, .str [], .str n]).1 =
      [.int x, .int y', .str [], .str n] ∧
      (y' = y ∨ (y' = 0 ∧ x = 0 ∧ ∀ z, ¬ MeansInt 64 (text (r.query "page".toList)) z)) := by
    intro n
    simp only [bindOne, versionsType, mapFields_cons, mapFields_nil, key, values, Option.getD, a1, a2,
      fails_none, fails_str, upd_none, upd_str, if_neg Bool.false_ne_true]
    rcases means_int 64 (r.query "page".toList) with ⟨f, g⟩ | ⟨f, _⟩
    · rw [fails_upd f] at hx
      cases hx
      refine ⟨0, ?_, Or.inr ⟨rfl, rfl, g⟩⟩
      rw [if_pos f]
    · rw [if_neg (by rw [f]; decide)]
      refine ⟨y, ?_, Or.inl rfl⟩
      cases hs : fails (.int 64) (r.query "page_size".toList) with
      | true => rw [fails_upd hs] at hy; cases hy; rw [if_pos rfl, hx]
      | false => rw [if_neg Bool.false_ne_true, hx, hy]
  obtain ⟨y', Q, hy'⟩ := Q ((r.param "name".toList).getD [])
  have H : ∀ n, bindOne versionsType r .header [.int x, .int y', .str [], .str n] =
      ([.int x, .int y', .str (text (r.header sBucket)), .str n],
        !(x ≠ 0 && y' ≠ 0 && text (r.header sBucket) ≠ [] && n ≠ [])) := by
    intro n
    simp only [bindOne, versionsType, mapFields_cons, mapFields_nil, key, values, Option.getD, canon_name, canon_bucket,
      canon_page, canon_page_size, a3, a4, a5, fails_none, fails_str, upd_none, upd_str, pick_nil,
      if_neg Bool.false_ne_true]
    generalize text (r.header sBucket) = b
    by_cases e1 : x = 0 <;> by_cases e2 : y' = 0 <;> by_cases e3 : b = [] <;> by_cases e4 : n = [] <;>
      simp [validate, ruleOk, zero, e1, e2, e3, e4]
  have hb := bind3 versionsType .uri .query .header r
  rw [U, Q, H] at hb
  rw [bindVersions, apiOrder, hb, hB]
  clear hb U Q H
  generalize text (r.header sBucket) = b'
  generalize (r.param "name".toList).getD [] = n'
  by_cases ha : x ≠ 0 ∧ y' ≠ 0 ∧ b' ≠ [] ∧ n' ≠ []
  · rw [if_neg (by simp [ha])]
    have hyy : y' = y := by
      rcases hy' with h | h
      · exact h
      · exact absurd h.1 ha.2.1
    subst hyy
    dsimp only
    simp only [Option.some.injEq, Prod.mk.injEq]
    constructor
    · rintro ⟨rfl, rfl, rfl, rfl⟩
      refine ⟨rfl, ha.2.2.2, rfl, ha.2.2.1, ?_, ha.1, ?_, ha.2.1⟩
      · exact hxm.resolve_right fun h => ha.1 h.1
      · exact hym.resolve_right fun h => ha.2.1 h.1
    · rintro ⟨rfl, _, rfl, _, h5, _, h6, _⟩; exact ⟨rfl, rfl, (hxu _ h5).symm, (hyu _ h6).symm⟩
  · rw [if_pos (by
      by_cases e1 : x = 0 <;> by_cases e2 : y' = 0 <;> by_cases e3 : b' = [] <;> by_cases e4 : n' = [] <;>
        simp [e1, e2, e3, e4]
      exact ha ⟨e1, e2, e3, e4⟩)]
    constructor
    · intro h; cases h
    · rintro ⟨rfl, h2, rfl, h4, h5, h6, h7, h8⟩
      exfalso
      have e1 := hxu _ h5
      have e2 := hyu _ h7
      subst e1 e2
      refine ha ⟨h6, ?_, h4, h2⟩
      rcases hy' with h | h
      · rw [h]; exact h8
      · exact absurd h5 (h.2.2 _)

/-! ### The other servers -/

/-- **C85** `POST /temp/<name>` of a data server is accepted exactly if the name is not empty and the header `size` is
a number that is not zero; and these values are used. -/
theorem C85_temp (r : Request) (hp : OnlyName r) (name : Str) (hn : r.param "name".toList = some name) (n : Str)
    (z : Int) :
    bindTemp r = some (n, z) ↔ n = name ∧ n ≠ [] ∧ MeansInt 64 (text (r.header "Size".toList)) z ∧ z ≠ 0 := by
  have h2 := hp "Size".toList (by decide)
  have H : (bindOne tempType r .header (tempType.map fun f => zero f.kind)).1 =
      [.str (pick (r.header sName) []), upd (.int 64) (r.header "Size".toList) (.int 0)] := by
    simp only [bindOne, tempType, List.map, zero, mapFields_cons, mapFields_nil, key, values, Option.getD, canon_name,
      canon_size, fails_str, upd_str, if_neg Bool.false_ne_true]
    cases hf : fails (.int 64) (r.header "Size".toList) with
    | true => rw [fails_upd hf]; simp
    | false => simp
  have hb : bind tempType tempOrder r =
      if (bindOne tempType r .uri (bindOne tempType r .header (tempType.map fun f => zero f.kind)).1).2 then none
      else some (bindOne tempType r .uri (bindOne tempType r .header (tempType.map fun f => zero f.kind)).1).1 := rfl
  rw [H] at hb
  generalize pick (r.header sName) [] = n' at hb
  generalize hw : upd (.int 64) (r.header "Size".toList) (.int 0) = w at hb
  have U : bindOne tempType r .uri [.str n', w] =
      ([.str name, w], !(name ≠ [] && w ≠ .int 0)) := by
    simp only [bindOne, tempType, mapFields_cons, mapFields_nil, key, values, Option.getD, hn, h2, Option.map_none,
      Option.map_some, fails_none, fails_str, upd_none, upd_str, if_neg Bool.false_ne_true]
    by_cases e1 : name = [] <;> by_cases e2 : w = .int 0 <;>
      simp [validate, ruleOk, zero, e1, e2, pick]
  rw [U] at hb
  rw [bindTemp, hb]
  clear hb H U
  generalize r.header "Size".toList = q at *
  rcases means_int 64 q with ⟨f, g⟩ | ⟨f, x, u, g⟩
  · rw [fails_upd f] at hw
    subst hw
    rw [if_pos (by simp)]
    exact ⟨fun h => (nomatch h), fun h => absurd h.2.2.1 (g _)⟩
  · rw [u] at hw
    subst hw
    rw [g]
    by_cases ha : name ≠ [] ∧ x ≠ 0
    · rw [if_neg (by simp [ha])]
      dsimp only
      simp only [Option.some.injEq, Prod.mk.injEq]
      constructor
      · rintro ⟨rfl, rfl⟩; exact ⟨rfl, ha.1, rfl, ha.2⟩
      · rintro ⟨rfl, _, rfl, _⟩; exact ⟨rfl, rfl⟩
    · rw [if_pos (by
        by_cases e1 : name = [] <;> by_cases e2 : x = 0 <;> simp [e1, e2]
        exact ha ⟨e1, e2⟩)]
      constructor
      · intro h; cases h
      · rintro ⟨rfl, h1, rfl, h2⟩; exact absurd ⟨h1, h2⟩ ha

/-- The value of a field after a JSON member. -/
def updJ (k : Kind) (o : Option JVal) (v : Val) : Val :=
  match o with
  | none => v
  | some j => (setJson k j).getD v

theorem mapJson_cons (m : List (Str × JVal)) (f : Field) (fs : List Field) (v : Val) (vs : List Val) :
    (mapJson m (f :: fs) (v :: vs)).1 = updJ f.kind (m.lookup (key .json f)) v :: (mapJson m fs vs).1 := by
  rw [mapJson.eq_def]
  dsimp only
  cases m.lookup (key .json f) with
  | none => rfl
  | some j =>
    dsimp only [updJ]
    cases setJson f.kind j <;> rfl

/-- What a JSON member says about the index: a number, or nothing that can be read. -/
def indexOf (m : List (Str × JVal)) : Int :=
  match m.lookup "locateIndex".toList with
  | some (.num i) => if -(2 ^ 63) ≤ i ∧ i < 2 ^ 63 then i else 0
  | _ => 0

/-- A JSON member is a text. -/
def textOf (m : List (Str × JVal)) (k : Str) : Str :=
  match m.lookup k with
  | some (.str s) => s
  | _ => []

/-- What `PATCH /version/locate` of a metadata server is accepted for, and with which values: for every request
without the Go names of the fields in the query.  **Missing**: an index that is no number, or no index at all,
is taken for 0 instead of being refused. -/
theorem C85_locate_partial (r : Request) (hp : ∀ k, r.param k = none) (m : List (Str × JVal)) (hb : r.body = some m)
    (hq : ∀ k ∈ ["Locate".toList, "Hash".toList, "LocateIndex".toList], r.query k = none) (h l : Str) (i : Int) :
    bindLocate r = some (h, i, l) ↔
      h = textOf m "hash".toList ∧ h ≠ [] ∧ l = textOf m "locate".toList ∧ l ≠ [] ∧ i = indexOf m := by
  have a1 := hq "Locate".toList (by simp)
  have a2 : r.query sHash = none := hq "Hash".toList (by simp)
  have a3 := hq "LocateIndex".toList (by simp)
  have U : (bindOne locateType r .uri (locateType.map fun f => zero f.kind)).1 = [.str [], .str [], .int 0] := by
    simp only [bindOne, locateType, List.map, zero, mapFields_cons, mapFields_nil, key, values, Option.getD, hp,
      Option.map_none, fails_none, fails_str, upd_none, if_neg Bool.false_ne_true]
    rfl
  have J : (bindOne locateType r .json [.str [], .str [], .int 0]).1 =
      [.str (textOf m "locate".toList), .str (textOf m "hash".toList), .int (indexOf m)] := by
    simp only [bindOne, hb, locateType, mapJson_cons, key, Option.getD, textOf, indexOf]
    have e1 : ∀ x : Option JVal, updJ .str x (.str []) = .str (match x with | some (.str s) => s | _ => []) := by
      intro x
      cases x with
      | none => rfl
      | some j => cases j <;> rfl
    have e2 : ∀ x : Option JVal, updJ (.int 64) x (.int 0) =
        .int (match x with | some (.num i) => if -(2 ^ 63) ≤ i ∧ i < 2 ^ 63 then i else 0 | _ => 0) := by
      intro x
      cases x with
      | none => rfl
      | some j =>
        cases j with
        | str s => rfl
        | other => rfl
        | num i =>
          show ((if -(2 ^ 63) ≤ i ∧ i < 2 ^ 63 then some (Val.int i) else none)).getD (.int 0) =
            .int (if -(2 ^ 63) ≤ i ∧ i < 2 ^ 63 then i else 0)
          by_cases hi : -(2 ^ 63) ≤ i ∧ i < 2 ^ 63
          · rw [if_pos hi, if_pos hi]; rfl
          · rw [if_neg hi, if_neg hi]; rfl
    rw [e1, e1, e2]
    rfl
  have Q : ∀ (x y : Str) (z : Int), bindOne locateType r .query [.str x, .str y, .int z] =
      ([.str x, .str y, .int z], !(x ≠ [] && y ≠ [])) := by
    intro x y z
    simp only [bindOne, locateType, mapFields_cons, mapFields_nil, key, values, Option.getD, a1, a2, a3,
      fails_none, upd_none, if_neg Bool.false_ne_true]
    by_cases e1 : x = [] <;> by_cases e2 : y = [] <;> simp [validate, ruleOk, zero, e1, e2]
  have hb := bind3 locateType .uri .json .query r
  rw [U, J, Q] at hb
  rw [bindLocate, locateOrder, hb]
  clear hb U J Q
  generalize textOf m "locate".toList = x
  generalize textOf m "hash".toList = y
  by_cases ha : x ≠ [] ∧ y ≠ []
  · rw [if_neg (by simp [ha])]
    dsimp only
    simp only [Option.some.injEq, Prod.mk.injEq]
    constructor
    · rintro ⟨rfl, rfl, rfl⟩; exact ⟨rfl, ha.2, rfl, ha.1, rfl⟩
    · rintro ⟨rfl, _, rfl, _, rfl⟩; exact ⟨rfl, rfl, rfl⟩
  · rw [if_pos (by
      by_cases e1 : x = [] <;> by_cases e2 : y = [] <;> simp [e1, e2]
      exact ha ⟨e1, e2⟩)]
    constructor
    · intro h; cases h
    · rintro ⟨rfl, h1, rfl, h2, _⟩; exact absurd ⟨h2, h1⟩ ha

/-- A body that is no JSON object is refused. -/
theorem C85_locate_garbage (r : Request) (hp : ∀ k, r.param k = none) (hb : r.body = none)
    (hq : ∀ k ∈ ["Locate".toList, "Hash".toList, "LocateIndex".toList], r.query k = none) : bindLocate r = none := by
  have a1 := hq "Locate".toList (by simp)
  have a2 : r.query sHash = none := hq "Hash".toList (by simp)
  have a3 := hq "LocateIndex".toList (by simp)
  have U : (bindOne locateType r .uri (locateType.map fun f => zero f.kind)).1 = [.str [], .str [], .int 0] := by
    simp only [bindOne, locateType, List.map, zero, mapFields_cons, mapFields_nil, key, values, Option.getD, hp,
      Option.map_none, fails_none, upd_none, if_neg Bool.false_ne_true]
    rfl
  have J : (bindOne locateType r .json [.str [], .str [], .int 0]).1 = [.str [], .str [], .int 0] := by
    simp only [bindOne, hb]
  have Q : (bindOne locateType r .query [.str [], .str [], .int 0]).2 = true := by
    simp only [bindOne, locateType, mapFields_cons, mapFields_nil, key, values, Option.getD, a1, a2, a3,
      fails_none, upd_none, if_neg Bool.false_ne_true]
    rfl
  have hb := bind3 locateType .uri .json .query r
  rw [U, J, Q, if_pos rfl] at hb
  rw [bindLocate, locateOrder, hb]

/-! ## Who is asked -/

theorem toInt64_of_atoi {s : Str} {n : Int} (h : atoi s = some n) : Range.toInt64 s = n := by
  unfold atoi at h
  unfold Range.toInt64
  split at h
  · cases hd : parseDigits _ with
    | none => rw [hd] at h; cases h
    | some k =>
      rw [hd] at h
      dsimp only at h
      by_cases hk : k ≤ 2 ^ 63
      · rw [if_pos hk] at h; cases h; simp only [hd, Option.getD]; omega
      · rw [if_neg hk] at h; cases h
  · cases hd : parseDigits _ with
    | none => rw [hd] at h; cases h
    | some k =>
      rw [hd] at h
      dsimp only at h
      by_cases hk : k < 2 ^ 63
      · rw [if_pos hk] at h; cases h; simp only [hd, Option.getD]; omega
      · rw [if_neg hk] at h; cases h
  · cases hd : parseDigits _ with
    | none => rw [hd] at h; cases h
    | some k =>
      rw [hd] at h
      dsimp only at h
      by_cases hk : k < 2 ^ 63
      · rw [if_pos hk] at h; cases h; simp only [hd, Option.getD]; omega
      · rw [if_neg hk] at h; cases h

/-- The authentication middleware does not look at the query parameters `Name` and `Bucket`. -/
theorem authReq_withQuery (f h m : Str) (bs : Option (Str × Str)) (r : Request) (n b : Str) :
    authReq f h m bs (withQuery r [("Name".toList, n), ("Bucket".toList, b)]) = authReq f h m bs r := rfl

theorem text_first (o : Option (List Str)) : first (o.getD []) = text o := rfl

/-- **C85**, partial, together with C65: if only the callback decides, `Host` has no dot, and the request does not use
the Go names of the fields, then the callback was asked about exactly the bucket, object, version and method
the request reads. -/
theorem C85_asked_get_partial (c : AuthCfg) (f h m : Str) (bs : Option (Str × Str)) (r : Request) (p : Get)
    (henable : c.enable = true) (hw : c.white = []) (hnp : c.password = false) (hd : '.' ∉ h) (hp : OnlyName r)
    (hh : ∀ k ∈ ["Name".toList, "Version".toList], r.header k = none)
    (hq : ∀ k ∈ ["Name".toList, "Bucket".toList, "Range".toList], r.query k = none)
    (hpass : apiAuth c (authReq f h m bs r) = .pass) (hb : bindGet r = some p) :
    c.ask ⟨p.bucket, text (r.header "Region".toList), p.name, p.version, m⟩ = none := by
  obtain ⟨b, h1, h2⟩ := C65_same_bucket_partial c _ henable hw hnp (Or.inl hd) hpass
  obtain ⟨e1, _, e2, _, e3, _⟩ := (C85_get_partial r hp hh hq p).1 hb
  have hbk : b = p.bucket := by
    unfold actsOn at h1
    split at h1
    · cases h1
    · cases h1; exact e2.symm
  have hv : p.version = Range.toInt64 (text (r.query "version".toList)) := by
    rcases e3 with ⟨h0, h1⟩ | ⟨h0, _⟩
    · rw [h0, h1]; decide
    · exact (toInt64_of_atoi h0).symm
  rw [← hbk, hv, e1]
  exact h2

/-- The same for storing; the version is not part of what is stored. -/
theorem C85_asked_put_partial (c : AuthCfg) (f h m : Str) (bs : Option (Str × Str)) (r : Request) (p : Put)
    (henable : c.enable = true) (hw : c.white = []) (hnp : c.password = false) (hd : '.' ∉ h) (hp : OnlyName r)
    (hh : ∀ k ∈ ["Store".toList, "Compress".toList, "Name".toList], r.header k = none)
    (hq : ∀ k ∈ ["Name".toList, "Bucket".toList, "Hash".toList, "Body".toList], r.query k = none)
    (hpass : apiAuth c (authReq f h m bs r) = .pass) (hb : bindPut r = some p) :
    ∃ v, c.ask ⟨p.bucket, text (r.header "Region".toList), p.name, v, m⟩ = none := by
  obtain ⟨b, h1, h2⟩ := C65_same_bucket_partial c _ henable hw hnp (Or.inl hd) hpass
  obtain ⟨e1, _, e2, _, _⟩ := (C85_put_partial r hp hh hq p).1 hb
  have hbk : b = p.bucket := by
    unfold actsOn at h1
    split at h1
    · cases h1
    · cases h1; exact e2.symm
  rw [← hbk, e1]
  exact ⟨_, h2⟩

/-- **C85 fails**: whoever passes the authentication for one object can read every object of every bucket, and
the callback is asked the same question as before (whatever the header `Host`, unlike in C65). -/
theorem C85_reads_any (c : AuthCfg) (f h m : Str) (bs : Option (Str × Str)) (r : Request) (hp : OnlyName r)
    (h1 : r.header "Version".toList = none) (h3 : r.query "Range".toList = none) (p : Get) (hb : bindGet r = some p)
    (hpass : apiAuth c (authReq f h m bs r) = .pass) (n b : Str) (hn : n ≠ []) (hbn : b ≠ []) :
    ∃ r', apiAuth c (authReq f h m bs r') = .pass ∧ bindGet r' = some { p with name := n, bucket := b } ∧
      r'.param = r.param ∧ r'.header = r.header :=
  ⟨withQuery r [("Name".toList, n), ("Bucket".toList, b)], by rw [authReq_withQuery]; exact hpass,
    C85_get_elsewhere r hp h1 h3 p hb n b hn hbn, rfl, rfl⟩

/-- The same for storing. -/
theorem C85_writes_any (c : AuthCfg) (f h m : Str) (bs : Option (Str × Str)) (r : Request) (hp : OnlyName r)
    (h1 : r.header "Store".toList = none) (h2 : r.header "Compress".toList = none)
    (h3 : r.query "Body".toList = none) (p : Put) (hb : bindPut r = some p)
    (hpass : apiAuth c (authReq f h m bs r) = .pass) (n b d : Str) (hn : n ≠ []) (hbn : b ≠ []) (hd : d ≠ []) :
    ∃ r', apiAuth c (authReq f h m bs r') = .pass ∧
      bindPut r' = some { p with name := n, bucket := b, digest := d } ∧ r'.param = r.param ∧ r'.header = r.header :=
  ⟨withQuery r [("Name".toList, n), ("Bucket".toList, b), ("Hash".toList, d)], hpass,
    C85_put_elsewhere r hp h1 h2 h3 p hb n b d hn hbn hd, rfl, rfl⟩

/-! ## Cases -/

/-- A table as a function. -/
def table (l : List (Str × List Str)) (k : Str) : Option (List Str) := l.lookup k

/-- `GET /objects/x?version=3` with the headers `bucket: a` and `Range: bytes=0-9`. -/
def exGet : Request where
  param k := if k = "name".toList then some ['x'] else none
  header := table [(sBucket, [['a']]), ("Range".toList, ["bytes=0-9".toList])]
  query := table [("version".toList, [['3']])]

theorem exGet_name : OnlyName exGet := fun _ hk => if_neg hk

example : bindGet exGet = some ⟨['x'], ['a'], 3⟩ := by decide
example : (bindOne getType exGet .header [.str ['x'], .str [], .int 0, .other]).2 = true := by decide
example : bindGet { exGet with header := table [] } = none := by decide
example : bindGet { exGet with query := table [("version".toList, [['-', '1']])] } = none := by decide
example : bindGet { exGet with query := table [("version".toList, [['z']])] } = none := by decide
example : ∀ k ∈ ["Name".toList, "Version".toList], exGet.header k = none := by decide
example : ∀ k ∈ ["Name".toList, "Bucket".toList, "Range".toList], exGet.query k = none := by decide
example : bindMeta exGet = some ⟨['x'], ['a'], 3⟩ := by decide
example : apiAuth exCallback (authReq [] ['h'] ['G'] none exGet) = .pass := by decide

/-- A callback that allows the bucket `a` only, and a request that reads the bucket `b`. -/
theorem C85_bypass :
    apiAuth exCallback (authReq [] ['h'] ['G'] none (withQuery exGet [(sBucket, ['b'])])) = .pass ∧
    bindGet (withQuery exGet [(sBucket, ['b'])]) = some ⟨['x'], ['b'], 3⟩ ∧
    exCallback.ask ⟨['b'], [], ['x'], 3, ['G']⟩ ≠ none := by decide

/-- A version that is no number is not refused when metadata are read: the latest version is returned. -/
theorem C85_meta_version : bindMeta { exGet with query := table [("version".toList, ["1o".toList])] } =
    some ⟨['x'], ['a'], 0⟩ := by decide

/-- `GET /metadata/x/versions?page=1&page_size=10`. -/
def exVersions : Request where
  param := exGet.param
  header := table [(sBucket, [['a']])]
  query := table [("page".toList, [['1']]), ("page_size".toList, [['1', '0']])]

example : bindVersions exVersions = some (['x'], ['a'], 1, 10) := by decide
example : bindVersions { exVersions with query := table [("page".toList, [['z']]), ("page_size".toList, [['1']])] } = none := by
  decide

/-- `PUT /objects/x?compress=true&ss=2` with the headers `bucket: a` and `digest: d`. -/
def exPut : Request where
  param := exGet.param
  header := table [(sBucket, [['a']]), ("Digest".toList, [['d']])]
  query := table [("compress".toList, ["true".toList]), ("ss".toList, [['2']])]

example : bindPut exPut = some ⟨['x'], ['a'], ['d'], true, 2⟩ := by decide
example : bindPut { exPut with query := table [("compress".toList, ["yes".toList])] } = none := by decide
example : bindPut { exPut with query := table [("ss".toList, ["128".toList])] } = none := by decide
example : bindPut (withQuery exPut [(sName, ['y'])]) = some ⟨['y'], ['a'], ['d'], true, 2⟩ := by decide

/-- `POST /big/x?compress=true` with the headers `bucket: a`, `digest: d` and `size: 9`. -/
def exBig : Request where
  param := exGet.param
  header := table [(sBucket, [['a']]), ("Digest".toList, [['d']]), ("Size".toList, [['9']])]
  query := table [("compress".toList, ["true".toList])]

example : bindBig exBig = some ⟨['x'], ['a'], ['d'], 9, true⟩ := by decide

/-- What `PUT` refuses, a resumable upload takes for no: `compress=yes`.  And a negative size is accepted. -/
theorem C85_big_unreadable :
    bindBig { exBig with query := table [("compress".toList, ["yes".toList])] } = some ⟨['x'], ['a'], ['d'], 9, false⟩ ∧
    bindPut { exBig with query := table [("compress".toList, ["yes".toList])] } = none ∧
    bindBig { exBig with header := table [(sBucket, [['a']]), ("Digest".toList, [['d']]), ("Size".toList, [['-', '9']])] } =
      some ⟨['x'], ['a'], ['d'], -9, true⟩ := by decide

example : bindTemp exBig = some (['x'], 9) := by decide

/-- `PATCH /version/locate` with a JSON object. -/
def exLocate : Request where
  param _ := none
  header := table []
  query := table []
  body := some [("locate".toList, .str ['l']), ("hash".toList, .str ['h']), ("locateIndex".toList, .num 2)]

example : bindLocate exLocate = some (['h'], 2, ['l']) := by decide

/-- An index in quotes is not refused: the first place is overwritten. -/
theorem C85_locate_index :
    bindLocate { exLocate with body := some [("locate".toList, .str ['l']), ("hash".toList, .str ['h']),
      ("locateIndex".toList, .str ['2'])] } = some (['h'], 0, ['l']) := by decide

end Verif.Api.Bind
