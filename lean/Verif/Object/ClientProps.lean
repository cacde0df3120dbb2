import Verif.Object.Client
import Verif.Api.BindProps
import Verif.Api.BucketHttpProps

/-! # Requests of the API server to the data servers (theorems): C86 -/

namespace Verif.Object.Client

open Verif Verif.Api.Bind Verif.Api.BucketHttp

/-! ## Specification -/

/-- A name of letters, digits and the marks that have no meaning in a URL. -/
structure Plain (n : Str) : Prop where
  ne : n ≠ []
  safe : ∀ c ∈ n, pathSafe c = true
  slash : '/' ∉ n

/-- The name a call is about. -/
def Call.name : Call → Str
  | .postTmp n _ | .patchTmp n | .headTmp n | .getTmp n _ | .putTmp n _ | .deleteTmp n
  | .getObject n _ _ _ | .headObject n | .putObject n _ | .deleteObject n => n

/-- A number of 64 bits. -/
def Int64 (z : Int) : Prop := -(2 ^ 63 : Int) ≤ z ∧ z < 2 ^ 63

/-- The numbers of a call are Go numbers; offsets are not negative (get_stream.go:46-48). -/
def Call.Typed : Call → Prop
  | .postTmp _ z => Int64 z
  | .getTmp _ z => Int64 z
  | .getObject _ off z _ => 0 ≤ off ∧ Int64 off ∧ Int64 z
  | _ => True

/-- What a data server has to refuse: it stores nothing of size 0, and reads no 0 bytes. -/
def Call.Senseless : Call → Prop
  | .postTmp _ z => z = 0
  | .getTmp _ z => z ≤ 0
  | .getObject _ _ z _ => z = 0
  | _ => False

/-! ## Lemmas -/

theorem atoi_fmtInt {z : Int} (h : Int64 z) : atoi (fmtInt z) = some z := by
  cases z with
  | ofNat n => exact atoi_fmtNat (by have := h.2; simp only [Int.ofNat_eq_natCast] at this; omega)
  | negSucc n =>
    have h1 : n + 1 ≤ 2 ^ 63 := by have := h.1; omega
    simp only [fmtInt, atoi, Verif.parseDigits_fmtNat, if_pos h1]
    rfl

theorem fmtInt_ne (z : Int) : fmtInt z ≠ [] := by
  cases z with
  | ofNat n => exact fmtNat_ne_nil n
  | negSucc n => simp [fmtInt]

theorem means_fmtInt {z : Int} (h : Int64 z) (z' : Int) : MeansInt 64 (fmtInt z) z' ↔ z' = z := by
  unfold MeansInt
  rw [atoi_fmtInt h]
  constructor
  · rintro (⟨h1, _⟩ | ⟨h1, _⟩)
    · exact absurd h1 (fmtInt_ne z)
    · cases h1; rfl
  · rintro rfl
    exact Or.inr ⟨rfl, h.1, h.2⟩

theorem set_fmtInt {z : Int} (h : Int64 z) (l : List Str) : setVal (.int 64) (fmtInt z :: l) = some (.int z) :=
  (setVal_int 64 _ _).2 ⟨z, rfl, (means_fmtInt h z).2 rfl⟩

theorem set_str (a : Str) (l : List Str) : setVal .str (a :: l) = some (.str a) := rfl

theorem set_fmtBool (c : Bool) (l : List Str) : setVal .bool (Api.fmtBool c :: l) = some (.bool c) := by
  cases c <;> rfl

theorem safe_no_pct {c : Char} (h : pathSafe c = true) : c ≠ '%' := by rintro rfl; revert h; decide

theorem hasCtl_safe {s : Str} (h : ∀ c ∈ s, pathSafe c = true) : hasCtl s = false := by
  unfold hasCtl
  rw [List.any_eq_false]
  intro c hc
  obtain ⟨_, _, h3, h4⟩ := pathSafe_no (h c hc)
  simp [h3, h4]

theorem setPath_safe {s : Str} (h : ∀ c ∈ s, pathSafe c = true) : setPath s = some (s, []) := by
  have h1 : unescape false s = some s :=
    unescape_self (fun hp => safe_no_pct (h _ hp) rfl) (by intro h; cases h)
  simp [setPath, h1, escapePath_self h]

/-- A URL of a safe path and a query. -/
theorem transmit_safe (m : Method) {p : Str} (h : ∀ c ∈ p, pathSafe c = true) (hd : List (Str × Str)) (q : Str)
    (hq : hasCtl q = false) (hf : '#' ∉ q) :
    transmit ⟨m, p ++ '?' :: q, hd⟩ = some (p, q) := by
  have n1 : '#' ∉ p := fun hc => (pathSafe_no (h _ hc)).2.1 rfl
  have n2 : '?' ∉ p := fun hc => (pathSafe_no (h _ hc)).1 rfl
  have c1 : hasCtl (p ++ '?' :: q) = false := by
    rw [hasCtl_append, hasCtl_safe h]
    simp only [hasCtl] at hq
    simp [hasCtl, hq]
  have c2 : cut '#' (p ++ '?' :: q) = (p ++ '?' :: q, []) := cut_self (by simp [n1, hf])
  have c3 : cut '?' (p ++ '?' :: q) = (p, q) := cut_append n2
  have u0 : unescape false [] = some [] := rfl
  unfold transmit
  simp only [c1, c2, c3, u0, setPath_safe h, Bool.false_eq_true, ↓reduceIte, escapedPath, ne_eq, not_true_eq_false,
    false_and, escapePath_self h, Option.map_some]

theorem transmit_plain (m : Method) {p : Str} (h : ∀ c ∈ p, pathSafe c = true) (hd : List (Str × Str)) :
    transmit ⟨m, p, hd⟩ = some (p, []) := by
  have n1 : '#' ∉ p := fun hc => (pathSafe_no (h _ hc)).2.1 rfl
  have n2 : '?' ∉ p := fun hc => (pathSafe_no (h _ hc)).1 rfl
  have u0 : unescape false [] = some [] := rfl
  unfold transmit
  simp only [hasCtl_safe h, cut_self n1, cut_self n2, u0, setPath_safe h, Bool.false_eq_true, ↓reduceIte, escapedPath,
    ne_eq, not_true_eq_false, false_and, escapePath_self h, Option.map_some]

theorem pre_safe : (∀ c ∈ tempPre, pathSafe c = true) ∧ (∀ c ∈ objPre, pathSafe c = true) := by decide

theorem join_safe {a b : Str} (ha : ∀ c ∈ a, pathSafe c = true) (hb : ∀ c ∈ b, pathSafe c = true) :
    ∀ c ∈ a ++ b, pathSafe c = true := by
  intro c hc
  rcases List.mem_append.1 hc with h | h
  · exact ha c h
  · exact hb c h

theorem param_own {pre n : Str} (h : Plain n) : param pre (pre ++ n) = some n := by
  unfold param
  simp [hasPrefix_append, h.ne, h.slash]

theorem param_temp_obj (n : Str) : param tempPre (objPre ++ n) = none := by
  have : hasPrefix (objPre ++ n) tempPre = false := rfl
  simp [param, this]

theorem pairs_compress (c : Bool) : queryPairs ("compress=".toList ++ Api.fmtBool c) =
    [("compress".toList, Api.fmtBool c)] := by cases c <;> decide

theorem query_split (c : Bool) : compressQuery c = '?' :: ("compress=".toList ++ Api.fmtBool c) := rfl

theorem query_ok (c : Bool) : hasCtl ("compress=".toList ++ Api.fmtBool c) = false ∧
    '#' ∉ "compress=".toList ++ Api.fmtBool c := by cases c <;> decide

theorem transmit_temp {n : Str} (h : Plain n) (m : Method) (hd : List (Str × Str)) :
    transmit ⟨m, tempPre ++ n, hd⟩ = some (tempPre ++ n, []) :=
  transmit_plain m (join_safe pre_safe.1 h.safe) hd

theorem transmit_obj {n : Str} (h : Plain n) (m : Method) (hd : List (Str × Str)) :
    transmit ⟨m, objPre ++ n, hd⟩ = some (objPre ++ n, []) :=
  transmit_plain m (join_safe pre_safe.2 h.safe) hd

theorem transmit_query {pre n : Str} (hp : ∀ c ∈ pre, pathSafe c = true) (h : Plain n) (m : Method)
    (hd : List (Str × Str)) (c : Bool) :
    transmit ⟨m, pre ++ (n ++ compressQuery c), hd⟩ = some (pre ++ n, "compress=".toList ++ Api.fmtBool c) := by
  rw [query_split, ← List.append_assoc]
  exact transmit_safe m (join_safe hp h.safe) hd _ (query_ok c).1 (query_ok c).2

theorem offset_read {off : Int} (h0 : 0 ≤ off) (h : Int64 off) :
    Range.convertFrom ("bytes=".toList ++ (fmtInt off ++ ['-'])) = some [(off, 0)] := by
  obtain ⟨n, rfl⟩ := Int.eq_ofNat_of_zero_le h0
  have hn : n < 2 ^ 63 := by have := h.2; omega
  have := Range.C57_intervals [(0, n, none)] (by simp) (by simp [hn])
  exact this

theorem only_name (w : Wire) (n raw : Str) : OnlyName (request w n raw) := fun k hk => if_neg hk

theorem read_post (m : Method) (t n raw : Str) {z : Int} (h : Int64 z) (hn : n ≠ []) :
    tempPost (request ⟨m, t, [("Size".toList, fmtInt z)]⟩ n raw) = if z = 0 then none else some (.postTmp n z) := by
  have key := C85_temp (request ⟨m, t, [("Size".toList, fmtInt z)]⟩ n raw) (only_name _ _ _) n rfl
  have ht : text ((request ⟨m, t, [("Size".toList, fmtInt z)]⟩ n raw).header "Size".toList) = fmtInt z := rfl
  rw [ht] at key
  unfold tempPost
  by_cases h0 : z = 0
  · rw [if_pos h0]
    cases hb : bindTemp (request ⟨m, t, [("Size".toList, fmtInt z)]⟩ n raw) with
    | none => rfl
    | some p =>
      obtain ⟨_, _, h3, h4⟩ := (key p.1 p.2).1 hb
      rw [means_fmtInt h] at h3
      exact absurd (h3.trans h0) h4
  · rw [if_neg h0, (key n z).2 ⟨rfl, hn, (means_fmtInt h z).2 rfl, h0⟩]
    rfl

theorem read_commit (m : Method) (t n : Str) (hd : List (Str × Str)) (c : Bool) :
    tempPut (request ⟨m, t, hd⟩ n ("compress=".toList ++ Api.fmtBool c)) = some (.putTmp n c) := by
  cases c <;> rfl

theorem read_store (m : Method) (t n : Str) (hd : List (Str × Str)) (c : Bool) :
    objectPut (request ⟨m, t, hd⟩ n ("compress=".toList ++ Api.fmtBool c)) = some (.putObject n c) := by
  cases c <;> rfl

theorem read_temp (m : Method) (t n raw : Str) {z : Int} (h : Int64 z) (hn : n ≠ []) :
    tempGet (request ⟨m, t, [("Size".toList, fmtInt z)]⟩ n raw) = if 1 ≤ z then some (.getTmp n z) else none := by
  have hb : bind tempGetType [.uri, .header] (request ⟨m, t, [("Size".toList, fmtInt z)]⟩ n raw) =
      some [.str n, .int z] := by
    generalize hr : request ⟨m, t, [("Size".toList, fmtInt z)]⟩ n raw = r
    have a1 : r.header (canon "Name".toList) = none := by subst hr; rfl
    have a2 : r.header (canon "size".toList) = some [fmtInt z] := by subst hr; rfl
    have U : (bindOne tempGetType r .uri (tempGetType.map fun f => zero f.kind)).1 = [.str n, .int 0] := by
      subst hr; rfl
    have H : bindOne tempGetType r .header [.str n, .int 0] = ([.str n, .int z], false) := by
      simp only [bindOne, tempGetType, mapFields_cons, mapFields_nil, key, values, Option.getD, sName, a1, a2,
        fails_none, fails, upd, set_fmtInt h, Option.isNone_some, if_neg Bool.false_ne_true, validate, ruleOk, zero]
      simp [hn]
    have : bind tempGetType [.uri, .header] r =
        if (bindOne tempGetType r .header (bindOne tempGetType r .uri (tempGetType.map fun f => zero f.kind)).1).2 then none
        else some (bindOne tempGetType r .header (bindOne tempGetType r .uri (tempGetType.map fun f => zero f.kind)).1).1 := rfl
    rw [this, U, H]
    rfl
  unfold tempGet
  rw [hb]

theorem read_load (m : Method) (t n : Str) {off z : Int} (ho : 0 ≤ off) (ho' : Int64 off) (h : Int64 z) (c : Bool) :
    objectGet (request ⟨m, t, [("Range".toList, "bytes=".toList ++ (fmtInt off ++ ['-'])), ("Size".toList, fmtInt z)]⟩ n
        ("compress=".toList ++ Api.fmtBool c)) = if z = 0 then none else some (.getObject n off z c) := by
  have hrd := offset_read ho ho'
  generalize "bytes=".toList ++ (fmtInt off ++ ['-']) = rg at *
  generalize hr : request ⟨m, t, [("Range".toList, rg), ("Size".toList, fmtInt z)]⟩ n
        ("compress=".toList ++ Api.fmtBool c) = r
  have a1 : r.header (canon "Name".toList) = none := by subst hr; rfl
  have a2 : r.header (canon "size".toList) = some [fmtInt z] := by subst hr; rfl
  have a3 : r.header (canon "range".toList) = some [rg] := by subst hr; rfl
  have a4 : r.header (canon "Compress".toList) = none := by subst hr; rfl
  have U : (bindOne loadType r .uri (loadType.map fun f => zero f.kind)).1 = [.str n, .str [], .int 0, .bool false] := by
    subst hr; rfl
  have Q : (bindOne loadType r .query [.str n, .str [], .int 0, .bool false]).1 = [.str n, .str [], .int 0, .bool c] := by
    subst hr; cases c <;> rfl
  have H : bindOne loadType r .header [.str n, .str [], .int 0, .bool c] =
      ([.str n, .str rg, .int z, .bool c], decide (z = 0)) := by
    simp only [bindOne, loadType, mapFields_cons, mapFields_nil, key, values, Option.getD, sName, a1, a2, a3, a4,
      fails_none, upd_none, fails_str, upd_str, fails, upd, set_fmtInt h, set_str, Option.isNone_some, if_neg Bool.false_ne_true, validate,
      ruleOk, zero, pick, List.headD]
    by_cases h0 : z = 0 <;> simp [h0]
  have hb : bind loadType loadOrder r =
      if decide (z = 0) = true then none else some [.str n, .str rg, .int z, .bool c] := by
    unfold loadOrder
    rw [bind3, U, Q, H]
  unfold objectGet
  rw [hb]
  by_cases h0 : z = 0
  · simp [h0]
  · simp [h0, hrd]

/-- **C86** A request for an object without a range asks for it from its first byte. -/
theorem C86_without_range (m : Method) (t n : Str) {z : Int} (h : Int64 z) (hz : z ≠ 0) (c : Bool) :
    objectGet (request ⟨m, t, [("Size".toList, fmtInt z)]⟩ n ("compress=".toList ++ Api.fmtBool c)) =
      some (.getObject n 0 z c) := by
  generalize hr : request ⟨m, t, [("Size".toList, fmtInt z)]⟩ n ("compress=".toList ++ Api.fmtBool c) = r
  have a1 : r.header (canon "Name".toList) = none := by subst hr; rfl
  have a2 : r.header (canon "size".toList) = some [fmtInt z] := by subst hr; rfl
  have a3 : r.header (canon "range".toList) = none := by subst hr; rfl
  have a4 : r.header (canon "Compress".toList) = none := by subst hr; rfl
  have U : (bindOne loadType r .uri (loadType.map fun f => zero f.kind)).1 = [.str n, .str [], .int 0, .bool false] := by
    subst hr; rfl
  have Q : (bindOne loadType r .query [.str n, .str [], .int 0, .bool false]).1 = [.str n, .str [], .int 0, .bool c] := by
    subst hr; cases c <;> rfl
  have H : bindOne loadType r .header [.str n, .str [], .int 0, .bool c] =
      ([.str n, .str [], .int z, .bool c], decide (z = 0)) := by
    simp only [bindOne, loadType, mapFields_cons, mapFields_nil, key, values, Option.getD, sName, a1, a2, a3, a4,
      fails_none, upd_none, fails, upd, set_fmtInt h, Option.isNone_some, if_neg Bool.false_ne_true, validate,
      ruleOk, zero, pick, List.headD]
    simp [hz]
  have hb : bind loadType loadOrder r = some [.str n, .str [], .int z, .bool c] := by
    unfold loadOrder
    rw [bind3, U, Q, H]
    simp [hz]
  unfold objectGet
  rw [hb]
  rfl

example : objectGet (request ⟨.get, [], [("Size".toList, "7".toList)]⟩ "o".toList "compress=false".toList) =
    some (.getObject "o".toList 0 7 false) := by decide

/-! ## C86 -/

/-- **C86** A data server refuses a senseless request, and understands every other request of the API server exactly
as it was meant: the operation, the name, the size, the offset and the flag. -/
theorem C86_understood (k : Call) (hn : Plain k.name) (ht : k.Typed) :
    (k.Senseless → serve (ask k) = none) ∧ (¬ k.Senseless → serve (ask k) = some k) := by
  unfold serve
  cases k with
  | postTmp n z =>
    have hn : Plain n := hn
    simp only [ask, transmit_temp hn, param_own hn, read_post _ _ _ _ ht hn.ne, Call.Senseless]
    exact ⟨fun h => if_pos h, fun h => if_neg h⟩
  | patchTmp n =>
    have hn : Plain n := hn
    simp only [ask, transmit_temp hn, param_own hn, Call.Senseless]
    exact ⟨fun h => h.elim, fun _ => trivial⟩
  | headTmp n =>
    have hn : Plain n := hn
    simp only [ask, transmit_temp hn, param_own hn, Call.Senseless]
    exact ⟨fun h => h.elim, fun _ => trivial⟩
  | getTmp n z =>
    have hn : Plain n := hn
    simp only [ask, transmit_temp hn, param_own hn, read_temp _ _ _ _ ht hn.ne, Call.Senseless]
    exact ⟨fun h => if_neg (by omega), fun h => if_pos (by omega)⟩
  | putTmp n c =>
    have hn : Plain n := hn
    simp only [ask, transmit_query pre_safe.1 hn, param_own hn, read_commit, Call.Senseless]
    exact ⟨fun h => h.elim, fun _ => trivial⟩
  | deleteTmp n =>
    have hn : Plain n := hn
    simp only [ask, transmit_temp hn, param_own hn, Call.Senseless]
    exact ⟨fun h => h.elim, fun _ => trivial⟩
  | getObject n off z c =>
    have hn : Plain n := hn
    simp only [ask, transmit_query pre_safe.2 hn, param_temp_obj, param_own hn,
      read_load _ _ _ ht.1 ht.2.1 ht.2.2, Call.Senseless]
    exact ⟨fun h => if_pos h, fun h => if_neg h⟩
  | headObject n =>
    have hn : Plain n := hn
    simp only [ask, transmit_obj hn, param_temp_obj, param_own hn, Call.Senseless]
    exact ⟨fun h => h.elim, fun _ => trivial⟩
  | putObject n c =>
    have hn : Plain n := hn
    simp only [ask, transmit_query pre_safe.2 hn, param_temp_obj, param_own hn, read_store, Call.Senseless]
    exact ⟨fun h => h.elim, fun _ => trivial⟩
  | deleteObject n =>
    have hn : Plain n := hn
    simp only [ask, transmit_obj hn, param_temp_obj, param_own hn, Call.Senseless]
    exact ⟨fun h => h.elim, fun _ => trivial⟩

/-- Whatever a data server does for a request of the API server is what was asked for. -/
theorem C86_never_other (k k' : Call) (hn : Plain k.name) (ht : k.Typed) (h : serve (ask k) = some k') : k' = k := by
  obtain ⟨h1, h2⟩ := C86_understood k hn ht
  by_cases hs : k.Senseless
  · rw [h1 hs] at h; cases h
  · rw [h2 hs] at h; cases h; rfl

/-- Different requests of the API server are different on the wire. -/
theorem C86_distinct (k k' : Call) (hn : Plain k.name) (hn' : Plain k'.name) (ht : k.Typed) (ht' : k'.Typed)
    (hs : ¬ k.Senseless) (hs' : ¬ k'.Senseless) (h : ask k = ask k') : k = k' := by
  have h1 := (C86_understood k hn ht).2 hs
  have h2 := (C86_understood k' hn' ht').2 hs'
  rw [h, h2] at h1
  cases h1; rfl

theorem plain_of {n : Str} (h : n ≠ []) (hs : ∀ c ∈ n, (c.isAlphanum || "-_.".toList.contains c) = true) : Plain n := by
  refine ⟨h, fun c hc => ?_, fun hc => ?_⟩
  · have := hs c hc
    unfold pathSafe
    rw [Bool.or_eq_true] at *
    rcases this with h | h
    · exact Or.inl h
    · refine Or.inr ?_
      have : ∀ d ∈ "-_.".toList, "-_.~$&+,/:;=@".toList.contains d = true := by decide
      exact this c (List.contains_iff_mem.1 h)
  · have := hs _ hc
    revert this; decide

/-- The names of shards are plain: digests are hexadecimal. -/
theorem C86_shard_names (hash : Str) (i : Nat) (hh : ∀ c ∈ hash, c.isAlphanum = true) : Plain (shardName hash i) := by
  refine plain_of (by simp [shardName]) fun c hc => ?_
  rcases List.mem_append.1 hc with h | h
  · simp [hh c h]
  · rcases List.mem_cons.1 h with rfl | h
    · decide
    · have := fmtNat_isDigit h
      simp [Char.isAlphanum, this]

/-- So are the identifiers of temporary objects: `TempInfo_` and a UUID. -/
theorem C86_temp_ids (uuid : Str) (hu : ∀ c ∈ uuid, c.isAlphanum = true ∨ c = '-') :
    Plain ("TempInfo_".toList ++ uuid) := by
  refine plain_of (by simp) fun c hc => ?_
  rcases List.mem_append.1 hc with h | h
  · have : ∀ d ∈ "TempInfo_".toList, (d.isAlphanum || "-_.".toList.contains d) = true := by decide
    exact this c h
  · rcases hu c h with h | rfl
    · simp [h]
    · decide

/-- Different shards have different names. -/
theorem C86_shard_names_differ (h h' : Str) (i j : Nat) (e : shardName h i = shardName h' j) : h = h' ∧ i = j := by
  unfold shardName at e
  have key : ∀ (a b x y : Str), '.' ∉ x → '.' ∉ y → a ++ '.' :: x = b ++ '.' :: y → a = b ∧ x = y := by
    intro a
    induction a with
    | nil =>
      intro b x y hx hy he
      cases b with
      | nil => simp at he; exact ⟨rfl, he⟩
      | cons d b =>
        simp only [List.nil_append, List.cons_append, List.cons.injEq] at he
        exact absurd (by rw [he.2]; simp) hx
    | cons d a ih =>
      intro b x y hx hy he
      cases b with
      | nil =>
        simp only [List.nil_append, List.cons_append, List.cons.injEq] at he
        exact absurd (by rw [← he.2]; simp) hy
      | cons f b =>
        simp only [List.cons_append, List.cons.injEq] at he
        obtain ⟨h1, h2⟩ := ih b x y hx hy he.2
        exact ⟨by rw [he.1, h1], h2⟩
  have hd : ∀ n, '.' ∉ fmtNat n := fun n => fmtNat_not_mem (by decide)
  obtain ⟨h1, h2⟩ := key h h' _ _ (hd i) (hd j) e
  exact ⟨h1, fmtNat_inj h2⟩

/-- The size of an upload arrives at the API server as the data server wrote it. -/
theorem C86_size_header (z : Int) (h : Int64 z) : readSize (fmtInt z) = some z := by
  unfold readSize parseInt
  rw [if_neg (fmtInt_ne z), atoi_fmtInt h]
  exact if_pos ⟨h.1, h.2⟩

/-! ### Cases -/

def exHash : Str := "9f86d0".toList

example : Plain (shardName exHash 5) := C86_shard_names _ _ (by decide)
example : Plain "TempInfo_0b-1c".toList := C86_temp_ids "0b-1c".toList (by decide)
example : (ask (.getObject (shardName exHash 5) 4096 16384 true)).target = "/objects/9f86d0.5?compress=true".toList ∧
    (ask (.getObject (shardName exHash 5) 4096 16384 true)).header =
      [("Range".toList, "bytes=4096-".toList), ("Size".toList, "16384".toList)] := by decide
example : serve (ask (.getObject (shardName exHash 5) 4096 16384 true)) =
    some (.getObject (shardName exHash 5) 4096 16384 true) := by decide
example : Call.Typed (.getObject (shardName exHash 5) 4096 16384 true) := by
  refine ⟨by decide, ⟨by decide, by decide⟩, by decide, by decide⟩
example : serve (ask (.postTmp (shardName exHash 0) 0)) = none := by decide

/-- Names that are not plain are taken apart by the data server.  The identifiers in the token of a resumable upload
come back from the client, so this happens: here the upload `b` is committed without compression, and `a` is not. -/
theorem C86_other_name :
    serve (ask (.putTmp "a?ID=b#".toList true)) = some (.putTmp ['b'] false) ∧
    serve (ask (.putTmp "a%2fb".toList true)) = none ∧
    serve (ask (.headTmp "a%62".toList)) = some (.headTmp ['a', 'b']) := by
  decide

end Verif.Object.Client
