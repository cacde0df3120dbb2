import Verif.Ui.Requests

/-! # The addresses that the web console builds (theorems): C118 -/

namespace Verif.Ui.Requests

open Verif Verif.Api.Bind Verif.Api.BucketHttp Verif.Object.Client Verif.Admin.Pages

/-! ## Specification -/

/-- A text that can be a segment of a path: without characters that have a meaning in an address. -/
structure Seg (n : Str) : Prop extends Fit n where
  back : '\\' ∉ n
  dot : n ≠ ['.']
  dotdot : n ≠ ['.', '.']

/-- A text that can be a value in a query. -/
structure Val (b : Str) : Prop where
  bytes : Bytewise b
  amp : '&' ∉ b
  semi : ';' ∉ b
  pct : '%' ∉ b
  plus : '+' ∉ b
  hash : '#' ∉ b

/-- The last character is not a blank. -/
def NoTrail (s : Str) : Prop := s.getLast? ≠ some ' '

/-- The requests whose texts stand in addresses as they are meant. -/
def Plain : Req → Prop
  | .download n b v => Seg n ∧ Val b ∧ NoTrail b ∧ Int64 v
  | .removeBucket n => Seg n ∧ NoTrail n
  | .join i => Seg i ∧ NoTrail i
  | .leave i => Seg i ∧ NoTrail i
  | .peers i => Val i ∧ NoTrail i ∧ i ≠ []
  | .config i => Val i ∧ NoTrail i
  | .objectConfig _ => False

/-- **C118**: the administration server understands what the user chose, for all names that are not empty. -/
def C118_statement : Prop :=
  ∀ (br : Browser) (r : Req),
    (match r with | .download n b v => n ≠ [] ∧ b ≠ [] ∧ Version v | .removeBucket n => n ≠ [] | _ => False) →
    understood br r = some r

/-! ## Lemmas -/

theorem encode_append (f : Char → Bool) (a b : Str) : encode f (a ++ b) = encode f a ++ encode f b := by
  induction a with
  | nil => rfl
  | cons c r ih =>
    simp only [List.cons_append, encode]
    split <;> simp [ih]

theorem encode_self {f : Char → Bool} {s : Str} (h : ∀ c ∈ s, f c = false) : encode f s = s := by
  induction s with
  | nil => rfl
  | cons c r ih =>
    rw [encode, h c List.mem_cons_self]
    simp [ih fun d hd => h d (List.mem_cons_of_mem _ hd)]

theorem mem_encode {f : Char → Bool} {s : Str} {c : Char} (h : c ∈ encode f s) (h1 : c ≠ '%') (h2 : c.isAlphanum = false) : c ∈ s := by
  induction s with
  | nil => exact h
  | cons d r ih =>
    unfold encode at h
    have hx : ∀ n : Nat, n < 16 → (hexDigit n).isAlphanum = true := by
      have : ∀ n : Fin 16, (hexDigit n.1).isAlphanum = true := by decide
      exact fun n hn => this ⟨n, hn⟩
    have hy : ∀ n : Nat, (hexDigit n).isAlphanum = true := by
      intro n
      by_cases hn : n < 16
      · exact hx n hn
      · have : hexDigit n = '0' := by
          unfold hexDigit
          rw [List.getD, List.getElem?_eq_none (by show 16 ≤ n; omega)]
          rfl
        rw [this]; decide
    split at h
    · rcases List.mem_cons.1 h with h | h
      · exact absurd h h1
      · rcases List.mem_cons.1 h with h | h
        · rw [h, hy] at h2; cases h2
        · rcases List.mem_cons.1 h with h | h
          · rw [h, hy] at h2; cases h2
          · exact List.mem_cons_of_mem _ (ih h)
    · rcases List.mem_cons.1 h with h | h
      · rw [h]; exact List.mem_cons_self
      · exact List.mem_cons_of_mem _ (ih h)

theorem unhex_alnum {c : Char} {n : Nat} (h : unhex c = some n) : c.isAlphanum = true := by
  unfold unhex at h
  simp only [Char.isAlphanum, Char.isAlpha, Char.isUpper, Char.isLower, Char.isDigit, Bool.or_eq_true, Bool.and_eq_true, decide_eq_true_eq]
  split at h
  · next h1 => exact .inr h1
  · split at h
    · next h1 => exact .inl (.inr ⟨h1.1, Nat.le_trans h1.2 (by decide)⟩)
    · split at h
      · next h1 => exact .inl (.inl ⟨h1.1, Nat.le_trans h1.2 (by decide)⟩)
      · cases h

/-- Escaping by the browser is undone, and what looks like an escape is still decoded. -/
theorem unescape_encode {q : Bool} {f : Char → Bool} (hf : ∀ c : Char, c.isAlphanum = true ∨ c = '%' → f c = false)
    (hq : q = true → f '+' = false) : ∀ (s : Str) (pos : Pos), Bytewise s →
    unescapeAt q pos (encode f s) = unescapeAt q pos s := by
  intro s
  induction s with
  | nil => intro pos _; rfl
  | cons c r ih =>
    intro pos hb
    have hr : Bytewise r := fun d hd => hb d (List.mem_cons_of_mem _ hd)
    have hc := hb c List.mem_cons_self
    unfold encode
    cases hfc : f c with
    | false =>
      simp only [Bool.false_eq_true, if_false]
      cases pos with
      | text =>
        unfold unescapeAt
        split
        · exact ih _ hr
        · rw [ih _ hr]
      | pct =>
        unfold unescapeAt
        cases unhex c with
        | none => rfl
        | some x => exact ih _ hr
      | digit x =>
        unfold unescapeAt
        cases unhex c with
        | none => rfl
        | some y => dsimp only; rw [ih _ hr]
    | true =>
      simp only [if_true]
      have hne : c ≠ '%' := by rintro rfl; rw [hf _ (.inr rfl)] at hfc; cases hfc
      have hno : unhex c = none := by
        cases hu : unhex c with
        | none => rfl
        | some n => rw [hf c (.inl (unhex_alnum hu))] at hfc; cases hfc
      cases pos with
      | text =>
        have hk : ∀ k : Fin 16, unhex (hexDigit k.1) = some k.1 := by decide
        have a := hk ⟨c.toNat / 16, by omega⟩
        have b := hk ⟨c.toNat % 16, by omega⟩
        dsimp only at a b
        have hp : (q && decide (c = '+')) = false := by
          cases q with
          | false => rfl
          | true =>
            rw [Bool.true_and, decide_eq_false_iff_not]
            rintro rfl
            rw [hq rfl] at hfc; cases hfc
        have e : Char.ofNat (16 * (c.toNat / 16) + c.toNat % 16) = c := by
          rw [show 16 * (c.toNat / 16) + c.toNat % 16 = c.toNat by omega]; simp
        show unescapeAt q .text ('%' :: hexDigit (c.toNat / 16) :: hexDigit (c.toNat % 16) :: encode f r) = unescapeAt q .text (c :: r)
        have e1 : unescapeAt q .text ('%' :: hexDigit (c.toNat / 16) :: hexDigit (c.toNat % 16) :: encode f r)
            = (unescapeAt q .text (encode f r)).map (Char.ofNat (16 * (c.toNat / 16) + c.toNat % 16) :: ·) := by
          rw [unescapeAt, if_pos rfl, unescapeAt, a]
          dsimp only
          rw [unescapeAt, b]
        have e2 : unescapeAt q .text (c :: r) = (unescapeAt q .text r).map (c :: ·) := by
          rw [unescapeAt, if_neg hne, hp]
          rfl
        rw [e1, e2, ih _ hr, e]
      | pct =>
        have : unhex '%' = none := by decide
        have e1 : ∀ (d : Char) (t : Str), unhex d = none → unescapeAt q .pct (d :: t) = none := by
          intro d t h; unfold unescapeAt; rw [h]
        rw [e1 _ _ this, e1 _ _ hno]
      | digit x =>
        have : unhex '%' = none := by decide
        have e1 : ∀ (d : Char) (t : Str), unhex d = none → unescapeAt q (.digit x) (d :: t) = none := by
          intro d t h; unfold unescapeAt; rw [h]
        rw [e1 _ _ this, e1 _ _ hno]

theorem path_undone (br : Browser) {s : Str} (hb : Bytewise s) : unescape false (encode br.pathEnc s) = unescape false s :=
  unescape_encode (fun c h => br.path_not c (h.imp id fun e => by simp [e])) (by intro h; cases h) s .text hb

theorem query_undone (br : Browser) {s : Str} (hb : Bytewise s) : unescape true (encode br.queryEnc s) = unescape true s :=
  unescape_encode (fun c h => br.query_not c (h.imp id fun e => by simp [e])) (fun _ => br.query_not _ (.inr (by simp))) s .text hb

theorem trimEnd_self {s : Str} (h : NoTrail s) : trimEnd s = s := by
  unfold trimEnd
  unfold NoTrail at h
  rw [List.getLast?_eq_head?_reverse] at h
  cases hr : s.reverse with
  | nil => rw [List.reverse_eq_nil_iff] at hr; rw [hr]; rfl
  | cons c t =>
    rw [hr] at h
    have hc : (c == ' ') = false := by
      rw [beq_eq_false_iff_ne]; rintro rfl; exact h rfl
    rw [List.dropWhile_cons, hc]
    simp only [Bool.false_eq_true, if_false]
    rw [← hr, List.reverse_reverse]

theorem noTrail_append {a b : Str} (hb : NoTrail b) (ha : b = [] → NoTrail a) : NoTrail (a ++ b) := by
  unfold NoTrail at *
  by_cases h : b = []
  · rw [h, List.append_nil]; exact ha h
  · cases hl : b.getLast? with
    | none => rw [List.getLast?_eq_none_iff] at hl; exact absurd hl h
    | some c => rw [List.getLast?_append, hl]; rw [hl] at hb; exact hb

theorem joinSegs_split (s : Str) : joinSegs (splitOn '/' s) = '/' :: s := by
  induction s with
  | nil => rfl
  | cons c r ih =>
    unfold splitOn
    split
    · next h =>
      show '/' :: ([] ++ joinSegs (splitOn '/' r)) = _
      rw [ih, h]; rfl
    · cases hs : splitOn '/' r with
      | nil => exact absurd hs (splitOn_ne_nil _ _)
      | cons a t =>
        rw [hs] at ih
        show '/' :: c :: (a ++ joinSegs t) = _
        have : '/' :: (a ++ joinSegs t) = '/' :: r := ih
        rw [(List.cons.inj this).2]

theorem dots_self : ∀ (l stack : List Str), (∀ s ∈ l, isDot s = false ∧ isDotDot s = false) → dots stack l = stack.reverse ++ l := by
  intro l
  induction l with
  | nil => intro stack _; simp [dots]
  | cons s rest ih =>
    intro stack h
    have h1 := h s List.mem_cons_self
    rw [dots, h1.1, h1.2]
    simp only [Bool.false_eq_true, if_false]
    rw [ih _ fun t ht => h t (List.mem_cons_of_mem _ ht)]
    simp

theorem slashes_self {s : Str} (h : '\\' ∉ s) : slashes s = s := by
  unfold slashes
  conv => rhs; rw [← List.map_id s]
  apply List.map_congr_left
  intro c hc
  rw [if_neg]
  · rfl
  · rintro rfl; exact h hc

/-- The fixed beginnings of the addresses: letters, `_` and slashes, no dots. -/
def Fixed (pre : Str) : Prop :=
  ∃ t, pre = '/' :: t ∧ (∀ c ∈ t, c.isAlphanum = true ∨ c = '/' ∨ c = '_')

theorem fixed_no {pre : Str} (h : Fixed pre) {c : Char} (h1 : c.isAlphanum = false) (h2 : c ≠ '/') (h3 : c ≠ '_') : c ∉ pre := by
  obtain ⟨t, rfl, ht⟩ := h
  intro hc
  rcases List.mem_cons.1 hc with h | h
  · exact h2 h
  · rcases ht c h with h | h | h
    · rw [h1] at h; cases h
    · exact h2 h
    · exact h3 h

theorem fixed_enc (br : Browser) {pre : Str} (h : Fixed pre) : encode br.pathEnc pre = pre := by
  obtain ⟨t, rfl, ht⟩ := h
  apply encode_self
  intro c hc
  rcases List.mem_cons.1 hc with h | h
  · exact br.path_not c (.inr (by simp [h]))
  · rcases ht c h with h | h | h
    · exact br.path_not c (.inl h)
    · exact br.path_not c (.inr (by simp [h]))
    · exact br.path_not c (.inr (by simp [h]))

theorem fixed_bytes {pre : Str} (h : Fixed pre) : Bytewise pre := by
  obtain ⟨t, rfl, ht⟩ := h
  intro c hc
  have key : ∀ c : Char, c.isAlphanum = true → c.toNat < 256 := by
    intro c h
    simp only [Char.isAlphanum, Char.isAlpha, Char.isUpper, Char.isLower, Char.isDigit, Bool.or_eq_true, Bool.and_eq_true, decide_eq_true_eq] at h
    have e : c.toNat = c.val.toNat := rfl
    rcases h with (h | h) | h
    · have := UInt32.le_iff_toNat_le.1 h.2; have : c.val.toNat ≤ 90 := this; omega
    · have := UInt32.le_iff_toNat_le.1 h.2; have : c.val.toNat ≤ 122 := this; omega
    · have := UInt32.le_iff_toNat_le.1 h.2; have : c.val.toNat ≤ 57 := this; omega
  rcases List.mem_cons.1 hc with h | h
  · rw [h]; decide
  · rcases ht c h with h | h | h
    · exact key c h
    · rw [h]; decide
    · rw [h]; decide

theorem alnum_range {c : Char} (h : c.isAlphanum = true) : 32 < c.toNat ∧ c.toNat ≤ 126 := by
  simp only [Char.isAlphanum, Char.isAlpha, Char.isUpper, Char.isLower, Char.isDigit, Bool.or_eq_true, Bool.and_eq_true, decide_eq_true_eq] at h
  have e : c.toNat = c.val.toNat := rfl
  rcases h with (h | h) | h
  · have a := UInt32.le_iff_toNat_le.1 h.1; have b := UInt32.le_iff_toNat_le.1 h.2
    have a : 65 ≤ c.val.toNat := a; have b : c.val.toNat ≤ 90 := b; omega
  · have a := UInt32.le_iff_toNat_le.1 h.1; have b := UInt32.le_iff_toNat_le.1 h.2
    have a : 97 ≤ c.val.toNat := a; have b : c.val.toNat ≤ 122 := b; omega
  · have a := UInt32.le_iff_toNat_le.1 h.1; have b := UInt32.le_iff_toNat_le.1 h.2
    have a : 48 ≤ c.val.toNat := a; have b : c.val.toNat ≤ 57 := b; omega

/-- Segments of a text without dots and percent signs are no dots. -/
theorem split_mem {sep : Char} : ∀ {s seg : Str} {c : Char}, seg ∈ splitOn sep s → c ∈ seg → c ∈ s := by
  intro s
  induction s with
  | nil => intro seg c h hc; rw [splitOn, List.mem_singleton] at h; rw [h] at hc; cases hc
  | cons d r ih =>
    intro seg c h hc
    unfold splitOn at h
    split at h
    · rcases List.mem_cons.1 h with h | h
      · rw [h] at hc; cases hc
      · exact List.mem_cons_of_mem _ (ih h hc)
    · cases hs : splitOn sep r with
      | nil => exact absurd hs (splitOn_ne_nil _ _)
      | cons a t =>
        rw [hs] at h
        rcases List.mem_cons.1 h with h | h
        · rw [h] at hc
          rcases List.mem_cons.1 hc with h' | h'
          · rw [h']; exact List.mem_cons_self
          · exact List.mem_cons_of_mem _ (ih (hs ▸ List.mem_cons_self) h')
        · exact List.mem_cons_of_mem _ (ih (hs ▸ List.mem_cons_of_mem _ h) hc)

theorem no_dots {s : Str} (h1 : '.' ∉ s) (h2 : '%' ∉ s) : isDot s = false ∧ isDotDot s = false := by
  have : unescape false s = some s := unescape_self h2 (by intro h; cases h)
  unfold isDot isDotDot
  rw [this]
  constructor
  · rw [beq_eq_false_iff_ne]; intro h; cases h; exact h1 (by simp)
  · rw [beq_eq_false_iff_ne]; intro h; cases h; exact h1 (by simp)

/-- A text without a slash is the last segment. -/
theorem split_last {sep : Char} : ∀ (t n : Str), sep ∉ n → t.getLast? = some sep → ∃ l, splitOn sep (t ++ n) = l ++ [n] ∧
    ∀ s ∈ l, ∀ c ∈ s, c ∈ t := by
  intro t
  induction t with
  | nil => intro n _ h; cases h
  | cons c r ih =>
    intro n hn hl
    by_cases hr : r = []
    · subst hr
      have : c = sep := by simpa using hl
      subst this
      refine ⟨[[]], ?_, ?_⟩
      · show splitOn c (c :: n) = _
        rw [splitOn, if_pos rfl, splitOn_of_not_mem hn]; rfl
      · intro s hs d hd
        rw [List.mem_singleton] at hs
        rw [hs] at hd; cases hd
    · have hl' : r.getLast? = some sep := by rwa [List.getLast?_cons_of_ne_nil hr] at hl
      obtain ⟨l, h1, h2⟩ := ih n hn hl'
      have hlne : l ≠ [] := by
        rintro rfl
        have hj : sep ∉ r ++ n := by
          intro hm
          cases hcut : cutOn sep (r ++ n) with
          | none => exact absurd hm (cutOn_none.1 hcut)
          | some p =>
            obtain ⟨e, hna⟩ := cutOn_some hcut
            rw [e, splitOn_append hna] at h1
            have := (List.cons.inj h1).2
            exact splitOn_ne_nil _ _ this
        exact hj (List.mem_append_left _ (List.mem_of_getLast? hl'))
      show ∃ l, splitOn sep (c :: (r ++ n)) = _ ∧ _
      unfold splitOn
      split
      · refine ⟨[] :: l, by rw [h1]; rfl, ?_⟩
        intro s hs d hd
        rcases List.mem_cons.1 hs with rfl | hs
        · cases hd
        · exact List.mem_cons_of_mem _ (h2 s hs d hd)
      · rw [h1]
        cases l with
        | nil => exact absurd rfl hlne
        | cons a l' =>
          refine ⟨(c :: a) :: l', rfl, ?_⟩
          intro s hs d hd
          rcases List.mem_cons.1 hs with rfl | hs
          · rcases List.mem_cons.1 hd with rfl | hd
            · exact List.mem_cons_self
            · exact List.mem_cons_of_mem _ (h2 a List.mem_cons_self d hd)
          · exact List.mem_cons_of_mem _ (h2 s (List.mem_cons_of_mem _ hs) d hd)

theorem trimEnd_append (x r : Str) {c : Char} (hc : c ≠ ' ') : trimEnd (x ++ c :: r) = x ++ c :: trimEnd r := by
  have key : ∀ l : Str, ((l ++ c :: x.reverse).dropWhile (· == ' ')) = (l.dropWhile (· == ' ')) ++ c :: x.reverse := by
    intro l
    induction l with
    | nil => simp [hc]
    | cons d t ih =>
      by_cases hd : d = ' '
      · simp [List.dropWhile_cons, hd, ih]
      · simp [List.dropWhile_cons, hd]
  unfold trimEnd
  rw [List.reverse_append, List.reverse_cons, List.append_assoc]
  show ((r.reverse ++ c :: x.reverse).dropWhile (· == ' ')).reverse = _
  rw [key]
  simp

theorem trimEnd_blanks {n : Str} (h : NoTrail n) (k : Nat) : trimEnd (n ++ List.replicate k ' ') = n := by
  have key : ∀ l : Str, (List.replicate k ' ' ++ l).dropWhile (· == ' ') = l.dropWhile (· == ' ') := by
    intro l
    induction k with
    | zero => rfl
    | succ k ih => rw [List.replicate_succ, List.cons_append, List.dropWhile_cons]; simpa using ih
  have := trimEnd_self h
  unfold trimEnd at *
  rw [List.reverse_append, List.reverse_replicate, key, this]

theorem encode_no {f : Char → Bool} {s : Str} {c : Char} (h : c ∉ s) (h1 : c ≠ '%') (h2 : c.isAlphanum = false) :
    c ∉ encode f s := fun hc => h (mem_encode hc h1 h2)

theorem mem_encode_of {f : Char → Bool} {s : Str} {c : Char} (h : c ∈ s) (hf : f c = false) : c ∈ encode f s := by
  induction s with
  | nil => cases h
  | cons d r ih =>
    unfold encode
    rcases List.mem_cons.1 h with h | h
    · subst h; rw [hf]; simp
    · split
      · simp [ih h]
      · exact List.mem_cons_of_mem _ (ih h)

/-! ## Lemmas: queries -/

theorem split_encode {f : Char → Bool} {sep : Char} (hf : f sep = false) (h1 : sep ≠ '%') (h2 : sep.isAlphanum = false) :
    ∀ (k : Nat) (s : Str), s.length ≤ k → splitOn sep (encode f s) = (splitOn sep s).map (encode f) := by
  intro k
  induction k with
  | zero => intro s hs; rw [List.length_eq_zero_iff.1 (Nat.le_zero.1 hs)]; rfl
  | succ k ih =>
    intro s hs
    cases hc : cutOn sep s with
    | none =>
      have hn := cutOn_none.1 hc
      rw [splitOn_of_not_mem hn, splitOn_of_not_mem (encode_no hn h1 h2)]; rfl
    | some p =>
      obtain ⟨e, hna⟩ := cutOn_some hc
      have e2 : encode f (p.1 ++ sep :: p.2) = encode f p.1 ++ sep :: encode f p.2 := by
        rw [encode_append]
        congr 1
        rw [encode, hf]; rfl
      rw [e, e2, splitOn_append hna, splitOn_append (encode_no hna h1 h2), ih p.2 ?_]
      · rfl
      · have := congrArg List.length e
        simp only [List.length_append, List.length_cons] at this
        omega

theorem cut_encode {f : Char → Bool} {sep : Char} (hf : f sep = false) (h1 : sep ≠ '%') (h2 : sep.isAlphanum = false)
    (s : Str) : cut sep (encode f s) = (encode f (cut sep s).1, encode f (cut sep s).2) := by
  cases hc : cutOn sep s with
  | none =>
    have hn := cutOn_none.1 hc
    rw [cut_self hn, cut_self (encode_no hn h1 h2)]; rfl
  | some p =>
    obtain ⟨e, hna⟩ := cutOn_some hc
    have e2 : encode f (p.1 ++ sep :: p.2) = encode f p.1 ++ sep :: encode f p.2 := by
      rw [encode_append]
      congr 1
      rw [encode, hf]; rfl
    rw [e, e2, cut_append hna, cut_append (encode_no hna h1 h2)]

theorem cut_mem (sep : Char) (s : Str) {c : Char} (h : c ∈ (cut sep s).1 ∨ c ∈ (cut sep s).2) : c ∈ s := by
  cases hc : cutOn sep s with
  | none =>
    rw [cut_self (cutOn_none.1 hc)] at h
    rcases h with h | h
    · exact h
    · cases h
  | some p =>
    obtain ⟨e, hna⟩ := cutOn_some hc
    rw [e, cut_append hna] at h
    rw [e]
    rcases h with h | h <;> simp [h]

/-- The browser does not change what a query says. -/
theorem pairs_encode (br : Browser) {s : Str} (hb : Bytewise s) : queryPairs (encode br.queryEnc s) = queryPairs s := by
  have no : ∀ c ∈ ['%', '&', '=', '+', ';', '-'], br.queryEnc c = false := fun c h => br.query_not c (.inr h)
  unfold queryPairs
  rw [split_encode (no _ (by decide)) (by decide) (by decide) _ s (Nat.le_refl _), List.filterMap_map]
  have key : ∀ l : List Str, (∀ p ∈ l, Bytewise p) →
      l.filterMap ((fun p => if p = [] ∨ ';' ∈ p then none else
        match unescape true (cut '=' p).1, unescape true (cut '=' p).2 with
        | some k, some v => some (k, v)
        | _, _ => none) ∘ encode br.queryEnc) =
      l.filterMap fun p => if p = [] ∨ ';' ∈ p then none else
        match unescape true (cut '=' p).1, unescape true (cut '=' p).2 with
        | some k, some v => some (k, v)
        | _, _ => none := by
    intro l hl
    induction l with
    | nil => rfl
    | cons p r ih =>
      have hp := hl p List.mem_cons_self
      have h1 : encode br.queryEnc p = [] ↔ p = [] := by
        cases p with
        | nil => simp [encode]
        | cons c t => unfold encode; split <;> simp
      have h2 : ';' ∈ encode br.queryEnc p ↔ ';' ∈ p :=
        ⟨fun h => mem_encode h (by decide) (by decide), fun h => mem_encode_of h (no _ (by decide))⟩
      rw [List.filterMap_cons, List.filterMap_cons, ih fun q hq => hl q (List.mem_cons_of_mem _ hq)]
      simp only [Function.comp_apply, h1, h2, cut_encode (no '=' (by decide)) (by decide) (by decide)]
      rw [query_undone br (s := (cut '=' p).1) fun c hc => hp c (cut_mem '=' p (.inl hc)),
        query_undone br (s := (cut '=' p).2) fun c hc => hp c (cut_mem '=' p (.inr hc))]
  exact key _ fun p hp c hc => hb c (split_mem hp hc)

theorem pairs_val {k v : Str} (hk : Tame k) (hv : Val v) : queryPairs (k ++ '=' :: v) = [(k, v)] := by
  unfold queryPairs
  rw [splitOn_of_not_mem (by simp [hk.amp, hv.amp]), List.filterMap_cons, if_neg (by simp [hk.semi, hv.semi]),
    cut_append hk.eq]
  simp only [unescape_self hk.pct (fun _ => hk.plus), unescape_self hv.pct (fun _ => hv.plus)]
  rfl

/-! ## Lemmas: paths -/

/-- The path that the routes of the administration server are matched with, by the path in the address. -/
def landed (br : Browser) (p : Str) : Option Str :=
  unescape false (joinSegs (dots [] (splitOn '/' ((encode br.pathEnc (slashes p)).drop 1))))

theorem landed_seg (br : Browser) {t n m : Str} (hp : Fixed ('/' :: t)) (he : t.getLast? = some '/') (hb : Bytewise n)
    (h1 : '/' ∉ n) (h2 : '\\' ∉ n) (hu : unescape false n = some m) (h3 : m ≠ ['.']) (h4 : m ≠ ['.', '.']) :
    landed br ('/' :: t ++ n) = some ('/' :: t ++ m) := by
  have hs : slashes ('/' :: t ++ n) = '/' :: t ++ n :=
    slashes_self (by
      intro h
      rcases List.mem_append.1 h with h | h
      · exact fixed_no hp (by decide) (by decide) (by decide) h
      · exact h2 h)
  have hE : encode br.pathEnc ('/' :: t ++ n) = '/' :: (t ++ encode br.pathEnc n) := by
    rw [encode_append, fixed_enc br hp]; rfl
  obtain ⟨l, hl1, hl2⟩ := split_last t (encode br.pathEnc n) (encode_no h1 (by decide) (by decide)) he
  have hno : ∀ c : Char, c.isAlphanum = false → c ≠ '/' → c ≠ '_' → c ∉ t := by
    intro c a b d h
    exact fixed_no hp a b d (List.mem_cons_of_mem _ h)
  have hd : ∀ s ∈ l ++ [encode br.pathEnc n], isDot s = false ∧ isDotDot s = false := by
    intro s hs
    rcases List.mem_append.1 hs with h | h
    · exact no_dots (fun hc => hno '.' (by decide) (by decide) (by decide) (hl2 s h _ hc))
        (fun hc => hno '%' (by decide) (by decide) (by decide) (hl2 s h _ hc))
    · rw [List.mem_singleton] at h
      rw [h]
      unfold isDot isDotDot
      rw [path_undone br hb, hu]
      exact ⟨by rw [beq_eq_false_iff_ne]; intro e; cases e; exact h3 rfl, by rw [beq_eq_false_iff_ne]; intro e; cases e; exact h4 rfl⟩
  unfold landed
  rw [hs, hE, List.drop_succ_cons, List.drop_zero, hl1, dots_self _ _ hd, List.reverse_nil, List.nil_append, ← hl1,
    joinSegs_split, ← hE, path_undone br (bytewise_append (fixed_bytes hp) hb)]
  exact unescape_prefix (fixed_no hp (by decide) (by decide) (by decide)) hu

theorem landed_fixed (br : Browser) {t : Str} (hp : Fixed ('/' :: t)) : landed br ('/' :: t) = some ('/' :: t) := by
  have hno : ∀ c : Char, c.isAlphanum = false → c ≠ '/' → c ≠ '_' → c ∉ ('/' :: t) := fun c a b d => fixed_no hp a b d
  have hd : ∀ s ∈ splitOn '/' t, isDot s = false ∧ isDotDot s = false := fun s hs =>
    no_dots (fun hc => hno '.' (by decide) (by decide) (by decide) (List.mem_cons_of_mem _ (split_mem hs hc)))
      (fun hc => hno '%' (by decide) (by decide) (by decide) (List.mem_cons_of_mem _ (split_mem hs hc)))
  unfold landed
  rw [slashes_self (hno _ (by decide) (by decide) (by decide)), fixed_enc br hp, List.drop_succ_cons, List.drop_zero,
    dots_self _ _ hd, List.reverse_nil, List.nil_append, joinSegs_split]
  exact unescape_self (hno _ (by decide) (by decide) (by decide)) (by intro h; cases h)

/-- What is understood, by path and query. -/
theorem understood_eq (br : Browser) (r : Req) {p q : Str}
    (h : cut '?' (cut '#' (trimEnd (url r).2)).1 = (p, q)) :
    understood br r = (landed br p).bind fun x => route (url r).1 x (encode br.queryEnc q) := by
  unfold understood browse landed
  simp only [h]
  cases unescape false (joinSegs (dots [] (splitOn '/' ((encode br.pathEnc (slashes p)).drop 1)))) <;> rfl

theorem fixed_pre : Fixed dlPre ∧ Fixed joinPre ∧ Fixed leavePre ∧ Fixed objCfgPre ∧ Fixed rmPre ∧ Fixed peersPath ∧ Fixed cfgPath := by
  refine ⟨⟨dlPre.tail, rfl, by decide⟩, ⟨joinPre.tail, rfl, by decide⟩, ⟨leavePre.tail, rfl, by decide⟩, ⟨objCfgPre.tail, rfl, by decide⟩,
    ⟨rmPre.tail, rfl, by decide⟩, ⟨peersPath.tail, rfl, by decide⟩, ⟨cfgPath.tail, rfl, by decide⟩⟩

theorem param_own {pre n : Str} (h1 : n ≠ []) (h2 : '/' ∉ n) : param pre (pre ++ n) = some n := by
  have a : hasPrefix (pre ++ n) pre = true := hasPrefix_append _ _
  have b : (pre ++ n).drop pre.length = n := List.drop_left
  unfold param
  simp only [a, b, h1, h2, or_self, if_true, if_false]

theorem param_slash {pre n : Str} (h2 : '/' ∈ n) : param pre (pre ++ n) = none := by
  have a : hasPrefix (pre ++ n) pre = true := hasPrefix_append _ _
  have b : (pre ++ n).drop pre.length = n := List.drop_left
  unfold param
  simp only [a, b, h2, or_true, if_true]

theorem param_objCfg (n : Str) : param objCfgPre (dlPre ++ n) = none := by
  have : hasPrefix (dlPre ++ n) objCfgPre = false := rfl
  unfold param; simp [this]

theorem param_dl (n : Str) : param dlPre (objCfgPre ++ n) = none := by
  have : hasPrefix (objCfgPre ++ n) dlPre = false := rfl
  unfold param; simp [this]

theorem param_join (n : Str) : param joinPre (leavePre ++ n) = none := by
  have : hasPrefix (leavePre ++ n) joinPre = false := rfl
  unfold param; simp [this]

/-- A route with a parameter, by the last segment of the address. -/
theorem reach (br : Browser) (r : Req) {pre n m q : Str} (hp : Fixed pre) (he : pre.tail.getLast? = some '/')
    (hc : cut '?' (cut '#' (trimEnd (url r).2)).1 = (pre ++ n, q)) (hb : Bytewise n) (h1 : '/' ∉ n) (h2 : '\\' ∉ n)
    (hu : unescape false n = some m) (h3 : m ≠ ['.']) (h4 : m ≠ ['.', '.']) :
    understood br r = route (url r).1 (pre ++ m) (encode br.queryEnc q) := by
  obtain ⟨t, rfl, ht⟩ := hp
  rw [understood_eq br r hc, landed_seg br ⟨t, rfl, ht⟩ he hb h1 h2 hu h3 h4]
  rfl

theorem reach_fixed (br : Browser) (r : Req) {pre q : Str} (hp : Fixed pre)
    (hc : cut '?' (cut '#' (trimEnd (url r).2)).1 = (pre, q)) :
    understood br r = route (url r).1 pre (encode br.queryEnc q) := by
  obtain ⟨t, rfl, ht⟩ := hp
  rw [understood_eq br r hc, landed_fixed br ⟨t, rfl, ht⟩]
  rfl

theorem fixed_char {pre : Str} (h : Fixed pre) : '?' ∉ pre ∧ '#' ∉ pre :=
  ⟨fixed_no h (by decide) (by decide) (by decide), fixed_no h (by decide) (by decide) (by decide)⟩

/-- An address without a query. -/
theorem cut_plain {pre n : Str} (hp : Fixed pre) (hq : '?' ∉ n) (hh : '#' ∉ n) (ht : NoTrail n) (hne : n ≠ []) :
    cut '?' (cut '#' (trimEnd (pre ++ n))).1 = (pre ++ n, []) := by
  obtain ⟨f1, f2⟩ := fixed_char hp
  have h1 : '#' ∉ pre ++ n := by simp [f2, hh]
  have h2 : '?' ∉ pre ++ n := by simp [f1, hq]
  rw [trimEnd_self (noTrail_append ht fun h => absurd h hne), cut_self h1, cut_self h2]

theorem cut_hash (w r : Str) {c : Char} (hw : '#' ∉ w) (hc : c ≠ '#') : (cut '#' (w ++ c :: r)).1 = w ++ c :: (cut '#' r).1 := by
  cases h : cutOn '#' r with
  | none =>
    have := cutOn_none.1 h
    have h2 : '#' ∉ w ++ c :: r := by simp [hw, this, Ne.symm hc]
    rw [cut_self this, cut_self h2]
  | some x =>
    obtain ⟨e, hn⟩ := cutOn_some h
    have : w ++ c :: (x.1 ++ '#' :: x.2) = (w ++ c :: x.1) ++ '#' :: x.2 := by simp
    rw [e, this, cut_append (by simp [hw, hn, Ne.symm hc]), cut_append hn]

/-- An address with a question mark. -/
theorem cut_query {w : Str} (r : Str) (h1 : '?' ∉ w) (h2 : '#' ∉ w) :
    cut '?' (cut '#' (trimEnd (w ++ '?' :: r))).1 = (w, (cut '#' (trimEnd r)).1) := by
  rw [trimEnd_append _ _ (by decide), cut_hash _ _ h2 (by decide)]
  exact cut_append h1

/-- An address with a number sign. -/
theorem cut_frag {w : Str} (r : Str) (h1 : '?' ∉ w) (h2 : '#' ∉ w) :
    cut '?' (cut '#' (trimEnd (w ++ '#' :: r))).1 = (w, []) := by
  rw [trimEnd_append _ _ (by decide), cut_append h2]
  exact cut_self h1

theorem route_delete {m q : Str} (h1 : m ≠ []) (h2 : '/' ∉ m) : route .delete (rmPre ++ m) q = some (.removeBucket m) := by
  unfold route
  simp only [param_own h1 h2, Option.map]

theorem route_download {m b raw : Str} {v : Int} (h1 : m ≠ []) (h2 : '/' ∉ m) (hn : allOf (queryPairs raw) sName = none)
    (hb : text (allOf (queryPairs raw) "bucket".toList) = b) (hv : MeansInt 64 (text (allOf (queryPairs raw) "version".toList)) v) :
    route .get (dlPre ++ m) raw = some (.download m b v) := by
  have hq := (C88_page ⟨fun k => if k = "name".toList then some m else none, fun _ => none, allOf (queryPairs raw), none⟩
    (fun k hk => if_neg hk) hn m b v).2 ⟨by simp, hb.symm, hv⟩
  unfold route
  simp only [param_own h1 h2, hq]

theorem seg_unescape {n : Str} (h : Seg n) : unescape false n = some n := unescape_self h.pct (by intro h; cases h)

theorem tame_bucket_lower : Tame "bucket".toList := by constructor <;> decide
theorem tame_serverId : Tame "serverId".toList := by constructor <;> decide

theorem bytes_lit {s : Str} (h : s.all (fun c => decide (c.toNat < 256)) = true) : Bytewise s := by
  intro c hc
  have := List.all_eq_true.1 h c hc
  exact of_decide_eq_true this

theorem bytes_fmtInt (z : Int) : Bytewise (fmtInt z) := by
  intro c hc
  have hd : c.isDigit = true ∨ c = '-' := by
    cases z with
    | ofNat n => exact Or.inl (fmtNat_isDigit hc)
    | negSucc n =>
      rcases List.mem_cons.1 hc with rfl | h
      · exact Or.inr rfl
      · exact Or.inl (fmtNat_isDigit h)
  rcases hd with h | h
  · simp only [Char.isDigit, Bool.and_eq_true, decide_eq_true_eq] at h
    have h2 : c.toNat ≤ 57 := h.2
    omega
  · subst h; decide

/-- The query of a download. -/
def dlQuery (b : Str) (v : Int) : Str := "version".toList ++ '=' :: (fmtInt v ++ '&' :: ("bucket".toList ++ '=' :: b))

theorem dlQuery_pairs {b : Str} {v : Int} (hb : Val b) :
    queryPairs (dlQuery b v) = [("version".toList, fmtInt v), ("bucket".toList, b)] := by
  unfold dlQuery
  rw [pairs_more tame_version (tame_fmtInt v), pairs_val tame_bucket_lower hb]

theorem dlQuery_bytes {b : Str} {v : Int} (hb : Bytewise b) : Bytewise (dlQuery b v) :=
  bytewise_append (a := "version".toList) (bytes_lit (by decide)) (bytewise_append (a := ['=']) (bytes_lit (by decide))
    (bytewise_append (bytes_fmtInt v) (bytewise_append (a := ['&']) (bytes_lit (by decide))
      (bytewise_append (a := "bucket".toList) (bytes_lit (by decide)) (bytewise_append (a := ['=']) (bytes_lit (by decide)) hb)))))

theorem download_url (n b : Str) (v : Int) : (url (.download n b v)).2 = (dlPre ++ n) ++ '?' :: dlQuery b v := by
  show dlPre ++ (n ++ ("?version=".toList ++ (fmtInt v ++ ("&bucket=".toList ++ b)))) = _
  unfold dlQuery
  simp

theorem dlQuery_end {b : Str} {v : Int} (hb : Val b) (ht : NoTrail b) : (cut '#' (trimEnd (dlQuery b v))).1 = dlQuery b v := by
  have e : dlQuery b v = ("version".toList ++ '=' :: (fmtInt v ++ '&' :: "bucket=".toList)) ++ b := by
    unfold dlQuery; simp
  have h1 : NoTrail (dlQuery b v) := by
    rw [e]
    refine noTrail_append ht fun _ => ?_
    have : "version".toList ++ '=' :: (fmtInt v ++ '&' :: "bucket=".toList) =
        ("version".toList ++ '=' :: (fmtInt v ++ '&' :: "bucket".toList)) ++ ['='] := by simp
    rw [this]
    exact noTrail_append (by unfold NoTrail; decide) fun h => by cases h
  have h2 : '#' ∉ dlQuery b v := by
    rw [e]
    have := (tame_fmtInt v).hash
    simp [this, hb.hash]
  rw [trimEnd_self h1, cut_self h2]

/-- The download of an object whose name decodes to `m`. -/
theorem download_eq (br : Browser) {n m b : Str} {v : Int} (hb : Bytewise n) (h1 : '/' ∉ n) (h2 : '\\' ∉ n) (hq : '?' ∉ n)
    (hh : '#' ∉ n) (hu : unescape false n = some m) (h3 : m ≠ ['.']) (h4 : m ≠ ['.', '.']) (hv : Val b) (ht : NoTrail b) :
    understood br (.download n b v) = route .get (dlPre ++ m) (encode br.queryEnc (dlQuery b v)) := by
  obtain ⟨f1, f2⟩ := fixed_char fixed_pre.1
  refine reach br _ fixed_pre.1 (by decide) ?_ hb h1 h2 hu h3 h4
  rw [download_url, cut_query _ (by simp [f1, hq]) (by simp [f2, hh]), dlQuery_end hv ht]

theorem download_route (br : Browser) {m b : Str} {v : Int} (h1 : m ≠ []) (h2 : '/' ∉ m) (hv : Val b) (hi : Int64 v) :
    route .get (dlPre ++ m) (encode br.queryEnc (dlQuery b v)) = some (.download m b v) := by
  have hp : queryPairs (encode br.queryEnc (dlQuery b v)) = [("version".toList, fmtInt v), ("bucket".toList, b)] := by
    rw [pairs_encode br (dlQuery_bytes hv.bytes), dlQuery_pairs hv]
  refine route_download h1 h2 ?_ ?_ ?_
  · rw [hp]
    rw [allOf_skip (by decide), allOf_skip (by decide), allOf_nil]
  · rw [hp, allOf_skip (by decide), allOf_one]; rfl
  · have : allOf [("version".toList, fmtInt v), ("bucket".toList, b)] "version".toList = some [fmtInt v] := by
      unfold allOf
      rw [List.filter_cons_of_pos (by simp), List.filter_cons_of_neg (by simp)]
      rfl
    rw [hp, this]
    exact (means_fmtInt hi v).2 rfl

/-- `serverId` in a query. -/
theorem serverId_eq (br : Browser) {i : Str} (hv : Val i) : serverId (encode br.queryEnc ("serverId".toList ++ '=' :: i)) = some i := by
  unfold serverId
  have hb : Bytewise ("serverId".toList ++ '=' :: i) :=
    bytewise_append (a := "serverId".toList) (bytes_lit (by decide)) (bytewise_append (a := ['=']) (bytes_lit (by decide)) hv.bytes)
  rw [pairs_encode br hb, pairs_val tame_serverId hv, allOf_one]
  rfl

theorem server_end {i : Str} (hv : Val i) (ht : NoTrail i) :
    (cut '#' (trimEnd ("serverId".toList ++ '=' :: i))).1 = "serverId".toList ++ '=' :: i := by
  have h1 : NoTrail ("serverId=".toList ++ i) := noTrail_append ht fun _ => by unfold NoTrail; decide
  have h2 : '#' ∉ "serverId=".toList ++ i := by simp [hv.hash]
  show (cut '#' (trimEnd ("serverId=".toList ++ i))).1 = _
  rw [trimEnd_self h1, cut_self h2]
  rfl

/-! ## Theorems -/

/-- **C118, partial**: the administration server understands what the user chose if the texts have none of the
characters with a meaning in addresses and do not end in a blank.  Missing: other texts, see below. -/
theorem C118_partial (br : Browser) {r : Req} (h : Plain r) : understood br r = some r := by
  cases r with
  | download n b v =>
    obtain ⟨hn, hb, ht, hv⟩ := h
    rw [download_eq br hn.bytes hn.slash hn.back hn.query hn.hash (seg_unescape hn) hn.dot hn.dotdot hb ht]
    exact download_route br hn.ne hn.slash hb hv
  | removeBucket n =>
    obtain ⟨hn, ht⟩ := h
    rw [reach br (.removeBucket n) fixed_pre.2.2.2.2.1 (by decide) (cut_plain fixed_pre.2.2.2.2.1 hn.query hn.hash ht hn.ne) hn.bytes hn.slash hn.back
      (seg_unescape hn) hn.dot hn.dotdot]
    exact route_delete hn.ne hn.slash
  | join n =>
    obtain ⟨hn, ht⟩ := h
    rw [reach br (.join n) fixed_pre.2.1 (by decide) (cut_plain fixed_pre.2.1 hn.query hn.hash ht hn.ne) hn.bytes hn.slash hn.back
      (seg_unescape hn) hn.dot hn.dotdot]
    show route .post (joinPre ++ n) _ = _
    unfold route
    simp only [param_own hn.ne hn.slash]
  | leave n =>
    obtain ⟨hn, ht⟩ := h
    rw [reach br (.leave n) fixed_pre.2.2.1 (by decide) (cut_plain fixed_pre.2.2.1 hn.query hn.hash ht hn.ne) hn.bytes hn.slash hn.back
      (seg_unescape hn) hn.dot hn.dotdot]
    show route .post (leavePre ++ n) _ = _
    unfold route
    simp only [param_own hn.ne hn.slash, param_join]
  | peers i =>
    obtain ⟨hv, ht, hne⟩ := h
    have f := fixed_pre.2.2.2.2.2.1
    obtain ⟨f1, f2⟩ := fixed_char f
    have hc : cut '?' (cut '#' (trimEnd (url (.peers i)).2)).1 = (peersPath, "serverId".toList ++ '=' :: i) := by
      show cut '?' (cut '#' (trimEnd (peersPath ++ '?' :: ("serverId".toList ++ '=' :: i)))).1 = _
      rw [cut_query _ f1 f2, server_end hv ht]
    rw [reach_fixed br _ f hc]
    have hp : param dlPre peersPath = none ∧ param objCfgPre peersPath = none := ⟨rfl, rfl⟩
    show route .get peersPath _ = _
    unfold route
    simp only [hp.1, hp.2, serverId_eq br hv, if_true]
    simp [Option.filter, hne]
  | config i =>
    obtain ⟨hv, ht⟩ := h
    have f := fixed_pre.2.2.2.2.2.2
    obtain ⟨f1, f2⟩ := fixed_char f
    have hc : cut '?' (cut '#' (trimEnd (url (.config i)).2)).1 = (cfgPath, "serverId".toList ++ '=' :: i) := by
      show cut '?' (cut '#' (trimEnd (cfgPath ++ '?' :: ("serverId".toList ++ '=' :: i)))).1 = _
      rw [cut_query _ f1 f2, server_end hv ht]
    rw [reach_fixed br _ f hc]
    have hp : param dlPre cfgPath = none ∧ param objCfgPre cfgPath = none := ⟨rfl, rfl⟩
    have hne : ¬ cfgPath = peersPath := by decide
    show route .get cfgPath _ = _
    unfold route
    simp only [hp.1, hp.2, serverId_eq br hv, if_neg hne, if_true, Option.map]
  | objectConfig i => exact absurd h id

/-- From the console to the API server: a download of a version asks for this version of this object. -/
theorem C118_download_partial (br : Browser) {n b token : Str} {v : Int} (hn : Seg n) (hb : Val b) (ht : NoTrail b) (hne : b ≠ [])
    (hv : Version v) : ∃ n' b' v', understood br (.download n b v) = some (.download n' b' v') ∧
      Admin.Pages.serve (Admin.Pages.ask token (.download n' b' v')) = some (.get ⟨n, b, v⟩) := by
  have hi : Int64 v := ⟨by have := hv.1; omega, by have := hv.2; omega⟩
  refine ⟨n, b, v, C118_partial br ⟨hn, hb, ht, hi⟩, ?_⟩
  rw [C88_download_partial hn.toFit _ _ hi, if_neg (by simp [hne, hv])]

/-- From the console to the stores: a deletion removes the bucket the user chose and nothing else. -/
theorem C118_delete_partial (br : Browser) {w : World} (hw : w.Healthy) {n : Str} (hn : Clean n) (h1 : '\\' ∉ n) (h2 : n ≠ ['.'])
    (h3 : n ≠ ['.', '.']) (ht : NoTrail n) {i : Nat} (ho : w.owner n = some i) :
    ∃ m, understood br (.removeBucket n) = some (.removeBucket m) ∧ (deletePage w m).1 = .ok ∧
      (∀ k, Meta.bucketsOf ((deletePage w m).2.store i) k = if k = n then none else Meta.bucketsOf (w.store i) k) ∧
      (∀ j, j ≠ i → (deletePage w m).2.store j = w.store j) :=
  ⟨n, C118_partial br ⟨{ toFit := Fit.of_clean hn, back := h1, dot := h2, dotdot := h3 }, ht⟩, C88_delete_partial hw hn ho⟩

/-- **C118 fails**: a name with escapes is taken for the name they stand for. -/
theorem C118_decoded (br : Browser) {n m : Str} (hb : Bytewise n) (h1 : '/' ∉ n) (h2 : '\\' ∉ n) (hq : '?' ∉ n) (hh : '#' ∉ n)
    (ht : NoTrail n) (hu : unescape false n = some m) (hne : m ≠ []) (hs : '/' ∉ m) (h3 : m ≠ ['.']) (h4 : m ≠ ['.', '.']) :
    understood br (.removeBucket n) = some (.removeBucket m) ∧
    ∀ b v, Val b → NoTrail b → Int64 v → understood br (.download n b v) = some (.download m b v) := by
  have hn : n ≠ [] := by rintro rfl; cases hu; exact hne rfl
  constructor
  · rw [reach br (.removeBucket n) fixed_pre.2.2.2.2.1 (by decide) (cut_plain fixed_pre.2.2.2.2.1 hq hh ht hn) hb h1 h2 hu h3 h4]
    exact route_delete hne hs
  · intro b v hv htb hi
    rw [download_eq br hb h1 h2 hq hh hu h3 h4 hv htb]
    exact download_route br hne hs hv hi

/-- **C118 fails**: an object whose name has an escaped slash cannot be downloaded; neither can its bucket be removed.
(The console stores a file with a slash in its name under such a name, C88_upload_renamed.) -/
theorem C118_slash (br : Browser) {n m : Str} (hb : Bytewise n) (h1 : '/' ∉ n) (h2 : '\\' ∉ n) (hq : '?' ∉ n) (hh : '#' ∉ n)
    (ht : NoTrail n) (hu : unescape false n = some m) (hs : '/' ∈ m) :
    understood br (.removeBucket n) = none ∧
    ∀ b v, Val b → NoTrail b → understood br (.download n b v) = none := by
  have hn : n ≠ [] := by rintro rfl; cases hu; cases hs
  have h3 : m ≠ ['.'] := by rintro rfl; revert hs; decide
  have h4 : m ≠ ['.', '.'] := by rintro rfl; revert hs; decide
  constructor
  · rw [reach br (.removeBucket n) fixed_pre.2.2.2.2.1 (by decide) (cut_plain fixed_pre.2.2.2.2.1 hq hh ht hn) hb h1 h2 hu h3 h4]
    show route .delete (rmPre ++ m) _ = none
    unfold route
    simp only [param_slash hs, Option.map]
  · intro b v hv htb
    rw [download_eq br hb h1 h2 hq hh hu h3 h4 hv htb]
    have e1 : dlPre ++ m ≠ peersPath := by intro e; have := congrArg (List.take 10) e; revert this; exact fun h => by cases h
    have e2 : dlPre ++ m ≠ cfgPath := by intro e; have := congrArg (List.take 10) e; revert this; exact fun h => by cases h
    unfold route
    simp only [param_slash hs, param_objCfg, if_neg e1, if_neg e2]

theorem encodedOk_plain {c : Char} (h : encodedOk c = true) : c.toNat < 256 ∧ c ≠ '\\' ∧ c ≠ ' ' := by
  refine ⟨?_, by rintro rfl; revert h; decide, by rintro rfl; revert h; decide⟩
  unfold encodedOk pathSafe at h
  simp only [Bool.or_eq_true] at h
  have lit : ∀ l : Str, (l.all fun d => decide (d.toNat < 256)) = true → l.contains c = true → c.toNat < 256 :=
    fun l hl hc => bytes_lit hl c (List.contains_iff_mem.1 hc)
  have aln : c.isAlphanum = true → c.toNat < 256 := by
    intro h
    exact fixed_bytes (pre := ['/', c]) ⟨[c], rfl, by simp [h]⟩ c (by simp)
  rcases h with h | h | h
  · exact lit _ (by decide) h
  · exact aln h
  · exact lit _ (by decide) h

/-- **C118 fails**: an object whose name is that of a file with a slash, as the administration server stores it, is
not found. -/
theorem C118_uploaded_slash (br : Browser) {n : Str} (hb : Bytewise n) (hs : '/' ∈ n) {token bucket digest : Str} (hd : digest ≠ [])
    (hk : bucket ≠ []) (hv : Val bucket) (htb : NoTrail bucket) (v : Int) :
    Admin.Pages.serve (Admin.Pages.ask token (.upload n bucket digest)) = some (.put ⟨escapeSeg n, bucket, digest, false, 0⟩) ∧
    understood br (.download (escapeSeg n) bucket v) = none := by
  obtain ⟨s1, s2, s3, s4, s5, _⟩ := escapeSeg_spec hb
  have ok := fun c hc => encodedOk_plain (List.all_eq_true.1 s2 c hc)
  refine ⟨?_, ?_⟩
  · rw [(C88_upload_renamed hb (.inl hs) token bucket digest hd).2, if_neg hk]
  · exact (C118_slash br (fun c hc => (ok c hc).1) s3 (fun h => (ok _ h).2.1 rfl) s4 s5
      (fun h => (ok _ (List.mem_of_getLast? h)).2.2 rfl) s1 hs).2 bucket v hv htb

/-- **C118 fails**: a file with `,` or `;` in its name is stored under its escaped name (C88_upload_renamed).  If the
user chooses that name in the list, the API server is asked for the name of the file instead. -/
theorem C118_uploaded_comma (br : Browser) {n : Str} (hn : Seg n) (hs : ',' ∈ n ∨ ';' ∈ n) {token bucket digest : Str} (hd : digest ≠ [])
    (hk : bucket ≠ []) (hv : Val bucket) (htb : NoTrail bucket) {v : Int} (hver : Version v) :
    ∃ stored, Admin.Pages.serve (Admin.Pages.ask token (.upload n bucket digest)) = some (.put ⟨stored, bucket, digest, false, 0⟩) ∧
      stored ≠ n ∧ understood br (.download stored bucket v) = some (.download n bucket v) ∧
      Admin.Pages.serve (Admin.Pages.ask token (.download n bucket v)) = some (.get ⟨n, bucket, v⟩) := by
  obtain ⟨s1, s2, s3, s4, s5, _⟩ := escapeSeg_spec hn.bytes
  have ok := fun c hc => encodedOk_plain (List.all_eq_true.1 s2 c hc)
  have up := C88_upload_renamed hn.bytes (.inr hs) token bucket digest hd
  have hi : Int64 v := ⟨by have := hver.1; omega, by have := hver.2; omega⟩
  refine ⟨escapeSeg n, ?_, up.1, ?_, ?_⟩
  · rw [up.2, if_neg hk]
  · exact (C118_decoded br (fun c hc => (ok c hc).1) s3 (fun h => (ok _ h).2.1 rfl) s4 s5
      (fun h => (ok _ (List.mem_of_getLast? h)).2.2 rfl) s1 hn.ne hn.slash hn.dot hn.dotdot).2 bucket v hv htb hi
  · rw [C88_download_partial hn.toFit _ _ hi, if_neg (by simp [hk, hver])]

/-- **C118 fails**: of a bucket name that goes on with `?` or `#`, only the part before it is read, and that bucket is
removed. -/
theorem C118_removes_other (br : Browser) {a r : Str} {c : Char} (hc : c = '?' ∨ c = '#') (ha : Seg a) :
    understood br (.removeBucket (a ++ c :: r)) = some (.removeBucket a) := by
  have f := fixed_pre.2.2.2.2.1
  obtain ⟨f1, f2⟩ := fixed_char f
  have e : (url (.removeBucket (a ++ c :: r))).2 = (rmPre ++ a) ++ c :: r := by
    show rmPre ++ (a ++ c :: r) = _
    rw [List.append_assoc]
  obtain ⟨q, hq⟩ : ∃ q, cut '?' (cut '#' (trimEnd (url (.removeBucket (a ++ c :: r))).2)).1 = (rmPre ++ a, q) := by
    rw [e]
    rcases hc with rfl | rfl
    · exact ⟨_, cut_query _ (by simp [f1, ha.query]) (by simp [f2, ha.hash])⟩
    · exact ⟨_, cut_frag _ (by simp [f1, ha.query]) (by simp [f2, ha.hash])⟩
  rw [reach br _ f (by decide) hq ha.bytes ha.slash ha.back (seg_unescape ha) ha.dot ha.dotdot]
  exact route_delete ha.ne ha.slash

/-- **C118 fails**: blanks at the end of a bucket name are lost, the bucket without them is removed. -/
theorem C118_blanks (br : Browser) {a : Str} (ha : Seg a) (ht : NoTrail a) (k : Nat) :
    understood br (.removeBucket (a ++ List.replicate k ' ')) = some (.removeBucket a) := by
  have f := fixed_pre.2.2.2.2.1
  obtain ⟨f1, f2⟩ := fixed_char f
  have e : (url (.removeBucket (a ++ List.replicate k ' '))).2 = (rmPre ++ a) ++ List.replicate k ' ' := by
    show rmPre ++ (a ++ List.replicate k ' ') = _
    rw [List.append_assoc]
  have hq : cut '?' (cut '#' (trimEnd (url (.removeBucket (a ++ List.replicate k ' '))).2)).1 = (rmPre ++ a, []) := by
    have h1 : '#' ∉ rmPre ++ a := by simp [f2, ha.hash]
    have h2 : '?' ∉ rmPre ++ a := by simp [f1, ha.query]
    rw [e, trimEnd_blanks (noTrail_append ht fun h => absurd h ha.ne), cut_self h1, cut_self h2]
  rw [reach br _ f (by decide) hq ha.bytes ha.slash ha.back (seg_unescape ha) ha.dot ha.dotdot]
  exact route_delete ha.ne ha.slash

/-- **C118 fails**: for a name that goes on with `?`, the latest version of the object named by the part before it is
downloaded, whatever version was chosen. -/
theorem C118_download_query (br : Browser) {a r b : Str} (ha : Seg a) (hr : Tame r) (hrb : Bytewise r) (hb : Val b) (ht : NoTrail b) (v : Int) :
    understood br (.download (a ++ '?' :: r) b v) = some (.download a b 0) := by
  have f := fixed_pre.1
  obtain ⟨f1, f2⟩ := fixed_char f
  have tv := tame_fmtInt v
  have tk : Tame (r ++ "?version".toList) := tame_append hr (by constructor <;> decide)
  have e : (url (.download (a ++ '?' :: r) b v)).2 = (dlPre ++ a) ++ '?' :: (r ++ '?' :: dlQuery b v) := by
    rw [download_url]; simp
  have e2 : r ++ '?' :: dlQuery b v = (r ++ "?version".toList) ++ '=' :: (fmtInt v ++ '&' :: ("bucket".toList ++ '=' :: b)) := by
    unfold dlQuery; simp
  have hq : cut '?' (cut '#' (trimEnd (url (.download (a ++ '?' :: r) b v)).2)).1 = (dlPre ++ a, r ++ '?' :: dlQuery b v) := by
    rw [e, cut_query _ (by simp [f1, ha.query]) (by simp [f2, ha.hash]), trimEnd_append _ _ (by decide), cut_hash _ _ hr.hash (by decide),
      dlQuery_end hb ht]
  have hB : Bytewise (r ++ '?' :: dlQuery b v) :=
    bytewise_append hrb (bytewise_append (a := ['?']) (bytes_lit (by decide)) (dlQuery_bytes hb.bytes))
  have hP : queryPairs (encode br.queryEnc (r ++ '?' :: dlQuery b v)) = [(r ++ "?version".toList, fmtInt v), ("bucket".toList, b)] := by
    rw [pairs_encode br hB, e2, pairs_more tk tv, pairs_val tame_bucket_lower hb]
  have hin : ∀ k : Str, '?' ∉ k → r ++ "?version".toList ≠ k := by
    intro k hk e
    exact hk (e ▸ by simp)
  rw [reach br _ f (by decide) hq ha.bytes ha.slash ha.back (seg_unescape ha) ha.dot ha.dotdot]
  refine route_download ha.ne ha.slash ?_ ?_ ?_
  · rw [hP, allOf_skip (hin _ (by decide)), allOf_skip (by decide), allOf_nil]
  · rw [hP, allOf_skip (hin _ (by decide)), allOf_one]; rfl
  · rw [hP, allOf_skip (hin _ (by decide)), allOf_skip (by decide), allOf_nil]
    exact .inl ⟨rfl, rfl⟩

/-- **C118 fails**: for a name that goes on with `#`, neither version nor bucket are read. -/
theorem C118_download_hash (br : Browser) {a r b : Str} (ha : Seg a) (v : Int) :
    understood br (.download (a ++ '#' :: r) b v) = some (.download a [] 0) := by
  have f := fixed_pre.1
  obtain ⟨f1, f2⟩ := fixed_char f
  have e : (url (.download (a ++ '#' :: r) b v)).2 = (dlPre ++ a) ++ '#' :: (r ++ '?' :: dlQuery b v) := by
    rw [download_url]; simp
  have hq : cut '?' (cut '#' (trimEnd (url (.download (a ++ '#' :: r) b v)).2)).1 = (dlPre ++ a, []) := by
    rw [e, cut_frag _ (by simp [f1, ha.query]) (by simp [f2, ha.hash])]
  rw [reach br _ f (by decide) hq ha.bytes ha.slash ha.back (seg_unescape ha) ha.dot ha.dotdot]
  exact route_download ha.ne ha.slash rfl rfl (.inl ⟨rfl, rfl⟩)

/-- **C118 fails**: of a bucket name with `&`, only the part before it is read; and the rest can name another object. -/
theorem C118_download_amp (br : Browser) {a n b : Str} {v : Int} (ha : Seg a) (hn : Tame n) (hnb : Bytewise n) (hb : Tame b) (hbb : Bytewise b)
    (hv : Int64 v) (hnn : n ≠ []) :
    understood br (.download a (b ++ '&' :: (sName ++ '=' :: n)) v) = some (.download n b v) := by
  have f := fixed_pre.1
  obtain ⟨f1, f2⟩ := fixed_char f
  have tv := tame_fmtInt v
  have hS : Bytewise (b ++ '&' :: (sName ++ '=' :: n)) :=
    bytewise_append hbb (bytewise_append (a := ['&']) (bytes_lit (by decide)) (bytewise_append (a := sName) (bytes_lit (by decide))
      (bytewise_append (a := ['=']) (bytes_lit (by decide)) hnb)))
  have hB := dlQuery_bytes (v := v) hS
  have e : dlQuery (b ++ '&' :: (sName ++ '=' :: n)) v =
      "version".toList ++ '=' :: (fmtInt v ++ '&' :: ("bucket".toList ++ '=' :: (b ++ '&' :: (sName ++ '=' :: n)))) := rfl
  have hP : queryPairs (encode br.queryEnc (dlQuery (b ++ '&' :: (sName ++ '=' :: n)) v)) =
      [("version".toList, fmtInt v), ("bucket".toList, b), (sName, n)] := by
    rw [pairs_encode br hB, e, pairs_more tame_version tv, pairs_more tame_bucket_lower hb, pairs_last tame_name hn]
  have hT : (cut '#' (trimEnd (dlQuery (b ++ '&' :: (sName ++ '=' :: n)) v))).1 = dlQuery (b ++ '&' :: (sName ++ '=' :: n)) v := by
    have e3 : dlQuery (b ++ '&' :: (sName ++ '=' :: n)) v =
        ("version".toList ++ '=' :: (fmtInt v ++ '&' :: ("bucket".toList ++ '=' :: (b ++ '&' :: (sName ++ ['=']))))) ++ n := by
      rw [e]; simp
    have h1 : NoTrail (dlQuery (b ++ '&' :: (sName ++ '=' :: n)) v) := by
      rw [e3]
      exact noTrail_append (fun h => hn.blank (List.mem_of_getLast? h)) fun h => absurd h hnn
    have h2 : '#' ∉ dlQuery (b ++ '&' :: (sName ++ '=' :: n)) v := by
      rw [e]
      have hs : '#' ∉ sName := by decide
      simp [tv.hash, hb.hash, hn.hash, hs]
    rw [trimEnd_self h1, cut_self h2]
  have hq : cut '?' (cut '#' (trimEnd (url (.download a (b ++ '&' :: (sName ++ '=' :: n)) v)).2)).1 =
      (dlPre ++ a, dlQuery (b ++ '&' :: (sName ++ '=' :: n)) v) := by
    rw [download_url, cut_query _ (by simp [f1, ha.query]) (by simp [f2, ha.hash]), hT]
  rw [reach br _ f (by decide) hq ha.bytes ha.slash ha.back (seg_unescape ha) ha.dot ha.dotdot]
  have hd := (C88_page_any ⟨fun k => if k = "name".toList then some a else none, fun _ => none,
    allOf [("version".toList, fmtInt v), ("bucket".toList, b), (sName, n)], none⟩ (fun k hk => if_neg hk) n b v).2
    ⟨by
      dsimp only
      rw [allOf_skip (by decide), allOf_skip (by decide), allOf_one]; rfl, by
      dsimp only
      rw [allOf_skip (by decide)]
      unfold allOf
      rw [List.filter_cons_of_pos (by simp), List.filter_cons_of_neg (by rw [decide_eq_true_eq]; dsimp only; decide)]
      rfl, by
      dsimp only
      have : allOf [("version".toList, fmtInt v), ("bucket".toList, b), (sName, n)] "version".toList = some [fmtInt v] := by
        unfold allOf
        rw [List.filter_cons_of_pos (by simp), List.filter_cons_of_neg (by simp), List.filter_cons_of_neg (by rw [decide_eq_true_eq]; dsimp only; decide)]
        rfl
      rw [this]
      exact (means_fmtInt hv v).2 rfl⟩
  show route .get (dlPre ++ a) _ = _
  unfold route
  simp only [param_own ha.ne ha.slash, hP, hd]

/-- **C118 fails**: a bucket with the name `.` or `..` cannot be removed with the console. -/
theorem C118_dots (br : Browser) : understood br (.removeBucket ['.']) = none ∧ understood br (.removeBucket ['.', '.']) = none := by
  have he : ∀ s : Str, (∀ c ∈ s, c.isAlphanum = true ∨ c ∈ ['%', '/', '.', '_', '-']) → encode br.pathEnc s = s :=
    fun s h => encode_self fun c hc => br.path_not c (h c hc)
  have l1 : landed br (rmPre ++ ['.']) = some rmPre := by
    unfold landed
    rw [show slashes (rmPre ++ ['.']) = rmPre ++ ['.'] from rfl, he _ (by decide)]
    rfl
  have l2 : landed br (rmPre ++ ['.', '.']) = some "/api/metadata/".toList := by
    unfold landed
    rw [show slashes (rmPre ++ ['.', '.']) = rmPre ++ ['.', '.'] from rfl, he _ (by decide)]
    rfl
  constructor
  · rw [understood_eq br _ (p := rmPre ++ ['.']) (q := []) rfl, l1]; rfl
  · rw [understood_eq br _ (p := rmPre ++ ['.', '.']) (q := []) rfl, l2]; rfl

/-- **C118 fails**: a name that goes up leads to other routes: what is shown as an object named `../config/…` answers
with the configuration of that server. -/
theorem C118_climb (br : Browser) {i b : Str} (hi : Seg i) (hb : Val b) (ht : NoTrail b) (v : Int) :
    understood br (.download ("../config/".toList ++ i) b v) = some (.objectConfig i) := by
  have he : ∀ s : Str, (∀ c ∈ s, c.isAlphanum = true ∨ c ∈ ['%', '/', '.', '_', '-']) → encode br.pathEnc s = s :=
    fun s h => encode_self fun c hc => br.path_not c (h c hc)
  obtain ⟨f1, f2⟩ := fixed_char fixed_pre.1
  have hn : dlPre ++ ("../config/".toList ++ i) = (dlPre ++ "../config/".toList) ++ i := by rw [List.append_assoc]
  have hs : slashes (dlPre ++ ("../config/".toList ++ i)) = dlPre ++ ("../config/".toList ++ i) := by
    apply slashes_self
    rw [hn]
    intro h
    rcases List.mem_append.1 h with h | h
    · revert h; decide
    · exact hi.back h
  have hE : encode br.pathEnc (dlPre ++ ("../config/".toList ++ i)) = dlPre ++ ("../config/".toList ++ encode br.pathEnc i) := by
    rw [hn, encode_append, he _ (by decide), List.append_assoc]
  have hx : '/' ∉ encode br.pathEnc i := encode_no hi.slash (by decide) (by decide)
  have hS : splitOn '/' ((dlPre ++ ("../config/".toList ++ encode br.pathEnc i)).drop 1) =
      ["api".toList, "objects".toList, "download".toList, "..".toList, "config".toList, encode br.pathEnc i] := by
    show splitOn '/' ("api".toList ++ '/' :: ("objects".toList ++ '/' :: ("download".toList ++ '/' :: ("..".toList ++ '/' ::
      ("config".toList ++ '/' :: encode br.pathEnc i))))) = _
    rw [splitOn_append (by decide), splitOn_append (by decide), splitOn_append (by decide), splitOn_append (by decide),
      splitOn_append (by decide), splitOn_of_not_mem hx]
  have hd : isDot (encode br.pathEnc i) = false ∧ isDotDot (encode br.pathEnc i) = false := by
    unfold isDot isDotDot
    rw [path_undone br hi.bytes, seg_unescape hi]
    exact ⟨by rw [beq_eq_false_iff_ne]; intro e; cases e; exact hi.dot rfl, by rw [beq_eq_false_iff_ne]; intro e; cases e; exact hi.dotdot rfl⟩
  have hD : dots [] ["api".toList, "objects".toList, "download".toList, "..".toList, "config".toList, encode br.pathEnc i] =
      ["api".toList, "objects".toList, "config".toList, encode br.pathEnc i] := by
    show dots ["config".toList, "objects".toList, "api".toList] [encode br.pathEnc i] = _
    unfold dots
    rw [hd.1, hd.2]
    rfl
  have hL : landed br (dlPre ++ ("../config/".toList ++ i)) = some (objCfgPre ++ i) := by
    unfold landed
    rw [hs, hE, hS, hD]
    have : joinSegs ["api".toList, "objects".toList, "config".toList, encode br.pathEnc i] = objCfgPre ++ encode br.pathEnc i := by
      show _ ++ (_ ++ (_ ++ (_ ++ []))) = _
      rw [List.append_nil]; rfl
    rw [this]
    exact unescape_prefix (by decide) (by rw [path_undone br hi.bytes, seg_unescape hi])
  have hq : cut '?' (cut '#' (trimEnd (url (.download ("../config/".toList ++ i) b v)).2)).1 =
      (dlPre ++ ("../config/".toList ++ i), dlQuery b v) := by
    rw [download_url, cut_query _ (by simp [f1, hi.query]) (by simp [f2, hi.hash]), dlQuery_end hb ht]
  rw [understood_eq br _ hq, hL]
  show route .get (objCfgPre ++ i) _ = _
  unfold route
  simp only [param_dl, param_own hi.ne hi.slash]

/-! ## Cases -/

/-- The characters that current browsers escape (the sets of the URL standard). -/
def browser : Browser where
  pathEnc c := decide (c.toNat ≤ 32) || decide (126 < c.toNat) || ['"', '#', '<', '>', '?', '^', '`', '{', '}'].contains c
  queryEnc c := decide (c.toNat ≤ 32) || decide (126 < c.toNat) || ['"', '#', '<', '>', '\''].contains c
  path_must c h := by rcases h with h | h <;> simp [h]
  path_not c h := by
    have key : (32 < c.toNat ∧ c.toNat ≤ 126) ∧ c ∉ ['"', '#', '<', '>', '?', '^', '`', '{', '}'] := by
      rcases h with h | h
      · refine ⟨alnum_range h, fun hc => ?_⟩
        simp only [List.mem_cons, List.not_mem_nil, or_false] at hc
        rcases hc with rfl | rfl | rfl | rfl | rfl | rfl | rfl | rfl | rfl <;> revert h <;> decide
      · simp only [List.mem_cons, List.not_mem_nil, or_false] at h
        rcases h with rfl | rfl | rfl | rfl | rfl <;> decide
    have h1 : ['"', '#', '<', '>', '?', '^', '`', '{', '}'].contains c = false := by
      rw [Bool.eq_false_iff]; intro h; exact key.2 (List.contains_iff_mem.1 h)
    rw [h1, Bool.or_false, Bool.or_eq_false_iff, decide_eq_false_iff_not, decide_eq_false_iff_not]
    omega
  query_must c h := by rcases h with h | h <;> simp [h]
  query_not c h := by
    have key : (32 < c.toNat ∧ c.toNat ≤ 126) ∧ c ∉ ['"', '#', '<', '>', '\''] := by
      rcases h with h | h
      · refine ⟨alnum_range h, fun hc => ?_⟩
        simp only [List.mem_cons, List.not_mem_nil, or_false] at hc
        rcases hc with rfl | rfl | rfl | rfl | rfl <;> revert h <;> decide
      · simp only [List.mem_cons, List.not_mem_nil, or_false] at h
        rcases h with rfl | rfl | rfl | rfl | rfl | rfl <;> decide
    have h1 : ['"', '#', '<', '>', '\''].contains c = false := by
      rw [Bool.eq_false_iff]; intro h; exact key.2 (List.contains_iff_mem.1 h)
    rw [h1, Bool.or_false, Bool.or_eq_false_iff, decide_eq_false_iff_not, decide_eq_false_iff_not]
    omega

theorem seg_ab : Seg "a b.é".toList :=
  { bytes := bytes_lit (by decide), ne := by decide, slash := by decide, query := by decide, hash := by decide, pct := by decide,
    ctl := by decide, back := by decide, dot := by decide, dotdot := by decide }

theorem seg_a : Seg ['a'] :=
  { bytes := bytes_lit (by decide), ne := by decide, slash := by decide, query := by decide, hash := by decide, pct := by decide,
    ctl := by decide, back := by decide, dot := by decide, dotdot := by decide }

theorem val_b : Val "b=1 2".toList :=
  { bytes := bytes_lit (by decide), amp := by decide, semi := by decide, pct := by decide, plus := by decide, hash := by decide }

example : browse browser (url (.download "a b.é".toList "b=1 2".toList 7)).2 =
    ("/api/objects/download/a%20b.%E9".toList, "version=7&bucket=b=1%202".toList) := by decide

/-- The hypotheses of C118_partial hold for names with blanks, dots and letters beyond ASCII. -/
example : understood browser (.download "a b.é".toList "b=1 2".toList 7) = some (.download "a b.é".toList "b=1 2".toList 7) :=
  C118_partial browser ⟨seg_ab, val_b, by unfold NoTrail; decide, by constructor <;> decide⟩

example : understood browser (.config "d1".toList) = some (.config "d1".toList) := by decide
example : understood browser (.leave "d1".toList) = some (.leave "d1".toList) := by decide

/-- An escape: `%61` is `a`. -/
example : understood browser (.removeBucket "%61".toList) = some (.removeBucket ['a']) :=
  (C118_decoded browser (bytes_lit (by decide)) (by decide) (by decide) (by decide) (by decide) (by unfold NoTrail; decide) rfl
    (by decide) (by decide) (by decide) (by decide)).1

example : understood browser (.removeBucket ("a b.é".toList ++ '?' :: ['x'])) = some (.removeBucket "a b.é".toList) :=
  C118_removes_other browser (.inl rfl) seg_ab
example : understood browser (.removeBucket ("a b.é".toList ++ List.replicate 2 ' ')) = some (.removeBucket "a b.é".toList) :=
  C118_blanks browser seg_ab (by unfold NoTrail; decide) 2
example : understood browser (.removeBucket "a?b".toList) = some (.removeBucket ['a']) := by decide
example : understood browser (.removeBucket "a  ".toList) = some (.removeBucket ['a']) := by decide
example : understood browser (.download "a?b".toList "b=1 2".toList 7) = some (.download ['a'] "b=1 2".toList 0) := by decide
example : understood browser (.download "a".toList "b&Name=c".toList 7) = some (.download "c".toList "b".toList 7) := by decide
example : understood browser (.download "../config/d1".toList "b".toList 7) = some (.objectConfig "d1".toList) := by decide
example : understood browser (.download "x%2Fy".toList "b".toList 7) = none := by decide

/-- The file `a,b` is listed as `a%2Cb`, and that cannot be downloaded. -/
example : ∃ stored, stored ≠ "a,b".toList ∧ understood browser (.download stored "b=1 2".toList 1) = some (.download "a,b".toList "b=1 2".toList 1) :=
  let ⟨x, _, h2, h3, _⟩ := C118_uploaded_comma browser (n := "a,b".toList) (token := []) (digest := ['d'])
    { bytes := bytes_lit (by decide), ne := by decide, slash := by decide, query := by decide, hash := by decide, pct := by decide,
      ctl := by decide, back := by decide, dot := by decide, dotdot := by decide }
    (.inl (by decide)) (by decide) (by decide) val_b (by unfold NoTrail; decide) (v := 1) (by decide)
  ⟨x, h2, h3⟩

/-- A deletion in a cluster with the buckets of C84's examples. -/
example : ∃ m, understood browser (.removeBucket "a b".toList) = some (.removeBucket m) ∧ (deletePage sampleWorld m).1 = .ok :=
  let ⟨m, h1, h2, _⟩ := C118_delete_partial browser sampleWorld_healthy clean_ab (by decide) (by decide) (by decide)
    (by unfold NoTrail; decide) (i := 0) rfl
  ⟨m, h1, h2⟩

/-- **C118 does not hold**: the user removes the bucket `%61`, and the bucket `a` is removed. -/
theorem C118_statement_fails : ¬ C118_statement := by
  intro h
  have := h browser (.removeBucket "%61".toList) (by decide)
  revert this
  decide

end Verif.Ui.Requests
