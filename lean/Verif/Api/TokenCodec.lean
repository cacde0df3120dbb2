import Verif.Api.TokenProps

/-!
# A codec for tokens

The theorems about resume tokens hold for every `Codec`.  This one shows that there are codecs: a number `n` is
written as `n` letters `A` and a `B`.  It is not the code's (base64 and gob), which is not part of the repository.
-/

namespace Verif.Api.Token

open Verif

abbrev Parser (α : Type) := Str → Option (α × Str)

/-- `d` reads back what `e` writes, whatever follows. -/
def Reads {α : Type} (e : α → Str) (d : Parser α) : Prop := ∀ x r, d (e x ++ r) = some (x, r)

def encNat (n : Nat) : Str := List.replicate n 'A' ++ ['B']

def decNat : Parser Nat
  | [] => none
  | c :: r => if c = 'B' then some (0, r) else (decNat r).map fun x => (x.1 + 1, x.2)

theorem reads_nat : Reads encNat decNat := by
  intro n r
  induction n with
  | zero => rfl
  | succ n ih =>
    have : encNat (n + 1) ++ r = 'A' :: (encNat n ++ r) := rfl
    rw [this]
    unfold decNat
    rw [if_neg (by decide), ih]
    rfl

/-- A parser whose result is transformed. -/
def Parser.map {α β : Type} (f : α → β) (d : Parser α) : Parser β := fun s => (d s).map fun x => (f x.1, x.2)

theorem reads_map {α β : Type} {e : α → Str} {d : Parser α} (h : Reads e d) (f : α → β) (g : β → α)
    (hfg : ∀ b, f (g b) = b) : Reads (fun b => e (g b)) (d.map f) := by
  intro b r
  simp [Parser.map, h (g b) r, hfg]

def Parser.pair {α β : Type} (d : Parser α) (d' : Parser β) : Parser (α × β) := fun s =>
  match d s with
  | none => none
  | some (a, r) => (d' r).map fun x => ((a, x.1), x.2)

theorem reads_pair {α β : Type} {e : α → Str} {d : Parser α} {e' : β → Str} {d' : Parser β} (h : Reads e d)
    (h' : Reads e' d') : Reads (fun p : α × β => e p.1 ++ e' p.2) (d.pair d') := by
  intro p r
  unfold Parser.pair
  rw [List.append_assoc, h p.1 (e' p.2 ++ r)]
  dsimp only
  rw [h' p.2 r]
  rfl

def Parser.times {α : Type} (d : Parser α) : Nat → Parser (List α)
  | 0 => fun s => some ([], s)
  | n + 1 => fun s =>
    match d s with
    | none => none
    | some (a, r) => (Parser.times d n r).map fun x => (a :: x.1, x.2)

def encList {α : Type} (e : α → Str) (l : List α) : Str := encNat l.length ++ l.flatMap e

def Parser.list {α : Type} (d : Parser α) : Parser (List α) := fun s =>
  match decNat s with
  | none => none
  | some (n, r) => Parser.times d n r

theorem reads_list {α : Type} {e : α → Str} {d : Parser α} (h : Reads e d) : Reads (encList e) d.list := by
  intro l r
  unfold Parser.list encList
  rw [List.append_assoc, reads_nat]
  dsimp only
  induction l with
  | nil => rfl
  | cons a l ih =>
    rw [List.flatMap_cons, List.append_assoc, List.length_cons]
    unfold Parser.times
    rw [h]
    dsimp only
    rw [ih]
    rfl

def encStr (s : Str) : Str := encList (fun c : Char => encNat c.toNat) s
def decStr : Parser Str := (decNat.map Char.ofNat).list

theorem reads_str : Reads encStr decStr :=
  reads_list (reads_map reads_nat Char.ofNat Char.toNat Char.ofNat_toNat)

def encInt (i : Int) : Str := encNat (match i with | .ofNat n => 2 * n | .negSucc n => 2 * n + 1)
def decInt : Parser Int := decNat.map fun n => if n % 2 = 0 then .ofNat (n / 2) else .negSucc (n / 2)

theorem reads_int : Reads encInt decInt := by
  refine reads_map reads_nat _ (fun i : Int => match i with | .ofNat n => 2 * n | .negSucc n => 2 * n + 1) ?_
  intro i
  cases i with
  | ofNat n =>
    dsimp only
    rw [if_pos (by omega)]
    congr 1; omega
  | negSucc n =>
    dsimp only
    rw [if_neg (by omega)]
    congr 1; omega

/-- The fields of a token: the flag as a number, the configuration as a list. -/
abbrev Parts := (Nat × Int) × (Str × Str × Str) × (List Str × List Str) × List (Int × Int × Int)

def toParts (t : Tok) : Parts :=
  ((if t.compress then 1 else 0, t.size), (t.name, t.hash, t.bucket), (t.servers, t.ids),
    match t.conf with | none => [] | some c => [(c.ds, c.ps, c.bps)])

def ofParts (p : Parts) : Tok :=
  ⟨p.1.1 = 1, p.1.2, p.2.1.1, p.2.1.2.1, p.2.1.2.2, p.2.2.1.1, p.2.2.1.2,
    match p.2.2.2 with | [] => none | c :: _ => some ⟨c.1, c.2.1, c.2.2⟩⟩

theorem ofParts_toParts (t : Tok) : ofParts (toParts t) = t := by
  obtain ⟨compress, size, name, hash, bucket, servers, ids, conf⟩ := t
  cases compress <;> cases conf <;> rfl

def encParts (p : Parts) : Str :=
  (encNat p.1.1 ++ encInt p.1.2) ++ ((encStr p.2.1.1 ++ (encStr p.2.1.2.1 ++ encStr p.2.1.2.2)) ++
    ((encList encStr p.2.2.1.1 ++ encList encStr p.2.2.1.2) ++
      encList (fun q : Int × Int × Int => encInt q.1 ++ (encInt q.2.1 ++ encInt q.2.2)) p.2.2.2))

def decParts : Parser Parts :=
  (decNat.pair decInt).pair ((decStr.pair (decStr.pair decStr)).pair
    ((decStr.list.pair decStr.list).pair (decInt.pair (decInt.pair decInt)).list))

theorem reads_parts : Reads encParts decParts :=
  reads_pair (reads_pair reads_nat reads_int) (reads_pair (reads_pair reads_str (reads_pair reads_str reads_str))
    (reads_pair (reads_pair (reads_list reads_str) (reads_list reads_str))
      (reads_list (reads_pair reads_int (reads_pair reads_int reads_int)))))

/-- Only the two letters are used. -/
def AB (s : Str) : Prop := ∀ c ∈ s, c = 'A' ∨ c = 'B'

theorem AB.append {a b : Str} (ha : AB a) (hb : AB b) : AB (a ++ b) := by
  intro c hc
  rcases List.mem_append.1 hc with h | h
  · exact ha c h
  · exact hb c h

theorem ab_nat (n : Nat) : AB (encNat n) := by
  refine AB.append (fun c hc => Or.inl (List.mem_replicate.1 hc).2) ?_
  intro c hc
  exact Or.inr (List.mem_singleton.1 hc)

theorem ab_list {α : Type} {e : α → Str} (h : ∀ x, AB (e x)) (l : List α) : AB (encList e l) := by
  refine AB.append (ab_nat _) ?_
  intro c hc
  obtain ⟨a, _, ha⟩ := List.mem_flatMap.1 hc
  exact h a c ha

theorem ab_str (s : Str) : AB (encStr s) :=
  ab_list (e := fun c : Char => encNat c.toNat) (fun c => ab_nat c.toNat) s

theorem ab_parts (p : Parts) : AB (encParts p) :=
  .append (.append (ab_nat _) (ab_nat _)) (.append (.append (ab_str _) (.append (ab_str _) (ab_str _)))
    (.append (.append (ab_list ab_str _) (ab_list ab_str _))
      (ab_list (fun _ => .append (ab_nat _) (.append (ab_nat _) (ab_nat _))) _)))

/-- There are codecs. -/
def exCodec : Codec where
  enc t := encParts (toParts t)
  dec s := (decParts s).map fun x => ofParts x.1
  dec_enc t := by
    have := reads_parts (toParts t) []
    rw [List.append_nil] at this
    rw [this]
    exact congrArg some (ofParts_toParts t)
  alphabet t := by
    intro c hc
    rcases ab_parts _ c hc with rfl | rfl <;> decide
  nonempty t := by
    intro h
    have : encNat (toParts t).1.1 = [] := (List.append_eq_nil_iff.1 (List.append_eq_nil_iff.1 h).1).1
    unfold encNat at this
    exact absurd (List.append_eq_nil_iff.1 this).2 (by decide)

/-- An honest run that uploads and records something, with this codec. -/
example : HonestRun exCodec (fun _ _ => true) init (exTwice exCodec) ∧
    (run exCodec (fun _ _ => true) init (exTwice exCodec)).patched ≠ [] := by
  obtain ⟨h1, h2⟩ := C92_twice exCodec
  exact ⟨h1, fun h => by rw [recorded, h] at h2; cases h2⟩

/-- A bucket for which no token is given out; a path that is no token; a token whose first file is gone. -/
example : (∀ comp, (⟨some (true, false), ⟨2, 1, 2⟩, ['h'], none, [], none⟩ : PostEnv).bucket ≠ some (false, comp)) ∧
    (∀ s t, tokenOf ['/', 'x'] = some s → exCodec.dec s ≠ some t) ∧
    (exTok.servers.zip exTok.ids = (['s'], ['1']) :: [(['t'], ['2']), (['u'], ['3'])]) := by
  refine ⟨(fun comp h => nomatch h), ?_, rfl⟩
  intro s t h
  exact absurd h (by rw [show tokenOf ['/', 'x'] = none by decide]; exact fun h => by cases h)

/-- A user who may only write to `m` records in the read-only bucket `b`. -/
example : ∃ path range, (0, .record ⟨['b'], ['n'], ['h'], 5, [['e']], 1, 0, false⟩) ∈
    (step exCodec (fun _ b => b = ['m']) init (.patch 0 ['m'] path range 0 (exEnv 7 true true))).patched :=
  C92_forged exCodec _ init 0 ['m'] (by decide) _ _ _ _ ['i'] 5 7 (by decide) _ rfl true rfl rfl (fun h => by cases h)

end Verif.Api.Token
