import Verif.Msgp.Local

/-!
# Records as sets of named fields

The proof scheme shared by all generated codecs: the bytes of a record are a map of entries; reading
an entry has an effect on the record; entries of different fields commute; so the entries may come
in any order and with unknown entries between them.
-/

namespace Verif.Msgp

/-- One field on the wire: its name, the bytes of its value, and what reading it does to the
record. -/
structure Entry (α : Type) where
  key : Bytes
  val : Bytes
  eff : α → α

/-- The bytes of an entry. -/
def Entry.bytes {α : Type} (e : Entry α) : Bytes := appendStr e.key ++ e.val

/-- The bytes of a record with these entries, in this order. -/
def entriesBytes {α : Type} (es : List (Entry α)) : Bytes :=
  appendMapHeader es.length ++ (es.map Entry.bytes).flatten

/-- `step` reads the entry and has its effect. -/
def Entry.Good {α : Type} (step : Bytes → α → Bytes → R α) (e : Entry α) : Prop :=
  LenOk e.key ∧ ∀ z t, step e.key z (e.val ++ t) = .ok (e.eff z, t)

/-- The effects in order. -/
def effects {α : Type} (es : List (Entry α)) (z : α) : α := es.foldl (fun z e => e.eff z) z

theorem fieldsLoop_entries {α : Type} (step : Bytes → α → Bytes → R α) (es : List (Entry α))
    (h : ∀ e ∈ es, e.Good step) (z : α) (t : Bytes) :
    fieldsLoop step es.length z ((es.map Entry.bytes).flatten ++ t) = .ok (effects es z, t) := by
  induction es generalizing z with
  | nil => cases t <;> rfl
  | cons e es ih =>
    obtain ⟨hk, hs⟩ := h e (by simp)
    simp only [List.length_cons, List.map_cons, List.flatten_cons, Entry.bytes, List.append_assoc,
      fieldsLoop]
    rw [readMapKey_appendStr _ hk]
    simp only [hs]
    exact ih (fun e he => h e (by simp [he])) (e.eff z)

/-- Reading the bytes of good entries. -/
theorem readFields_entries {α : Type} (step : Bytes → α → Bytes → R α) (es : List (Entry α))
    (h : ∀ e ∈ es, e.Good step) (hl : es.length < 4294967296) (z : α) (t : Bytes) :
    readFields step z (entriesBytes es ++ t) = .ok (effects es z, t) := by
  rw [readFields, entriesBytes, List.append_assoc, readMapHeader_append _ hl]
  exact fieldsLoop_entries step es h z t

/-- An entry this version does not know. -/
def unknownEntry {α : Type} (k : Bytes) (v : Value) : Entry α := ⟨k, v.enc, id⟩

theorem unknownEntry_good {α : Type} (step : Bytes → α → Bytes → R α) (k : Bytes) (v : Value)
    (hk : LenOk k) (hv : v.Ok) (hu : ∀ z b, step k z b = unknownField z b) :
    (unknownEntry k v : Entry α).Good step :=
  ⟨hk, fun z t => by simp only [unknownEntry, hu, unknownField, skip_value v hv, mapR, id]⟩

/-- Commuting effects: the order does not matter. -/
theorem effects_perm {α : Type} {es es' : List (Entry α)} (hp : es.Perm es')
    (hc : ∀ a ∈ es', ∀ b ∈ es', ∀ z, a.eff (b.eff z) = b.eff (a.eff z)) (z : α) :
    effects es z = effects es' z := by
  have hc' : ∀ a ∈ es, ∀ b ∈ es, ∀ z, b.eff (a.eff z) = a.eff (b.eff z) :=
    fun a ha b hb z => hc b (hp.mem_iff.mp hb) a (hp.mem_iff.mp ha) z
  exact List.Perm.foldl_eq' hp hc' z

theorem effects_unknown {α : Type} (us : List (Bytes × Value)) (z : α) :
    effects (us.map fun u => unknownEntry u.1 u.2) z = z := by
  induction us generalizing z with
  | nil => rfl
  | cons u us ih => exact ih z

theorem effects_append {α : Type} (a b : List (Entry α)) (z : α) :
    effects (a ++ b) z = effects b (effects a z) := by
  simp [effects]

/-- The scheme: known entries and unknown entries in any order are read as the known entries in
their order. -/
theorem readFields_any_order {α : Type} (step : Bytes → α → Bytes → R α) (known : List (Entry α))
    (us : List (Bytes × Value)) (es : List (Entry α))
    (hp : es.Perm (known ++ us.map fun u => unknownEntry u.1 u.2))
    (hk : ∀ e ∈ known, e.Good step)
    (hc : ∀ a ∈ known, ∀ b ∈ known, ∀ z, a.eff (b.eff z) = b.eff (a.eff z))
    (hu : ∀ u ∈ us, LenOk u.1 ∧ u.2.Ok ∧ ∀ z b, step u.1 z b = unknownField z b)
    (hl : es.length < 4294967296) (z : α) (t : Bytes) :
    readFields step z (entriesBytes es ++ t) = .ok (effects known z, t) := by
  rw [readFields_entries step es _ hl, effects_perm hp, effects_append, effects_unknown]
  · intro a ha b hb z
    simp only [List.mem_append, List.mem_map] at ha hb
    rcases ha with ha | ⟨u, _, rfl⟩
    · rcases hb with hb | ⟨w, _, rfl⟩
      · exact hc a ha b hb z
      · rfl
    · rfl
  · intro e he
    have := hp.mem_iff.mp he
    simp only [List.mem_append, List.mem_map] at this
    rcases this with h | ⟨u, hmem, rfl⟩
    · exact hk e h
    · obtain ⟨h1, h2, h3⟩ := hu u hmem
      exact unknownEntry_good step u.1 u.2 h1 h2 h3

/-! ## Pointer fields -/

theorem readPtr_append {α : Type} (fresh : α) (read : α → Bytes → R α) (app : α → Bytes)
    (v : Option α) (old : Option α) (t : Bytes)
    (h : ∀ x, v = some x → (∀ z, read z (app x ++ t) = .ok (x, t)) ∧ isNil (app x ++ t) = false) :
    readPtr fresh read old (appendPtr app v ++ t) = .ok (v, t) := by
  cases v with
  | none => rfl
  | some x =>
    obtain ⟨h1, h2⟩ := h x rfl
    simp only [readPtr, appendPtr, h2, h1, mapR]
    rfl

/-- A proper prefix of the bytes of a record is refused: a reader that is local and reads the whole
of `b` fails on every proper prefix of `b`. -/
theorem prefix_refused {α : Type} {r : Bytes → R α} (hl : Loc r) {b p q : Bytes} {v : α}
    (hb : r b = .ok (v, [])) (he : b = p ++ q) (hq : q ≠ []) : ∃ e, r p = .error e := by
  cases h : r p with
  | error e => exact ⟨e, rfl⟩
  | ok x =>
    obtain ⟨x, b'⟩ := x
    have := hl p x b' h q
    rw [← he, hb] at this
    simp at this
    exact absurd this.2.2 hq

end Verif.Msgp
