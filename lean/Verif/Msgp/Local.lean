import Verif.Msgp.Lemmas

/-!
# Locality, skipping and byte range

* `Loc r`: a reader that succeeds looks only at the bytes it consumes;
* `Value`: an arbitrary MessagePack value, written independently of the readers; `skip` jumps over
  exactly one value (`skip_value`);
* `AllBytes`: the append functions only produce numbers below 256.
-/

namespace Verif.Msgp

/-- A reader that succeeds on `b` succeeds on every extension of `b`, with the same value, and
leaves the extension unread. -/
def Loc {α : Type} (r : Bytes → R α) : Prop :=
  ∀ b x b', r b = .ok (x, b') → ∀ t, r (b ++ t) = .ok (x, b' ++ t)

theorem mapR_ok {α β : Type} {f : α → β} {r : R α} {y : β} {b : Bytes} :
    mapR f r = .ok (y, b) ↔ ∃ x, r = .ok (x, b) ∧ f x = y := by
  cases r with
  | error e => simp [mapR]
  | ok v => obtain ⟨v, c⟩ := v; simp [mapR]; grind

theorem checkR_ok {α : Type} {p : α → Bool} {r : R α} {x : α} {b : Bytes} :
    checkR p r = .ok (x, b) ↔ r = .ok (x, b) ∧ p x = true := by
  cases r with
  | error e => simp [checkR]
  | ok v =>
    obtain ⟨v, c⟩ := v
    simp only [checkR]
    by_cases h : p v = true
    · rw [if_pos h]; simp; intro h1 _; rw [← h1]; exact h
    · rw [if_neg h]; simp; intro h1 _; rw [← h1]; simpa using h

theorem loc_mapR {α β : Type} (f : α → β) {r : Bytes → R α} (h : Loc r) :
    Loc (fun b => mapR f (r b)) := by
  intro b x b' hb t
  obtain ⟨y, hy, rfl⟩ := mapR_ok.mp hb
  exact mapR_ok.mpr ⟨y, h _ _ _ hy t, rfl⟩

theorem loc_checkR {α : Type} (p : α → Bool) {r : Bytes → R α} (h : Loc r) :
    Loc (fun b => checkR p (r b)) := by
  intro b x b' hb t
  obtain ⟨hy, hp⟩ := checkR_ok.mp hb
  exact checkR_ok.mpr ⟨h _ _ _ hy t, hp⟩

theorem loc_readBE (n : Nat) : Loc (readBE n) := by
  intro b x b' hb t
  unfold readBE at hb ⊢
  cases hq : takeN n b with
  | none => simp [hq] at hb
  | some q =>
    obtain ⟨p, r⟩ := q
    rw [hq] at hb
    rw [takeN_ext hq t]
    simp at hb ⊢
    exact ⟨hb.1, by rw [hb.2]⟩

theorem loc_ok {α : Type} (x : α) : Loc (fun b => (.ok (x, b) : R α)) := by
  intro b y b' hb t
  simp at hb ⊢
  exact ⟨hb.1, by rw [hb.2]⟩

theorem loc_error {α : Type} (e : Err) : Loc (fun _ => (.error e : R α)) := by
  intro b y b' hb t
  simp at hb

theorem loc_ite {α : Type} (c : Prop) [Decidable c] {r s : Bytes → R α} (hr : Loc r) (hs : Loc s) :
    Loc (fun b => if c then r b else s b) := by
  by_cases h : c
  · simpa [h] using hr
  · simpa [h] using hs

/-- A reader that dispatches on the lead byte. -/
theorem loc_lead {α : Type} {r : Bytes → R α} (f : Nat → Bytes → R α)
    (h0 : r [] = .error .short) (h1 : ∀ x b, r (x :: b) = f x b) (hf : ∀ x, Loc (f x)) : Loc r := by
  intro b x b' hb t
  cases b with
  | nil => rw [h0] at hb; cases hb
  | cons y b =>
    rw [h1] at hb
    rw [List.cons_append, h1]
    exact hf y _ _ _ hb t

theorem loc_readInt64 : Loc readInt64 := by
  refine loc_lead _ rfl (fun _ _ => rfl) (fun x => ?_)
  refine loc_ite _ (loc_ok _) (loc_ite _ (loc_ok _) ?_)
  refine loc_ite _ (loc_mapR _ (loc_readBE _)) (loc_ite _ (loc_mapR _ (loc_readBE _)) ?_)
  refine loc_ite _ (loc_mapR _ (loc_readBE _)) (loc_ite _ (loc_mapR _ (loc_readBE _)) ?_)
  refine loc_ite _ (loc_mapR _ (loc_readBE _)) (loc_ite _ (loc_mapR _ (loc_readBE _)) ?_)
  refine loc_ite _ (loc_mapR _ (loc_readBE _)) (loc_ite _ ?_ (loc_error _))
  exact loc_mapR _ (loc_checkR _ (loc_readBE _))

theorem loc_readIntW (w : Nat) : Loc (readIntW w) := loc_checkR _ loc_readInt64

theorem loc_readUint64 : Loc readUint64 := by
  refine loc_lead _ rfl (fun _ _ => rfl) (fun x => ?_)
  refine loc_ite _ (loc_ok _) (loc_ite _ (loc_error _) ?_)
  refine loc_ite _ (loc_mapR _ (loc_checkR _ (loc_mapR _ (loc_readBE _)))) (loc_ite _ (loc_readBE _) ?_)
  refine loc_ite _ (loc_mapR _ (loc_checkR _ (loc_mapR _ (loc_readBE _)))) (loc_ite _ (loc_readBE _) ?_)
  refine loc_ite _ (loc_mapR _ (loc_checkR _ (loc_mapR _ (loc_readBE _)))) (loc_ite _ (loc_readBE _) ?_)
  exact loc_ite _ (loc_mapR _ (loc_checkR _ (loc_mapR _ (loc_readBE _))))
    (loc_ite _ (loc_readBE _) (loc_error _))

theorem loc_readUint32 : Loc readUint32 := loc_checkR _ loc_readUint64

theorem loc_readBool : Loc readBool := by
  refine loc_lead _ rfl (fun _ _ => rfl) (fun x => ?_)
  exact loc_ite _ (loc_ok _) (loc_ite _ (loc_ok _) (loc_error _))

theorem loc_readFloat : Loc readFloat := by
  refine loc_lead _ rfl (fun _ _ => rfl) (fun x => ?_)
  exact loc_ite _ (loc_readBE _) (loc_error _)

theorem loc_readNil : Loc readNil := by
  refine loc_lead _ rfl (fun _ _ => rfl) (fun x => ?_)
  exact loc_ite _ (loc_ok _) (loc_error _)

theorem loc_readSized {r : Bytes → R Nat} (h : Loc r) : Loc (fun b => readSized (r b)) := by
  intro b x b' hb t
  cases hr : r b with
  | error e => simp [hr, readSized] at hb
  | ok v =>
    obtain ⟨n, c⟩ := v
    simp only [hr, readSized] at hb
    simp only [h _ _ _ hr t, readSized]
    cases hq : takeN n c with
    | none => simp [hq] at hb
    | some q =>
      obtain ⟨p, d⟩ := q
      rw [hq] at hb
      rw [takeN_ext hq t]
      simp at hb ⊢
      exact ⟨hb.1, by rw [hb.2]⟩

theorem loc_readStr : Loc readStr := by
  refine loc_lead _ rfl (fun _ _ => rfl) (fun x => ?_)
  exact loc_ite _ (loc_readSized (loc_ok _)) (loc_ite _ (loc_readSized (loc_readBE _))
    (loc_ite _ (loc_readSized (loc_readBE _)) (loc_ite _ (loc_readSized (loc_readBE _)) (loc_error _))))

theorem loc_readBin : Loc readBin := by
  refine loc_lead _ rfl (fun _ _ => rfl) (fun x => ?_)
  exact loc_ite _ (loc_readSized (loc_readBE _))
    (loc_ite _ (loc_readSized (loc_readBE _)) (loc_ite _ (loc_readSized (loc_readBE _)) (loc_error _)))

theorem loc_readMapKey : Loc readMapKey := by
  intro b x b' hb t
  cases b with
  | nil => cases hb
  | cons y b =>
    simp only [readMapKey, List.cons_append] at hb ⊢
    split at hb
    · rename_i hc; rw [if_pos hc]; exact loc_readBin _ _ _ hb t
    · rename_i hc; rw [if_neg hc]; exact loc_readStr _ _ _ hb t

theorem loc_readMapHeader : Loc readMapHeader := by
  refine loc_lead _ rfl (fun _ _ => rfl) (fun x => ?_)
  exact loc_ite _ (loc_ok _) (loc_ite _ (loc_readBE _) (loc_ite _ (loc_readBE _) (loc_error _)))

theorem loc_readArrayHeader : Loc readArrayHeader := by
  refine loc_lead _ rfl (fun _ _ => rfl) (fun x => ?_)
  exact loc_ite _ (loc_ok _) (loc_ite _ (loc_readBE _) (loc_ite _ (loc_readBE _) (loc_error _)))

theorem loc_readStrsN (n : Nat) : Loc (readStrsN n) := by
  induction n with
  | zero => exact loc_ok []
  | succ n ih =>
    intro b x b' hb t
    simp only [readStrsN] at hb ⊢
    cases h1 : readStr b with
    | error e => simp [h1] at hb
    | ok v =>
      obtain ⟨s, c⟩ := v
      simp only [h1] at hb
      rw [loc_readStr _ _ _ h1 t]
      simp only
      cases h2 : readStrsN n c with
      | error e => simp [h2] at hb
      | ok w =>
        obtain ⟨ss, d⟩ := w
        simp only [h2] at hb
        rw [ih _ _ _ h2 t]
        simp at hb ⊢
        exact ⟨hb.1, by rw [hb.2]⟩

theorem loc_readStrs : Loc readStrs := by
  intro b x b' hb t
  simp only [readStrs] at hb ⊢
  cases h1 : readArrayHeader b with
  | error e => simp [h1] at hb
  | ok v =>
    obtain ⟨n, c⟩ := v
    simp only [h1] at hb
    rw [loc_readArrayHeader _ _ _ h1 t]
    exact loc_readStrsN n _ _ _ hb t

theorem loc_fieldsLoop {α : Type} (step : Bytes → α → Bytes → R α) (h : ∀ k z, Loc (step k z)) (n : Nat)
    (z : α) : Loc (fieldsLoop step n z) := by
  induction n generalizing z with
  | zero => exact loc_ok z
  | succ n ih =>
    intro b x b' hb t
    simp only [fieldsLoop] at hb ⊢
    cases h1 : readMapKey b with
    | error e => simp [h1] at hb
    | ok v =>
      obtain ⟨k, c⟩ := v
      simp only [h1] at hb
      rw [loc_readMapKey _ _ _ h1 t]
      simp only
      cases h2 : step k z c with
      | error e => simp [h2] at hb
      | ok w =>
        obtain ⟨z', d⟩ := w
        simp only [h2] at hb
        rw [h k z _ _ _ h2 t]
        exact ih z' _ _ _ hb t

theorem loc_readFields {α : Type} (step : Bytes → α → Bytes → R α) (h : ∀ k z, Loc (step k z)) (z : α) :
    Loc (readFields step z) := by
  intro b x b' hb t
  simp only [readFields] at hb ⊢
  cases h1 : readMapHeader b with
  | error e => simp [h1] at hb
  | ok v =>
    obtain ⟨n, c⟩ := v
    simp only [h1] at hb
    rw [loc_readMapHeader _ _ _ h1 t]
    exact loc_fieldsLoop step h n z _ _ _ hb t

theorem loc_readPtr {α : Type} (fresh : α) (read : α → Bytes → R α) (h : ∀ z, Loc (read z))
    (h0 : ∀ z x, read z [] ≠ .ok x) (old : Option α) : Loc (readPtr fresh read old) := by
  intro b x b' hb t
  cases b with
  | nil =>
    simp only [readPtr, isNil] at hb
    obtain ⟨y, hy, _⟩ := mapR_ok.mp hb
    exact absurd hy (h0 _ _)
  | cons lead b =>
    have hn : isNil (lead :: b ++ t) = isNil (lead :: b) := rfl
    simp only [readPtr] at hb ⊢
    rw [hn]
    by_cases hc : isNil (lead :: b) = true
    · rw [if_pos hc] at hb ⊢
      exact loc_mapR _ loc_readNil _ _ _ hb t
    · rw [if_neg hc] at hb ⊢
      exact loc_mapR _ (h _) _ _ _ hb t

/-! ## Skip -/

/-- `getSize` looks only at the head of the object. -/
def Ext (f : Bytes → Except Err (Nat × Nat)) : Prop :=
  ∀ b x t, f b = .ok x → f (b ++ t) = .ok x

theorem ext_ok (x : Nat × Nat) : Ext (fun _ => .ok x) := fun _ _ _ h => h
theorem ext_error (e : Err) : Ext (fun _ => .error e) := fun _ _ _ h => h

theorem ext_ite (c : Prop) [Decidable c] {r s : Bytes → Except Err (Nat × Nat)} (hr : Ext r) (hs : Ext s) :
    Ext (fun b => if c then r b else s b) := by
  by_cases h : c
  · simpa [h] using hr
  · simpa [h] using hs

theorem ext_len (n : Nat) (g : Nat → Nat × Nat) :
    Ext (fun b => match readBE n b with
      | .error e => .error e
      | .ok (len, _) => .ok (g len)) := by
  intro b x t h
  cases h1 : readBE n b with
  | error e => simp [h1] at h
  | ok v =>
    obtain ⟨len, c⟩ := v
    simp only [h1] at h
    simp only [loc_readBE n _ _ _ h1 t]
    exact h

theorem getSize_ext {b t : Bytes} {x : Nat × Nat} (h : getSize b = .ok x) : getSize (b ++ t) = .ok x := by
  cases b with
  | nil => cases h
  | cons lead b =>
    rw [List.cons_append]
    have key : Ext (fun b => getSize (lead :: b)) := by
      refine ext_ite _ (ext_ok _) (ext_ite _ (ext_ok _) (ext_ite _ (ext_ok _) (ext_ite _ (ext_ok _) ?_)))
      refine ext_ite _ (ext_ok _) (ext_ite _ (ext_len _ _) (ext_ite _ (ext_len _ _) (ext_ite _ (ext_len _ _) ?_)))
      refine ext_ite _ (ext_len _ _) (ext_ite _ (ext_len _ _) (ext_ite _ (ext_len _ _) ?_))
      refine ext_ite _ (ext_ok _) (ext_ite _ (ext_ok _) (ext_ite _ (ext_ok _) (ext_ite _ (ext_ok _) ?_)))
      refine ext_ite _ (ext_ok _) (ext_ite _ (ext_ok _) (ext_ite _ (ext_ok _) (ext_ite _ (ext_ok _) ?_)))
      refine ext_ite _ (ext_ok _) (ext_ite _ (ext_len _ _) (ext_ite _ (ext_len _ _) ?_))
      exact ext_ite _ (ext_len _ _) (ext_ite _ (ext_len _ _) (ext_error _))
    exact key _ _ _ h

theorem skipLoop_ext {f n : Nat} {b b' : Bytes} (h : skipLoop f n b = .ok ((), b')) (g : Nat) (hg : f ≤ g)
    (t : Bytes) : skipLoop g n (b ++ t) = .ok ((), b' ++ t) := by
  induction f generalizing n b b' g with
  | zero =>
    cases n with
    | zero => simp only [skipLoop] at h ⊢; cases g <;> (simp at h ⊢; rw [h])
    | succ n => simp [skipLoop] at h
  | succ f ih =>
    cases n with
    | zero => simp only [skipLoop] at h ⊢; cases g <;> (simp at h ⊢; rw [h])
    | succ n =>
      obtain ⟨g, rfl⟩ : ∃ k, g = k + 1 := ⟨g - 1, by omega⟩
      simp only [skipLoop] at h ⊢
      cases h1 : getSize b with
      | error e => simp [h1] at h
      | ok v =>
        obtain ⟨sz, sub⟩ := v
        simp only [h1] at h
        rw [getSize_ext h1]
        simp only
        cases h2 : takeN sz b with
        | none => simp [h2] at h
        | some q =>
          obtain ⟨p, c⟩ := q
          simp only [h2] at h
          rw [takeN_ext h2 t]
          exact ih h g (by omega)

theorem loc_skip : Loc skip := by
  intro b x b' hb t
  exact skipLoop_ext hb _ (by simp) t

theorem loc_unknownField {α : Type} (z : α) : Loc (unknownField z) := loc_mapR _ loc_skip


/-! ## Arbitrary values -/

mutual
/-- An arbitrary MessagePack value (as a later version of a record may hold in a field this version
does not know). -/
inductive Value
  | nil
  | bool (b : Bool)
  | int (i : Int)
  | uint (u : Nat)
  | float (bits : Nat)
  | str (s : Bytes)
  | arr (xs : Values)
  | map (kvs : Fields)
inductive Values
  | nil
  | cons (v : Value) (vs : Values)
inductive Fields
  | nil
  | cons (k : Bytes) (v : Value) (kvs : Fields)
end

def Values.length : Values → Nat
  | .nil => 0
  | .cons _ vs => vs.length + 1

def Fields.length : Fields → Nat
  | .nil => 0
  | .cons _ _ kvs => kvs.length + 1

mutual
/-- The bytes of a value. -/
def Value.enc : Value → Bytes
  | .nil => appendNil
  | .bool b => appendBool b
  | .int i => appendInt i
  | .uint u => appendUint u
  | .float bits => appendFloat bits
  | .str s => appendStr s
  | .arr xs => appendArrayHeader xs.length ++ xs.enc
  | .map kvs => appendMapHeader kvs.length ++ kvs.enc
def Values.enc : Values → Bytes
  | .nil => []
  | .cons v vs => v.enc ++ vs.enc
def Fields.enc : Fields → Bytes
  | .nil => []
  | .cons k v kvs => appendStr k ++ (v.enc ++ kvs.enc)
end

mutual
/-- Lengths fit a uint32. -/
def Value.Ok : Value → Prop
  | .str s => LenOk s
  | .arr xs => xs.length < 4294967296 ∧ xs.Ok
  | .map kvs => kvs.length < 4294967296 ∧ kvs.Ok
  | _ => True
def Values.Ok : Values → Prop
  | .nil => True
  | .cons v vs => v.Ok ∧ vs.Ok
def Fields.Ok : Fields → Prop
  | .nil => True
  | .cons k v kvs => LenOk k ∧ v.Ok ∧ kvs.Ok
end

mutual
/-- The number of objects in a value. -/
def Value.objs : Value → Nat
  | .arr xs => xs.objs + 1
  | .map kvs => kvs.objs + 1
  | _ => 1
def Values.objs : Values → Nat
  | .nil => 0
  | .cons v vs => v.objs + vs.objs
def Fields.objs : Fields → Nat
  | .nil => 0
  | .cons _ v kvs => 1 + (v.objs + kvs.objs)
end

theorem skipLoop_step {f n sz sub : Nat} {h t : Bytes} (hs : getSize (h ++ t) = .ok (sz, sub))
    (hl : h.length = sz) : skipLoop (f + 1) (n + 1) (h ++ t) = skipLoop f (sub + n) t := by
  simp only [skipLoop, hs, ← hl, takeN_append]

theorem getSize_int (i : Int) (t : Bytes) : getSize (appendInt i ++ t) = .ok ((appendInt i).length, 0) := by
  unfold appendInt
  repeat' split
  · simp only [List.cons_append, List.nil_append, getSize]
    rw [if_pos (by omega)]; rfl
  · rfl
  · rfl
  · rfl
  · have e : twos 8 i = (i + 256).toNat := by unfold twos; omega
    simp only [List.cons_append, List.nil_append, getSize]
    rw [if_pos (by omega)]; rfl
  · rfl
  · rfl
  · rfl
  · rfl

theorem getSize_uint (u : Nat) (t : Bytes) : getSize (appendUint u ++ t) = .ok ((appendUint u).length, 0) := by
  unfold appendUint
  repeat' split
  · simp only [List.cons_append, List.nil_append, getSize]
    rw [if_pos (by omega)]; rfl
  · rfl
  · rfl
  · rfl
  · rfl

theorem getSize_str (s : Bytes) (h : LenOk s) (t : Bytes) :
    getSize (appendStr s ++ t) = .ok ((appendStr s).length, 0) := by
  unfold LenOk at h
  unfold appendStr strHeader
  rw [List.append_assoc]
  split
  · simp only [List.cons_append, List.nil_append, getSize]
    rw [if_neg (by omega), if_neg (by omega), if_neg (by omega), if_pos (by omega)]
    simp; omega
  · split
    · simp only [List.cons_append, List.nil_append, getSize, readBE_1]
      simp; omega
    · split
      · simp only [List.cons_append, getSize, readBE_be16 s.length (by omega)]
        simp [be16]; omega
      · rw [Nat.mod_eq_of_lt h]
        simp only [List.cons_append, getSize, readBE_be32 s.length h]
        simp [be32]; omega

theorem getSize_arr (n : Nat) (h : n < 4294967296) (t : Bytes) :
    getSize (appendArrayHeader n ++ t) = .ok ((appendArrayHeader n).length, n) := by
  unfold appendArrayHeader
  rw [Nat.mod_eq_of_lt h]
  simp only
  split
  · simp only [List.cons_append, List.nil_append, getSize]
    rw [if_neg (by omega), if_neg (by omega), if_pos (by omega)]
    simp
  · split
    · simp only [List.cons_append, getSize, readBE_be16 n (by omega)]
      simp [be16]
    · simp only [List.cons_append, getSize, readBE_be32 n h]
      simp [be32]

theorem getSize_map (n : Nat) (h : n < 4294967296) (t : Bytes) :
    getSize (appendMapHeader n ++ t) = .ok ((appendMapHeader n).length, 2 * n) := by
  unfold appendMapHeader
  rw [Nat.mod_eq_of_lt h]
  simp only
  split
  · simp only [List.cons_append, List.nil_append, getSize]
    rw [if_neg (by omega), if_pos (by omega)]
    simp
  · split
    · simp only [List.cons_append, getSize, readBE_be16 n (by omega)]
      simp [be16]
    · simp only [List.cons_append, getSize, readBE_be32 n h]
      simp [be32]

mutual
theorem skipLoop_value (v : Value) (hv : v.Ok) (f n : Nat) (t : Bytes) :
    skipLoop (f + v.objs) (n + 1) (v.enc ++ t) = skipLoop f n t := by
  match v with
  | .nil => exact (skipLoop_step (sub := 0) rfl rfl).trans (by rw [Nat.zero_add])
  | .bool b =>
    refine (skipLoop_step (sub := 0) (sz := 1) ?_ ?_).trans (by rw [Nat.zero_add])
    · cases b <;> rfl
    · cases b <;> rfl
  | .int i => exact (skipLoop_step (getSize_int i t) rfl).trans (by rw [Nat.zero_add])
  | .uint u => exact (skipLoop_step (getSize_uint u t) rfl).trans (by rw [Nat.zero_add])
  | .float bits => exact (skipLoop_step (sub := 0) rfl rfl).trans (by rw [Nat.zero_add])
  | .str s => exact (skipLoop_step (getSize_str s hv t) rfl).trans (by rw [Nat.zero_add])
  | .arr xs =>
    obtain ⟨h1, h2⟩ := hv
    simp only [Value.enc, Value.objs, List.append_assoc]
    rw [← Nat.add_assoc, skipLoop_step (getSize_arr xs.length h1 _) rfl]
    exact skipLoop_values xs h2 f n t
  | .map kvs =>
    obtain ⟨h1, h2⟩ := hv
    simp only [Value.enc, Value.objs, List.append_assoc]
    rw [← Nat.add_assoc, skipLoop_step (getSize_map kvs.length h1 _) rfl]
    exact skipLoop_fields kvs h2 f n t
theorem skipLoop_values (vs : Values) (hv : vs.Ok) (f n : Nat) (t : Bytes) :
    skipLoop (f + vs.objs) (vs.length + n) (vs.enc ++ t) = skipLoop f n t := by
  match vs with
  | .nil => simp [Values.objs, Values.length, Values.enc]
  | .cons v vs =>
    obtain ⟨h1, h2⟩ := hv
    simp only [Values.enc, Values.objs, Values.length, List.append_assoc]
    rw [show f + (v.objs + vs.objs) = f + vs.objs + v.objs by omega,
      show vs.length + 1 + n = vs.length + n + 1 by omega, skipLoop_value v h1]
    exact skipLoop_values vs h2 f n t
theorem skipLoop_fields (kvs : Fields) (hv : kvs.Ok) (f n : Nat) (t : Bytes) :
    skipLoop (f + kvs.objs) (2 * kvs.length + n) (kvs.enc ++ t) = skipLoop f n t := by
  match kvs with
  | .nil => simp [Fields.objs, Fields.length, Fields.enc]
  | .cons k v kvs =>
    obtain ⟨h0, h1, h2⟩ := hv
    simp only [Fields.enc, Fields.objs, Fields.length, List.append_assoc]
    rw [show f + (1 + (v.objs + kvs.objs)) = f + kvs.objs + v.objs + 1 by omega,
      show 2 * (kvs.length + 1) + n = (2 * kvs.length + n + 1) + 1 by omega,
      skipLoop_step (getSize_str k h0 _) rfl, Nat.zero_add, skipLoop_value v h1]
    exact skipLoop_fields kvs h2 f n t
end

theorem appendInt_pos (i : Int) : 0 < (appendInt i).length := by
  unfold appendInt; repeat' split
  all_goals simp
theorem appendUint_pos (u : Nat) : 0 < (appendUint u).length := by
  unfold appendUint; repeat' split
  all_goals simp
theorem appendStr_pos (s : Bytes) : 0 < (appendStr s).length := by
  unfold appendStr strHeader; repeat' split
  all_goals simp
theorem appendArrayHeader_pos (n : Nat) : 0 < (appendArrayHeader n).length := by
  unfold appendArrayHeader; simp only; repeat' split
  all_goals simp
theorem appendMapHeader_pos (n : Nat) : 0 < (appendMapHeader n).length := by
  unfold appendMapHeader; simp only; repeat' split
  all_goals simp

mutual
theorem objs_le (v : Value) : v.objs ≤ v.enc.length := by
  match v with
  | .nil => simp [Value.objs, Value.enc, appendNil]
  | .bool b => simp [Value.objs, Value.enc, appendBool]
  | .int i => exact appendInt_pos i
  | .uint u => exact appendUint_pos u
  | .float bits => simp [Value.objs, Value.enc, appendFloat]
  | .str s => exact appendStr_pos s
  | .arr xs =>
    have := objs_le_values xs
    have := appendArrayHeader_pos xs.length
    simp only [Value.objs, Value.enc, List.length_append]; omega
  | .map kvs =>
    have := objs_le_fields kvs
    have := appendMapHeader_pos kvs.length
    simp only [Value.objs, Value.enc, List.length_append]; omega
theorem objs_le_values (vs : Values) : vs.objs ≤ vs.enc.length := by
  match vs with
  | .nil => simp [Values.objs]
  | .cons v vs =>
    have := objs_le v
    have := objs_le_values vs
    simp only [Values.objs, Values.enc, List.length_append]; omega
theorem objs_le_fields (kvs : Fields) : kvs.objs ≤ kvs.enc.length := by
  match kvs with
  | .nil => simp [Fields.objs]
  | .cons k v kvs =>
    have := objs_le v
    have := objs_le_fields kvs
    have := appendStr_pos k
    simp only [Fields.objs, Fields.enc, List.length_append]; omega
end

/-- `Skip` jumps over exactly one value, whatever the value is. -/
theorem skip_value (v : Value) (hv : v.Ok) (t : Bytes) : skip (v.enc ++ t) = .ok ((), t) := by
  have h := skipLoop_value v hv 0 0 []
  simp only [List.append_nil, Nat.zero_add] at h
  have h2 := skipLoop_ext (b' := []) (h.trans rfl) ((v.enc ++ t).length + 1) (by
    have := objs_le v
    simp; omega) t
  exact h2

/-! ## Byte range -/

/-- Every number is a byte. -/
def AllBytes (b : Bytes) : Prop := ∀ x ∈ b, x < 256

theorem allBytes_append {a b : Bytes} : AllBytes (a ++ b) ↔ AllBytes a ∧ AllBytes b := by
  simp only [AllBytes, List.mem_append]
  exact ⟨fun h => ⟨fun x hx => h x (.inl hx), fun x hx => h x (.inr hx)⟩,
    fun h x hx => hx.elim (h.1 x) (h.2 x)⟩

theorem allBytes_be16 (n : Nat) : AllBytes (be16 n) := by
  intro x hx; simp [be16] at hx; omega
theorem allBytes_be32 (n : Nat) : AllBytes (be32 n) := by
  intro x hx; simp [be32] at hx; omega
theorem allBytes_be64 (n : Nat) : AllBytes (be64 n) :=
  allBytes_append.mpr ⟨allBytes_be32 _, allBytes_be32 _⟩

theorem allBytes_cons {a : Nat} {b : Bytes} (h1 : a < 256) (h2 : AllBytes b) : AllBytes (a :: b) := by
  intro x hx
  rcases List.mem_cons.mp hx with rfl | hx
  · exact h1
  · exact h2 x hx

theorem allBytes_nil : AllBytes [] := fun _ h => by simp at h

theorem allBytes_int (i : Int) : AllBytes (appendInt i) := by
  have := twos_lt 8 i
  unfold appendInt
  repeat' split
  · exact allBytes_cons (by omega) allBytes_nil
  · exact allBytes_cons (by omega) (allBytes_be16 _)
  · exact allBytes_cons (by omega) (allBytes_be32 _)
  · exact allBytes_cons (by omega) (allBytes_be64 _)
  · exact allBytes_cons (by omega) allBytes_nil
  · exact allBytes_cons (by omega) (allBytes_cons (by omega) allBytes_nil)
  · exact allBytes_cons (by omega) (allBytes_be16 _)
  · exact allBytes_cons (by omega) (allBytes_be32 _)
  · exact allBytes_cons (by omega) (allBytes_be64 _)

theorem allBytes_uint (u : Nat) : AllBytes (appendUint u) := by
  unfold appendUint
  repeat' split
  · exact allBytes_cons (by omega) allBytes_nil
  · exact allBytes_cons (by omega) (allBytes_cons (by omega) allBytes_nil)
  · exact allBytes_cons (by omega) (allBytes_be16 _)
  · exact allBytes_cons (by omega) (allBytes_be32 _)
  · exact allBytes_cons (by omega) (allBytes_be64 _)

theorem allBytes_bool (b : Bool) : AllBytes (appendBool b) := by
  cases b <;> exact allBytes_cons (by decide) allBytes_nil

theorem allBytes_float (u : Nat) : AllBytes (appendFloat u) :=
  allBytes_cons (by omega) (allBytes_be64 _)

theorem allBytes_str (s : Bytes) (h : AllBytes s) : AllBytes (appendStr s) := by
  refine allBytes_append.mpr ⟨?_, h⟩
  unfold strHeader
  repeat' split
  · exact allBytes_cons (by omega) allBytes_nil
  · exact allBytes_cons (by omega) (allBytes_cons (by omega) allBytes_nil)
  · exact allBytes_cons (by omega) (allBytes_be16 _)
  · exact allBytes_cons (by omega) (allBytes_be32 _)

theorem allBytes_strs (xs : List Bytes) (h : ∀ s ∈ xs, AllBytes s) : AllBytes (appendStrs xs) := by
  refine allBytes_append.mpr ⟨?_, ?_⟩
  · unfold appendArrayHeader
    simp only
    repeat' split
    · exact allBytes_cons (by omega) allBytes_nil
    · exact allBytes_cons (by omega) (allBytes_be16 _)
    · exact allBytes_cons (by omega) (allBytes_be32 _)
  · intro x hx
    simp only [List.mem_flatten, List.mem_map] at hx
    obtain ⟨l, ⟨s, hs, rfl⟩, hx⟩ := hx
    exact allBytes_str s (h s hs) x hx

end Verif.Msgp
