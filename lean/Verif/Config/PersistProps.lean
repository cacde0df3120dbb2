import Verif.Config.Persist

/-!
# The configuration file of a metadata server: properties (C94)
-/

namespace Verif.Config

open Verif

/-! ## Specification -/

/-- The type of a field. -/
def Val.kind : Val → Nat
  | .str _ => 0
  | .strs _ => 1
  | .bool _ => 2
  | .int _ => 3
  | .dur _ => 4
  | .size _ => 5

/-- The variables that are set have the types of their fields, and none says that a field is to be empty that
must not be. -/
def EnvOk (env : Env) : Prop :=
  ∀ k v, env k = some v → v.kind = (dflt k).kind ∧ (v.isZero = true → v = dflt k ∧ required k = false) ∧
    ∀ d, v = .size d → d < 2 ^ 64

/-- The file has the types of the fields. -/
def DocOk (doc : Doc) : Prop :=
  ∀ k v, doc k = some v → k ≠ .maxSize → v.kind = (dflt k).kind

/-- What can be said of the configuration of every running server. -/
structure Sound (c : Conf) : Prop where
  kind : ∀ k, (c.vals k).kind = (dflt k).kind
  zero : ∀ k, (c.vals k).isZero = true → required k = false ∧ c.vals k = dflt k
  size : ∀ d, c.vals .maxSize = .size d → d < 2 ^ 64
  dir : c.vals .dataDir = .str c.dataPath.1 ∧ c.dataPath.1 ≠ []
  id : c.vals .serverId = .str c.dataPath.2 ∧ c.dataPath.2 ≠ []
  store : c.storeId = if c.vals .enable = .bool true then (c.vals .groupId).text else c.dataPath.2

/-- The variables that are set say what the configuration says. -/
def Agrees (env : Env) (c : Conf) : Prop := ∀ k v, env k = some v → v = c.vals k

/-- The cache size is a number of bytes, KB, …, PB below 1024. -/
def RoundSize (c : Conf) : Prop := ∃ n i, 1 ≤ n ∧ n < 1024 ∧ i ≤ 5 ∧ c.vals .maxSize = .size (n * 1024 ^ i)

/-- What may happen: sensible environments, groups with a name, a directory for temporary files. -/
def Ev.Ok : Ev → Prop
  | .regroup _ g _ _ => g ≠ []
  | .start env _ tmp => EnvOk env ∧ tmp ≠ []
  | _ => True

/-- The event changes the configuration of a running server (`s`), or the server is told to stop. -/
def Changes (s : State) : Ev → Prop
  | .save _ | .quit _ => True
  | .regroup .. | .renode _ => ∃ c, s.mem = some c ∧ c.vals .enable = .bool true
  | _ => False

/-- The process goes on. -/
def Ev.goesOn : Ev → Bool
  | .stop | .start .. => false
  | _ => true

/-! ## Lemmas -/

theorem mem_allKeys (k : Key) : k ∈ allKeys := by cases k <;> decide

theorem kind_size {v : Val} (h : v.kind = 5) : ∃ d, v = .size d := by
  cases v <;> simp [Val.kind] at h
  exact ⟨_, rfl⟩

theorem kind_str {v : Val} (h : v.kind = 0) : v = .str v.text := by
  cases v <;> simp [Val.kind] at h
  rfl

theorem dflt_kind_size {k : Key} (h : (dflt k).kind = 5) : k = .maxSize := by
  cases k <;> first | rfl | (exact absurd h (by decide))

theorem writeField_other (ix : Nat → Int) {v : Val} (h : v.kind ≠ 5) : writeField ix v = some v := by
  cases v <;> first | rfl | (exact absurd rfl h)

/-- Every field of the file is a field of the configuration. -/
theorem encode_some {ix : Nat → Int} {c : Conf} {d : Doc} (h : encode ix c = some d) (k : Key) :
    d k = writeField ix (c.vals k) ∧ (writeField ix (c.vals k)).isSome := by
  unfold encode at h
  split at h
  · rename_i ha
    cases h
    exact ⟨rfl, List.all_eq_true.1 ha k (mem_allKeys k)⟩
  · cases h

theorem readConfig_of {env : Env} {ip tmp : Str} {doc : Doc} {f : Key → Val}
    (h : ∀ k, readField env doc k = some (f k)) : readConfig env ip tmp doc = some (initConf ip tmp f) := by
  unfold readConfig
  rw [if_pos (List.all_eq_true.2 fun k _ => by rw [h k]; rfl)]
  congr 2
  funext k
  rw [h k]; rfl

theorem readConfig_some {env : Env} {ip tmp : Str} {doc : Doc} {c : Conf}
    (h : readConfig env ip tmp doc = some c) :
    ∃ f, (∀ k, readField env doc k = some (f k)) ∧ c = initConf ip tmp f := by
  unfold readConfig at h
  split at h
  · rename_i ha
    refine ⟨_, fun k => ?_, (Option.some.inj h).symm⟩
    obtain ⟨v, hv⟩ := Option.isSome_iff_exists.1 (List.all_eq_true.1 ha k (mem_allKeys k))
    rw [hv]; rfl
  · cases h

/-- `initialize` changes nothing in a configuration that has an id and a directory. -/
theorem initConf_sound {c : Conf} (hs : Sound c) (ip tmp : Str) : initConf ip tmp c.vals = c := by
  have h1 : (c.vals .dataDir).text = c.dataPath.1 := by rw [hs.dir.1]; rfl
  have h2 : (c.vals .serverId).text = c.dataPath.2 := by rw [hs.id.1]; rfl
  unfold initConf
  rw [h1, h2, if_neg hs.dir.2]
  dsimp only
  rw [if_neg hs.id.2]
  obtain ⟨vals, storeId, dir, sid⟩ := c
  simp only at *
  congr 1
  · funext k
    by_cases hk : k = .dataDir
    · rw [if_pos hk, hk, ← hs.dir.1]
    · rw [if_neg hk]
      by_cases hk2 : k = .serverId
      · rw [if_pos hk2, hk2, ← hs.id.1]
      · rw [if_neg hk2]
  · exact hs.store.symm

theorem readField_other {env : Env} {ix : Nat → Int} {c : Conf} {d : Doc} (hs : Sound c) (he : encode ix c = some d)
    (ha : ∀ v, env k = some v → v = c.vals k) (hk : k ≠ .maxSize) : readField env d k = some (c.vals k) := by
  unfold readField
  cases hv : env k with
  | some v => simp only [ha v hv]
  | none =>
    have hkind : (c.vals k).kind ≠ 5 := by
      rw [hs.kind k]; exact fun h => hk (dflt_kind_size h)
    simp only [(encode_some he k).1, writeField_other ix hkind, parseField, if_neg hk]
    by_cases hz : (c.vals k).isZero = true
    · obtain ⟨h1, h2⟩ := hs.zero k hz
      rw [if_pos hz, if_neg (by simp [h1]), h2]
    · rw [if_neg hz]

theorem set_vals (c : Conf) (k : Key) (v : Val) : (c.set k v).vals k = v := if_pos rfl

theorem set_vals_ne (c : Conf) {k k' : Key} (v : Val) (h : k' ≠ k) : (c.set k v).vals k' = c.vals k' := if_neg h

theorem sound_set {c : Conf} (hs : Sound c) {k : Key} {v : Val} (hk : v.kind = (dflt k).kind) (hz : v.isZero = false)
    (hsz : ∀ d, v = .size d → d < 2 ^ 64)
    (h1 : k ≠ .dataDir) (h2 : k ≠ .serverId) (h3 : k ≠ .enable) (h4 : k ≠ .groupId) : Sound (c.set k v) where
  kind := fun k' => by
    by_cases h : k' = k
    · rw [h, set_vals, hk]
    · rw [set_vals_ne c v h, hs.kind]
  zero := fun k' h0 => by
    by_cases h : k' = k
    · rw [h, set_vals, hz] at h0; cases h0
    · rw [set_vals_ne c v h] at h0 ⊢; exact hs.zero k' h0
  size := fun d hd => by
    by_cases h : Key.maxSize = k
    · subst h; rw [set_vals] at hd; exact hsz d hd
    · rw [set_vals_ne c v h] at hd; exact hs.size d hd
  dir := by rw [set_vals_ne c v (Ne.symm h1)]; exact hs.dir
  id := by rw [set_vals_ne c v (Ne.symm h2)]; exact hs.id
  store := by rw [set_vals_ne c v (Ne.symm h3), set_vals_ne c v (Ne.symm h4)]; exact hs.store

/-- A sound configuration can be written. -/
theorem encode_sound {ix : Nat → Int} (hix : FloatLog ix) {c : Conf} (hs : Sound c) : ∃ d, encode ix c = some d := by
  unfold encode
  rw [if_pos]
  · exact ⟨_, rfl⟩
  · rw [List.all_eq_true]
    intro k _
    by_cases hk : k = .maxSize
    · subst hk
      obtain ⟨d, hd⟩ := kind_size (v := c.vals .maxSize) (by rw [hs.kind]; rfl)
      have h0 : 0 < d := by
        rcases Nat.eq_zero_or_pos d with h | h
        · have := (hs.zero .maxSize (by rw [hd, h]; rfl)).2
          rw [hd, h] at this
          exact absurd this (by decide)
        · exact h
      obtain ⟨t, ht⟩ := C94_size_written hix h0 (hs.size d hd)
      rw [hd]
      simp [writeField, ht]
    · rw [writeField_other ix (by rw [hs.kind]; exact fun h => hk (dflt_kind_size h))]; rfl

/-! ## Restarting -/

/-- **C94** A server whose configuration was written comes back with it whatever address its machine has meanwhile,
if its cache size is a round number and the environment does not say otherwise: same id, same directory,
same group, nodes and slots, same everything. -/
theorem C94_restart_partial {ix : Nat → Int} (hix : FloatLog ix) {c : Conf} (hs : Sound c) (hr : RoundSize c) {d : Doc}
    (he : encode ix c = some d) {env : Env} (ha : Agrees env c) (ip tmp : Str) :
    readConfig env ip tmp d = some c := by
  rw [readConfig_of (f := c.vals), initConf_sound hs]
  intro k
  by_cases hk : k = .maxSize
  · subst hk
    unfold readField
    cases hv : env .maxSize with
    | some v => simp only [ha _ v hv]
    | none =>
      obtain ⟨n, i, h1, h2, h3, h4⟩ := hr
      obtain ⟨t, ht, _, hp⟩ := C94_size_round_trip hix h1 h2 h3
      have hpos : n * 1024 ^ i ≠ 0 := Nat.mul_ne_zero (by omega) (by simp)
      simp only [(encode_some he .maxSize).1, h4, writeField, ht, Option.map_some, parseField, if_true, hp, Val.isZero]
      have hz : (n * 1024 ^ i == 0) = false := by simpa using hpos
      simp only [hz, Bool.false_eq_true, if_false]
  · exact readField_other hs he (ha k) hk

/-- **C94** In general only the cache size may differ, by at most half of its unit. -/
theorem C94_restart_size {ix : Nat → Int} (hix : FloatLog ix) {c : Conf} (hs : Sound c) {n i : Nat} (hi : i ≤ 5)
    (hn : c.vals .maxSize = .size n) (h1 : 1024 ^ i ≤ n) (h2 : n + n / 2 ^ 30 < 1024 ^ (i + 1))
    (h3 : 2 * n + 1024 ^ 5 < 2 * 1024 ^ 6) {d : Doc} (he : encode ix c = some d) {env : Env}
    (ha : Agrees env c) (hm : env .maxSize = none) (ip tmp : Str) :
    ∃ v, readConfig env ip tmp d = some (c.set .maxSize (.size v)) ∧
      2 * v ≤ 2 * n + 1024 ^ i ∧ 2 * n ≤ 2 * v + 1024 ^ i ∧ (v = n ↔ 1024 ^ i ∣ n) := by
  obtain ⟨t, v, ht, hp, h4, h5, h6⟩ := C94_size_rounded hix hi h1 h2 h3
  have hv : 0 < v := by omega
  refine ⟨v, ?_, h4, h5, h6⟩
  have hs' : Sound (c.set .maxSize (.size v)) := by
    have hle : (1024 : Nat) ^ i ≤ 1024 ^ 5 := pow_mono hi
    exact sound_set hs rfl (by simp [Val.isZero]; omega) (by rintro d ⟨⟩; omega)
      (by decide) (by decide) (by decide) (by decide)
  rw [readConfig_of (f := (c.set .maxSize (.size v)).vals), initConf_sound hs']
  intro k
  by_cases hk : k = .maxSize
  · subst hk
    unfold readField
    rw [set_vals]
    simp only [hm, (encode_some he .maxSize).1, hn, writeField, ht, Option.map_some, parseField, if_true, hp, Val.isZero]
    have hz : (v == 0) = false := by simp; omega
    simp only [hz, Bool.false_eq_true, if_false]
  · rw [set_vals_ne _ _ hk]
    exact readField_other hs he (ha k) hk

/-! ## Invariants -/

/-- The goroutine holds the lock. -/
def Writer.holds : Writer → Bool
  | .opened _ | .encoded _ => true
  | _ => false

/-- The goroutine has yet to read the configuration. -/
def Writer.fresh : Writer → Bool
  | .encoded _ => false
  | _ => true

structure Inv (s : State) : Prop where
  sound : ∀ c, s.mem = some c → Sound c
  file : ∀ d, s.file = some d → DocOk d
  docs : ∀ d, Writer.encoded d ∈ s.pending → DocOk d
  dead : s.mem = none → s.pending = [] ∧ s.locked = false
  lock : s.pending.countP Writer.holds = if s.locked then 1 else 0
  whole : s.mem ≠ none → s.file = none → s.locked = true

theorem docOk_encode {ix : Nat → Int} {c : Conf} (hs : Sound c) {d : Doc} (h : encode ix c = some d) : DocOk d := by
  intro k v hv hk
  have hkind : (c.vals k).kind ≠ 5 := by
    rw [hs.kind k]; exact fun h => hk (dflt_kind_size h)
  rw [(encode_some h k).1, writeField_other ix hkind] at hv
  cases hv
  exact hs.kind k

theorem sound_read {env : Env} {ip tmp : Str} {doc : Doc} {c : Conf} (he : EnvOk env) (ht : tmp ≠ []) (hd : DocOk doc)
    (h : readConfig env ip tmp doc = some c) : Sound c := by
  obtain ⟨f, hf, rfl⟩ := readConfig_some h
  have hkind : ∀ k, (f k).kind = (dflt k).kind := by
    intro k
    have := hf k
    unfold readField at this
    split at this
    · rename_i v hv
      cases this; exact (he k _ hv).1
    · split at this
      · split at this
        · cases this
        · rw [← Option.some.inj this]
      · rename_i w hw
        split at this
        · cases this
        · rename_i v hv
          have hvk : v.kind = (dflt k).kind := by
            unfold parseField at hv
            split at hv
            · rename_i hk
              split at hv
              · split at hv
                · cases hv; rw [hk]; rfl
                · cases hv
              · cases hv
            · rename_i hk
              cases hv
              exact hd k _ hw hk
          split at this
          · split at this
            · cases this
            · rw [← Option.some.inj this]
          · cases this; exact hvk
  have hzero : ∀ k, (f k).isZero = true → required k = false ∧ f k = dflt k := by
    intro k hz
    have := hf k
    unfold readField at this
    split at this
    · rename_i v hv
      cases this; exact ((he k _ hv).2.1 hz).symm
    · split at this
      · split at this
        · cases this
        · rename_i hr
          exact ⟨by simpa using hr, (Option.some.inj this).symm⟩
      · split at this
        · cases this
        · rename_i v hv
          split at this
          · split at this
            · cases this
            · rename_i hr
              exact ⟨by simpa using hr, (Option.some.inj this).symm⟩
          · rename_i hnz
            cases this; exact absurd hz hnz
  have hsize : ∀ d, f .maxSize = .size d → d < 2 ^ 64 := by
    intro d hd'
    have := hf .maxSize
    rw [hd'] at this
    unfold readField at this
    split at this
    · rename_i v hv
      cases this; exact (he _ _ hv).2.2 d rfl
    · split at this
      · rw [if_neg (by decide)] at this
        have h2 := Option.some.inj this
        simp only [dflt] at h2
        cases h2; decide
      · split at this
        · cases this
        · rename_i v hv
          split at this
          · rw [if_neg (by decide)] at this
            have h2 := Option.some.inj this
            simp only [dflt] at h2
            cases h2; decide
          · cases this
            unfold parseField at hv
            rw [if_pos rfl] at hv
            split at hv
            · split at hv
              · rename_i d' hp
                cases hv
                obtain ⟨n, u, _, h3⟩ := (DataSize.C12_parse_partial _).2.2 _ hp
                rw [h3]; exact Nat.mod_lt _ (by decide)
              · cases hv
            · cases hv
  have hdir : (if (f .dataDir).text = [] then tmp else (f .dataDir).text) ≠ [] := by
    split
    · exact ht
    · assumption
  have hid : (if (f .serverId).text = []
      then Discovery.defaultSid (f .name).text ((if (f .serverIp).text = [] then ip else (f .serverIp).text) ++
        ':' :: (f .port).text) else (f .serverId).text) ≠ [] := by
    split
    · unfold Discovery.defaultSid; simp
    · assumption
  unfold initConf
  refine ⟨?_, ?_, ?_, ⟨by simp, hdir⟩, ⟨by simp, hid⟩, ?_⟩
  · intro k
    simp only
    split
    · rename_i hk; rw [hk]; rfl
    · split
      · rename_i hk; rw [hk]; rfl
      · exact hkind k
  · intro k hz
    simp only at hz ⊢
    split at hz
    · simp only [Val.isZero, List.isEmpty_iff] at hz
      exact absurd hz hdir
    · rename_i hk
      rw [if_neg hk]
      split at hz
      · simp only [Val.isZero, List.isEmpty_iff] at hz
        exact absurd hz hid
      · rename_i hk2
        rw [if_neg hk2]
        exact hzero k hz
  · intro d hd'
    exact hsize d (by simpa using hd')
  · simp

theorem perm_erase {l : List Writer} {i : Nat} {w : Writer} (h : l[i]? = some w) :
    (w :: l.eraseIdx i).Perm l := by
  induction l generalizing i with
  | nil => simp at h
  | cons a l ih =>
    cases i with
    | zero => simp at h; subst h; exact .refl _
    | succ i =>
      simp only [List.getElem?_cons_succ] at h
      rw [List.eraseIdx_cons_succ]
      exact (List.Perm.swap ..).trans ((ih h).cons a)

theorem Inv.init {doc : Doc} (h : DocOk doc) : Inv (initial doc) where
  sound := fun c hc => by cases hc
  file := fun d hd => by cases hd; exact h
  docs := fun d hd => by cases hd
  dead := fun _ => ⟨rfl, rfl⟩
  lock := rfl
  whole := fun h => absurd rfl h

theorem sound_slots {c : Conf} (hs : Sound c) (l : List Str) : Sound (c.set .slots (.strs l)) :=
  sound_set hs rfl rfl (by rintro d ⟨⟩) (by decide) (by decide) (by decide) (by decide)

theorem sound_nodes {c : Conf} (hs : Sound c) (l : List Str) : Sound (c.set .nodes (.strs l)) :=
  sound_set hs rfl rfl (by rintro d ⟨⟩) (by decide) (by decide) (by decide) (by decide)

theorem sound_group {c : Conf} (hs : Sound c) (he : c.vals .enable = .bool true) {g : Str} (hg : g ≠ []) (ns : List Str) :
    Sound { (c.set .groupId (.str g)).set .nodes (.strs ns) with storeId := g } := by
  refine ⟨?_, ?_, ?_, ?_, ?_, ?_⟩
  · intro k
    simp only [Conf.set]
    split
    · rename_i hk; rw [hk]; rfl
    · split
      · rename_i hk; rw [hk]; rfl
      · exact hs.kind k
  · intro k hz
    simp only [Conf.set] at hz ⊢
    split at hz
    · cases hz
    · rename_i hk
      rw [if_neg hk]
      split at hz
      · simp only [Val.isZero, List.isEmpty_iff] at hz; exact absurd hz hg
      · rename_i hk2
        rw [if_neg hk2]; exact hs.zero k hz
  · intro d hd; exact hs.size d (by simpa [Conf.set] using hd)
  · simpa [Conf.set] using hs.dir
  · simpa [Conf.set] using hs.id
  · simp [Conf.set, he, Val.text]

theorem Inv.step {ix : Nat → Int} (hix : FloatLog ix) {s : State} (h : Inv s) {e : Ev} (he : e.Ok) :
    Inv (Config.step ix s e) := by
  cases hm : s.mem with
  | none =>
    have hd := h.dead hm
    cases e with
    | start env ip tmp =>
      simp only [Config.step, hm]
      cases hf : s.file with
      | none => exact h
      | some d =>
        simp only
        cases hr : readConfig env ip tmp d with
        | none => exact h
        | some c =>
          refine ⟨?_, by simpa [hf] using h.file, h.docs, by simp, h.lock, by simp⟩
          intro c' hc'
          cases hc'
          exact sound_read he.1 he.2 (h.file d hf) hr
    | _ => simp only [Config.step, hm]; exact h
  | some c =>
    have hs := h.sound c hm
    have hw : s.file = none → s.locked = true := h.whole (by rw [hm]; simp)
    cases e with
    | save l =>
      simp only [Config.step, hm]
      refine ⟨by rintro c' ⟨⟩; exact hs, h.file, ?_, by simp, ?_, fun _ => hw⟩
      · intro d hd
        rcases List.mem_cons.1 hd with h' | h'
        · cases h'
        · exact h.docs d h'
      · rw [List.countP_cons_of_neg (by simp [Writer.holds])]; exact h.lock
    | quit sl =>
      simp only [Config.step, hm]
      refine ⟨?_, h.file, ?_, by simp, ?_, fun _ => hw⟩
      · rintro c' ⟨⟩
        cases sl with
        | none => exact hs
        | some l => exact sound_slots hs l
      · intro d hd
        rcases List.mem_cons.1 hd with h' | h'
        · cases h'
        · exact h.docs d h'
      · rw [List.countP_cons_of_neg (by simp [Writer.holds])]; exact h.lock
    | regroup leads g ns l =>
      simp only [Config.step, hm]
      split
      · exact h
      · rename_i hen
        have hg := sound_group hs (by simpa using hen) he ns
        split
        · refine ⟨?_, h.file, ?_, by simp, ?_, fun _ => hw⟩
          · rintro c' ⟨⟩; exact hg
          · intro d hd
            simp only [List.mem_cons] at hd
            rcases hd with h' | h' | h'
            · cases h'
            · cases h'
            · exact h.docs d h'
          · rw [List.countP_cons_of_neg (by simp [Writer.holds]), List.countP_cons_of_neg (by simp [Writer.holds])]
            exact h.lock
        · refine ⟨?_, h.file, ?_, by simp, ?_, fun _ => hw⟩
          · rintro c' ⟨⟩; exact sound_slots hg l
          · intro d hd
            rcases List.mem_cons.1 hd with h' | h'
            · cases h'
            · exact h.docs d h'
          · rw [List.countP_cons_of_neg (by simp [Writer.holds])]
            exact h.lock
    | renode ns =>
      simp only [Config.step, hm]
      split
      · exact h
      · refine ⟨?_, h.file, ?_, by simp, ?_, fun _ => hw⟩
        · rintro c' ⟨⟩; exact sound_nodes hs ns
        · intro d hd
          rcases List.mem_cons.1 hd with h' | h'
          · cases h'
          · exact h.docs d h'
        · rw [List.countP_cons_of_neg (by simp [Writer.holds])]
          exact h.lock
    | stop =>
      simp only [Config.step, hm]
      exact ⟨by simp, h.file, by simp, fun _ => ⟨rfl, rfl⟩, rfl, by simp⟩
    | start env ip tmp => simp only [Config.step, hm]; exact h
    | go i =>
      simp only [Config.step, hm]
      cases hp : s.pending[i]? with
      | none => exact h
      | some w =>
        have hperm := perm_erase hp
        have hcount : (w :: s.pending.eraseIdx i).countP Writer.holds = if s.locked then 1 else 0 := by
          rw [hperm.countP_eq]; exact h.lock
        have hmem : ∀ d, Writer.encoded d ∈ s.pending.eraseIdx i → DocOk d := fun d hd =>
          h.docs d (hperm.mem_iff.1 (List.mem_cons_of_mem _ hd))
        have hdoc : ∀ d, w = .encoded d → DocOk d := by
          rintro d rfl; exact h.docs d (hperm.mem_iff.1 (List.mem_cons_self ..))
        simp only
        cases w with
        | assign l =>
          refine ⟨?_, h.file, ?_, by simp [advance], ?_, fun _ => hw⟩
          · rintro c' ⟨⟩; exact sound_slots hs l
          · intro d hd
            rcases List.mem_cons.1 hd with h' | h'
            · cases h'
            · exact hmem d h'
          · rw [List.countP_cons_of_neg (by simp [Writer.holds])] at hcount
            simp only [advance]
            rw [List.countP_cons_of_neg (by simp [Writer.holds])]; exact hcount
        | wait r =>
          simp only [advance]
          by_cases hl : s.locked = true
          · rw [if_pos hl]; exact h
          · rw [if_neg hl]
            refine ⟨h.sound, by simp, ?_, by simp [hm], ?_, by simp⟩
            · intro d hd
              rcases List.mem_cons.1 hd with h' | h'
              · cases h'
              · exact hmem d h'
            · rw [List.countP_cons_of_neg (by simp [Writer.holds]), if_neg hl] at hcount
              rw [List.countP_cons_of_pos (by simp [Writer.holds]), hcount]; rfl
        | opened r =>
          obtain ⟨d, hd⟩ := encode_sound hix hs
          simp only [advance, hd]
          refine ⟨h.sound, h.file, ?_, by simp [hm], ?_, fun _ => hw⟩
          · intro d' hd'
            rcases List.mem_cons.1 hd' with h' | h'
            · cases h'; exact docOk_encode hs hd
            · exact hmem d' h'
          · rw [List.countP_cons_of_pos (by simp [Writer.holds])] at hcount ⊢; exact hcount
        | encoded d =>
          refine ⟨h.sound, ?_, hmem, by simp [advance, hm], ?_, by simp [advance]⟩
          · rintro d' ⟨⟩; exact hdoc d rfl
          · have hl : s.locked = true := by
              cases hl : s.locked with
              | true => rfl
              | false =>
                rw [List.countP_cons_of_pos (by simp [Writer.holds]), hl] at hcount
                exact absurd hcount (by simp)
            rw [List.countP_cons_of_pos (by simp [Writer.holds]), if_pos hl] at hcount
            have : List.countP Writer.holds (s.pending.eraseIdx i) = 0 := by omega
            exact this

theorem Inv.run {ix : Nat → Int} (hix : FloatLog ix) {s : State} (h : Inv s) :
    ∀ {es : List Ev}, (∀ e ∈ es, e.Ok) → Inv (Config.run ix s es) := by
  intro es
  induction es generalizing s with
  | nil => intro _; exact h
  | cons e es ih =>
    intro he
    exact ih (h.step hix (he e (by simp))) fun e' h' => he e' (by simp [h'])

/-- While the process runs: a goroutine has yet to read the configuration, or the configuration as it is was
encoded, and is in the file or about to be. -/
def Pending (ix : Nat → Int) (s : State) : Prop :=
  ∀ c, s.mem = some c → (∃ w ∈ s.pending, w.fresh = true) ∨
    ∃ d, encode ix c = some d ∧ (.encoded d ∈ s.pending ∨ (s.pending = [] ∧ s.file = some d))

theorem Pending.step {ix : Nat → Int} (hix : FloatLog ix) {s : State} (h : Inv s) {e : Ev} (hg : e.goesOn = true)
    (hp : Pending ix s) : Pending ix (Config.step ix s e) := by
  cases hm : s.mem with
  | none =>
    cases e with
    | start env ip tmp => simp [Ev.goesOn] at hg
    | _ => simp only [Config.step, hm]; exact hp
  | some c =>
    have hs := h.sound c hm
    cases e with
    | save l =>
      simp only [Config.step, hm]
      intro c' _
      exact .inl ⟨.assign l, by simp, rfl⟩
    | quit sl =>
      simp only [Config.step, hm]
      intro c' _
      exact .inl ⟨.wait false, by simp, rfl⟩
    | regroup leads g ns l =>
      simp only [Config.step, hm]
      split
      · exact hp
      · split
        · intro c' _; exact .inl ⟨.assign l, by simp, rfl⟩
        · intro c' _; exact .inl ⟨.wait true, by simp, rfl⟩
    | renode ns =>
      simp only [Config.step, hm]
      split
      · exact hp
      · intro c' _; exact .inl ⟨.wait true, by simp, rfl⟩
    | stop => simp [Ev.goesOn] at hg
    | start env ip tmp => simp [Ev.goesOn] at hg
    | go i =>
      simp only [Config.step, hm]
      cases hw : s.pending[i]? with
      | none => exact hp
      | some w =>
        have hperm := perm_erase hw
        simp only
        cases w with
        | assign l => intro c' _; exact .inl ⟨.wait false, by simp [advance], rfl⟩
        | wait r =>
          simp only [advance]
          by_cases hl : s.locked = true
          · rw [if_pos hl]; exact hp
          · rw [if_neg hl]
            intro c' _; exact .inl ⟨.opened r, by simp, rfl⟩
        | opened r =>
          obtain ⟨d, hd⟩ := encode_sound hix hs
          simp only [advance, hd]
          intro c' hc'
          have : c' = c := by
            have h2 : s.mem = some c' := hc'
            rw [hm] at h2; exact (Option.some.inj h2).symm
          subst this
          exact .inr ⟨d, hd, .inl (by simp)⟩
        | encoded d =>
          simp only [advance]
          intro c' hc'
          have hcount : ((Writer.encoded d) :: s.pending.eraseIdx i).countP Writer.holds ≤ 1 := by
            rw [hperm.countP_eq, h.lock]; split <;> omega
          rw [List.countP_cons_of_pos (by simp [Writer.holds])] at hcount
          have hnone : ∀ w ∈ s.pending.eraseIdx i, w.holds = false := by
            intro w hw'
            have h0 : List.countP Writer.holds (s.pending.eraseIdx i) = 0 := by omega
            have := List.countP_eq_zero.1 h0 w hw'
            simpa using this
          rcases hp c' hc' with ⟨w, hw1, hw2⟩ | ⟨d', hd', hin | hin⟩
          · refine .inl ⟨w, ?_, hw2⟩
            rcases List.mem_cons.1 (hperm.mem_iff.2 hw1) with h' | h'
            · subst h'; cases hw2
            · exact h'
          · rcases List.mem_cons.1 (hperm.mem_iff.2 hin) with h' | h'
            · cases h'
              cases hq : s.pending.eraseIdx i with
              | nil => exact .inr ⟨d, hd', .inr ⟨rfl, rfl⟩⟩
              | cons w ws =>
                have hf := hnone w (by rw [hq]; simp)
                refine .inl ⟨w, by simp, ?_⟩
                cases w <;> simp_all [Writer.holds, Writer.fresh]
            · exact absurd (hnone _ h') (by simp [Writer.holds])
          · rw [hin.1] at hw; simp at hw

theorem Pending.run {ix : Nat → Int} (hix : FloatLog ix) {s : State} (h : Inv s) (hp : Pending ix s) :
    ∀ {es : List Ev}, (∀ e ∈ es, e.Ok ∧ e.goesOn = true) → Inv (Config.run ix s es) ∧ Pending ix (Config.run ix s es) := by
  intro es
  induction es generalizing s with
  | nil => intro _; exact ⟨h, hp⟩
  | cons e es ih =>
    intro he
    rw [Config.run]
    exact ih (h.step hix (he e (by simp)).1) (hp.step hix h (he e (by simp)).2) fun e' h' => he e' (by simp [h'])

/-- After a change a goroutine has yet to read the configuration. -/
theorem Pending.of_change {ix : Nat → Int} {s : State} {e : Ev} (hc : Changes s e) :
    Pending ix (Config.step ix s e) := by
  cases hm : s.mem with
  | none =>
    cases e with
    | save l => simp only [Config.step, hm]; intro c hc'; rw [hm] at hc'; cases hc'
    | quit sl => simp only [Config.step, hm]; intro c hc'; rw [hm] at hc'; cases hc'
    | regroup leads g ns l => obtain ⟨c, h1, _⟩ := hc; rw [hm] at h1; cases h1
    | renode ns => obtain ⟨c, h1, _⟩ := hc; rw [hm] at h1; cases h1
    | go i => exact hc.elim
    | stop => exact hc.elim
    | start env ip tmp => exact hc.elim
  | some c =>
    cases e with
    | save l =>
      simp only [Config.step, hm]
      intro c' _; exact .inl ⟨.assign l, by simp, rfl⟩
    | quit sl =>
      simp only [Config.step, hm]
      intro c' _; exact .inl ⟨.wait false, by simp, rfl⟩
    | regroup leads g ns l =>
      obtain ⟨c', h1, h2⟩ := hc
      rw [hm] at h1; cases h1
      simp only [Config.step, hm]
      rw [if_neg (by simp [h2])]
      intro c' _
      refine .inl ⟨.wait true, ?_, rfl⟩
      split <;> simp
    | renode ns =>
      obtain ⟨c', h1, h2⟩ := hc
      rw [hm] at h1; cases h1
      simp only [Config.step, hm]
      rw [if_neg (by simp [h2])]
      intro c' _
      exact .inl ⟨.wait true, by simp, rfl⟩
    | go i => exact hc.elim
    | stop => exact hc.elim
    | start env ip tmp => exact hc.elim

theorem run_append (ix : Nat → Int) (s : State) (es es' : List Ev) : run ix s (es ++ es') = run ix (run ix s es) es' := by
  induction es generalizing s with
  | nil => rfl
  | cons e es ih => rw [List.cons_append, run, run, ih]

/-! ## A running server -/

/-- **C94.** Whatever happened before, after a change of the configuration and whatever else happened until all
goroutines were through, the file holds the configuration the server runs with. -/
theorem C94_written {ix : Nat → Int} (hix : FloatLog ix) {doc : Doc} (hd : DocOk doc) {before after : List Ev} {e : Ev}
    (hb : ∀ e ∈ before, e.Ok) (he : e.Ok) (hc : Changes (run ix (initial doc) before) e)
    (ha : ∀ e ∈ after, e.Ok ∧ e.goesOn = true) {c : Conf}
    (hm : (run ix (initial doc) (before ++ e :: after)).mem = some c)
    (hr : (run ix (initial doc) (before ++ e :: after)).pending = []) :
    ∃ d, encode ix c = some d ∧ (run ix (initial doc) (before ++ e :: after)).file = some d := by
  have h1 := (Inv.init hd).run hix hb
  have h2 := Pending.run hix (h1.step hix he) (Pending.of_change hc) ha
  rw [run_append, run] at hm hr ⊢
  rcases h2.2 c hm with ⟨w, hw, _⟩ | ⟨d, h3, h4 | h4⟩
  · rw [hr] at hw; cases hw
  · rw [hr] at h4; cases h4
  · exact ⟨d, h3, h4.2⟩

/-- **C94.** It then comes back as it was, wherever it is started again.  Missing: cache sizes that are not round
are read back rounded (`C94_restart_size`). -/
theorem C94_comes_back_partial {ix : Nat → Int} (hix : FloatLog ix) {doc : Doc} (hd : DocOk doc)
    {before after : List Ev} {e : Ev}
    (hb : ∀ e ∈ before, e.Ok) (he : e.Ok) (hc : Changes (run ix (initial doc) before) e)
    (ha : ∀ e ∈ after, e.Ok ∧ e.goesOn = true) {c : Conf}
    (hm : (run ix (initial doc) (before ++ e :: after)).mem = some c)
    (hr : (run ix (initial doc) (before ++ e :: after)).pending = []) (hz : RoundSize c)
    {env : Env} {ip tmp : Str} (hag : Agrees env c) :
    (run ix (initial doc) (before ++ e :: after ++ [.stop, .start env ip tmp])).mem = some c := by
  obtain ⟨d, h1, h2⟩ := C94_written hix hd hb he hc ha hm hr
  have hs : Sound c := ((Inv.init hd).run hix (es := before ++ e :: after) (by
    intro e' h'
    rcases List.mem_append.1 h' with h'' | h''
    · exact hb e' h''
    · rcases List.mem_cons.1 h'' with h3 | h3
      · rw [h3]; exact he
      · exact (ha e' h3).1)).sound c hm
  rw [run_append]
  generalize run ix (initial doc) (before ++ e :: after) = s at *
  simp only [run, step, hm, h2]
  rw [C94_restart_partial hix hs hz h1 hag]

/-- **C94.** Nothing is ever in the way of a start but a process that ended while a goroutine held the lock: at all
other times the file is whole. -/
theorem C94_whole_file {ix : Nat → Int} (hix : FloatLog ix) {doc : Doc} (hd : DocOk doc) {es : List Ev}
    (he : ∀ e ∈ es, e.Ok) (hm : (run ix (initial doc) es).mem ≠ none) (hl : (run ix (initial doc) es).locked = false) :
    ∃ d, (run ix (initial doc) (es ++ [.stop])).file = some d := by
  have h := (Inv.init hd).run hix he
  rw [run_append]
  generalize run ix (initial doc) es = s at *
  cases hf : s.file with
  | none => rw [h.whole hm hf] at hl; cases hl
  | some d =>
    refine ⟨d, ?_⟩
    cases hm' : s.mem with
    | none => exact absurd hm' hm
    | some c => simp only [run, step, hm']; exact hf

/-- **C94.** No two goroutines write the file at once. -/
theorem C94_one_writer {ix : Nat → Int} (hix : FloatLog ix) {doc : Doc} (hd : DocOk doc) {es : List Ev}
    (he : ∀ e ∈ es, e.Ok) : (run ix (initial doc) es).pending.countP Writer.holds ≤ 1 := by
  rw [((Inv.init hd).run hix he).lock]
  split <;> omega

/-- **C94.** The id of a server and the directory of its data never change while it runs. -/
theorem C94_id_stays {ix : Nat → Int} (hix : FloatLog ix) {doc : Doc} (hd : DocOk doc) {es after : List Ev}
    (he : ∀ e ∈ es, e.Ok) (ha : ∀ e ∈ after, e.Ok ∧ e.goesOn = true) {c c' : Conf}
    (hm : (run ix (initial doc) es).mem = some c) (hm' : (run ix (initial doc) (es ++ after)).mem = some c') :
    c'.vals .serverId = c.vals .serverId ∧ c'.dataPath = c.dataPath := by
  rw [run_append] at hm'
  have h := (Inv.init hd).run hix he
  generalize run ix (initial doc) es = s at *
  induction after generalizing s c with
  | nil => rw [run] at hm'; rw [hm] at hm'; cases hm'; exact ⟨rfl, rfl⟩
  | cons e es ih =>
    rw [run] at hm'
    have hi := h.step hix (ha e (by simp)).1
    have hg := (ha e (by simp)).2
    obtain ⟨c1, h1, h2⟩ : ∃ c1, (step ix s e).mem = some c1 ∧ c1.vals .serverId = c.vals .serverId ∧ c1.dataPath = c.dataPath := by
      have hs := h.sound c hm
      cases e with
      | save l => exact ⟨c, by simp only [step, hm], rfl, rfl⟩
      | quit sl =>
        simp only [step, hm]
        cases sl with
        | none => exact ⟨c, rfl, rfl, rfl⟩
        | some l => exact ⟨_, rfl, by simp [Conf.set], rfl⟩
      | regroup leads g ns l =>
        simp only [step, hm]
        split
        · exact ⟨c, hm, rfl, rfl⟩
        · split
          · exact ⟨_, rfl, by simp [Conf.set], rfl⟩
          · exact ⟨_, rfl, by simp [Conf.set], rfl⟩
      | renode ns =>
        simp only [step, hm]
        split
        · exact ⟨c, hm, rfl, rfl⟩
        · exact ⟨_, rfl, by simp [Conf.set], rfl⟩
      | stop => simp [Ev.goesOn] at hg
      | start env ip tmp => simp [Ev.goesOn] at hg
      | go i =>
        simp only [step, hm]
        cases hw : s.pending[i]? with
        | none => exact ⟨c, hm, rfl, rfl⟩
        | some w =>
          simp only
          cases w with
          | assign l => exact ⟨_, rfl, by simp [Conf.set], rfl⟩
          | wait r =>
            simp only [advance]
            split
            · exact ⟨c, hm, rfl, rfl⟩
            · exact ⟨c, hm, rfl, rfl⟩
          | opened r =>
            obtain ⟨d, hd'⟩ := encode_sound hix hs
            simp only [advance, hd']
            exact ⟨c, hm, rfl, rfl⟩
          | encoded d => exact ⟨c, hm, rfl, rfl⟩
    have := ih (fun e' h' => ha e' (by simp [h'])) _ h1 hm' hi
    exact ⟨this.1.trans h2.1, this.2.trans h2.2⟩

/-- **C94, refuted.** A process that ends while the file is open for writing leaves it empty … -/
theorem C94_truncated (ix : Nat → Int) {s : State} {c : Conf} (hm : s.mem = some c) (hf : s.file = none) (es : List Ev) :
    (run ix (step ix s .stop) es).mem = none := by
  have h : (step ix s .stop).mem = none ∧ (step ix s .stop).file = none := by simp [step, hm, hf]
  generalize step ix s .stop = s' at h
  clear hm hf
  induction es generalizing s' with
  | nil => exact h.1
  | cons e es ih =>
    rw [run]
    refine ih _ ?_
    cases e <;> simp [step, h.1, h.2]

/-- The slots saved last are those of the configuration, or are about to be. -/
def SlotsDue (l : List Str) (s : State) : Prop :=
  (∀ l', .assign l' ∈ s.pending → l' = l) ∧ ∀ c, s.mem = some c → .assign l ∈ s.pending ∨ c.vals .slots = .strs l

/-- The event does not change the slots. -/
def Ev.keepsSlots : Ev → Bool
  | .renode _ | .go _ => true
  | _ => false

theorem SlotsDue.step {ix : Nat → Int} {s : State} {l : List Str} (h : SlotsDue l s) {e : Ev} (he : e.keepsSlots = true) :
    SlotsDue l (Config.step ix s e) := by
  cases hm : s.mem with
  | none =>
    cases e with
    | renode ns => simp only [Config.step, hm]; exact h
    | go i => simp only [Config.step, hm]; exact h
    | _ => simp [Ev.keepsSlots] at he
  | some c =>
    cases e with
    | renode ns =>
      simp only [Config.step, hm]
      split
      · exact h
      · refine ⟨fun l' hl => h.1 l' (by simpa using hl), ?_⟩
        rintro c' ⟨⟩
        rcases h.2 c hm with h' | h'
        · exact .inl (by simp [h'])
        · exact .inr (by simpa [Conf.set] using h')
    | go i =>
      simp only [Config.step, hm]
      cases hw : s.pending[i]? with
      | none => exact h
      | some w =>
        have hperm := perm_erase hw
        have hsub : ∀ w', w' ∈ s.pending.eraseIdx i → w' ∈ s.pending := fun w' h' => hperm.mem_iff.1 (by simp [h'])
        have hstay : .assign l ∈ s.pending → w ≠ .assign l → .assign l ∈ s.pending.eraseIdx i := by
          intro h1 h2
          rcases List.mem_cons.1 (hperm.mem_iff.2 h1) with h3 | h3
          · exact absurd h3.symm h2
          · exact h3
        simp only
        cases w with
        | assign l0 =>
          have hl0 : l0 = l := h.1 l0 (hperm.mem_iff.1 (by simp))
          subst hl0
          refine ⟨fun l' hl => h.1 l' ?_, ?_⟩
          · simp only [advance, List.mem_cons] at hl
            rcases hl with hl | hl
            · cases hl
            · exact hsub _ hl
          · intro c' hc'
            have : c' = c.set .slots (.strs l0) := by simp only [advance] at hc'; exact (Option.some.inj hc').symm
            subst this
            exact .inr (set_vals ..)
        | wait r =>
          simp only [advance]
          split
          · exact h
          · refine ⟨fun l' hl => h.1 l' (hsub _ (by simpa using hl)), fun c' hc' => ?_⟩
            rcases h.2 c' hc' with h' | h'
            · exact .inl (List.mem_cons_of_mem _ (hstay h' (by simp)))
            · exact .inr h'
        | opened r =>
          simp only [advance]
          cases encode ix c with
          | some d =>
            refine ⟨fun l' hl => h.1 l' (hsub _ (by simpa using hl)), fun c' hc' => ?_⟩
            rcases h.2 c' hc' with h' | h'
            · exact .inl (List.mem_cons_of_mem _ (hstay h' (by simp)))
            · exact .inr h'
          | none =>
            simp only
            split
            · refine ⟨fun l' hl => h.1 l' (hsub _ hl), fun c' hc' => ?_⟩
              rcases h.2 c' hc' with h' | h'
              · exact .inl (hstay h' (by simp))
              · exact .inr h'
            · exact ⟨fun l' hl => by simp at hl, fun c' hc' => by simp at hc'⟩
        | encoded d =>
          refine ⟨fun l' hl => h.1 l' (hsub _ hl), fun c' hc' => ?_⟩
          rcases h.2 c' hc' with h' | h'
          · exact .inl (hstay h' (by simp))
          · exact .inr h'
    | _ => simp [Ev.keepsSlots] at he

/-- **C94.** Slots that are saved when no earlier write is under way are those of the configuration once the goroutines
are through.  Missing: if an earlier one is under way it may be the one that assigns last
(`C94_last_slots_statement_fails`). -/
theorem C94_slots_partial {ix : Nat → Int} {s : State} {c c' : Conf} {l : List Str} (hm : s.mem = some c) (hp : s.pending = [])
    {es : List Ev} (he : ∀ e ∈ es, e.keepsSlots = true) (hm' : (run ix s (.save l :: es)).mem = some c')
    (hr : (run ix s (.save l :: es)).pending = []) : c'.vals .slots = .strs l := by
  have h0 : SlotsDue l (step ix s (.save l)) := by
    simp only [step, hm, hp]
    exact ⟨fun l' hl => by simpa using hl, fun c' _ => .inl (by simp)⟩
  have h : SlotsDue l (run ix s (.save l :: es)) := by
    rw [run]
    generalize step ix s (.save l) = s1 at h0
    clear hm' hr hm hp
    induction es generalizing s1 with
    | nil => exact h0
    | cons e es ih =>
      rw [run]
      exact ih (fun e' h' => he e' (by simp [h'])) _ (h0.step (he e (by simp)))
  rcases h.2 c' hm' with h' | h'
  · rw [hr] at h'; cases h'
  · exact h'

/-! ## Refutations and examples -/

/-- A file as the server is installed with it. -/
def sampleDoc : Doc
  | .name => some (.str "meta".toList)
  | .endpoint => some (.strs ["etcd:2379".toList])
  | .username => some (.str "root".toList)
  | .password => some (.str "pw".toList)
  | .enable => some (.bool true)
  | _ => none

theorem sampleDoc_ok : DocOk sampleDoc := by
  intro k v h _
  cases k <;> first | (cases h; rfl) | cases h

def noEnv : Env := fun _ => none

theorem noEnv_ok : EnvOk noEnv := by intro k v h; cases h

/-- What can be seen of a state. -/
structure Seen where
  slots : Option Val
  group : Option Val
  path : Option (Str × Str)
  store : Option Str
  cache : Option Val
  whole : Bool
  writers : Nat
  deriving DecidableEq, Repr

def State.seen (s : State) : Seen where
  slots := s.mem.map (·.vals .slots)
  group := s.mem.map (·.vals .groupId)
  path := s.mem.map (·.dataPath)
  store := s.mem.map (·.storeId)
  cache := s.mem.map (·.vals .maxSize)
  whole := s.file.isSome
  writers := s.pending.length

def tmp : Str := "/tmp".toList
def ip1 : Str := "10.0.0.1".toList
def ip2 : Str := "10.0.0.2".toList

/-- A goroutine that saves slots goes through: it assigns, opens, encodes, writes. -/
def through : List Ev := [.go 0, .go 0, .go 0, .go 0]

def slotsA : List Str := ["0-100".toList]
def slotsB : List Str := ["0-200".toList]

/-- The case of `C94_comes_back_partial`: slots are saved, the process is stopped, the machine gets another
address; the server has its slots and its directory. -/
example :
    (run exactLog (initial sampleDoc)
      ([.start noEnv ip1 tmp, .save slotsA] ++ through ++ [.stop, .start noEnv ip2 tmp])).seen =
    ⟨some (.strs slotsA), some (.str "raft".toList), some (tmp, "meta-10001-8090".toList), some "raft".toList,
      some (.size (128 * 1024 ^ 2)), true, 0⟩ := by
  decide

/-- Its hypotheses hold there. -/
example : Changes (run exactLog (initial sampleDoc) [.start noEnv ip1 tmp]) (.save slotsA) ∧ (Ev.start noEnv ip1 tmp).Ok ∧
    (run exactLog (initial sampleDoc) ([.start noEnv ip1 tmp] ++ .save slotsA :: through)).pending = [] :=
  ⟨trivial, ⟨noEnv_ok, by decide⟩, by rfl⟩

/-- Slots that were emptied by a migration stay so: the default of all slots is not taken. -/
example :
    ((run exactLog (initial sampleDoc)
      ([.start noEnv ip1 tmp, .save []] ++ through ++ [.stop, .start noEnv ip2 tmp])).seen.slots =
    some (.strs [])) := by
  decide

/-- A server that joins a group: the group, the nodes and the slots are there after a restart. -/
example :
    let s := run exactLog (initial sampleDoc)
      [.start noEnv ip1 tmp, .regroup false "g2".toList ["n1".toList] slotsB, .go 0, .go 0, .go 0, .stop, .start noEnv ip2 tmp]
    s.seen = ⟨some (.strs slotsB), some (.str "g2".toList), some (tmp, "meta-10001-8090".toList), some "g2".toList,
      some (.size (128 * 1024 ^ 2)), true, 0⟩ := by
  decide

/-- **C94, refuted.** … which can happen: the process ends between the opening of the file and the end of the
writing. -/
theorem C94_stop_statement_fails :
    ∃ es : List Ev, (∀ e ∈ es, e.Ok) ∧ ∃ s, s = run exactLog (initial sampleDoc) es ∧ s.mem ≠ none ∧
      ∀ es', (run exactLog (step exactLog s .stop) es').mem = none := by
  refine ⟨[.start noEnv ip1 tmp, .save slotsA, .go 0, .go 0], ?_, _, rfl, ?_, ?_⟩
  · intro e he
    simp only [List.mem_cons, List.not_mem_nil, or_false] at he
    rcases he with rfl | rfl | rfl | rfl <;> first | trivial | exact ⟨noEnv_ok, by decide⟩
  · intro h
    have := congrArg (Option.isSome) h
    revert this; decide
  · intro es'
    cases hm : (run exactLog (initial sampleDoc) [.start noEnv ip1 tmp, .save slotsA, .go 0, .go 0]).mem with
    | none =>
      exfalso
      have := congrArg (Option.isSome) hm
      revert this; decide
    | some c => exact C94_truncated exactLog hm (by rfl) es'

/-- **C94, refuted.** The slots in the file need not be those saved last: two writes, the goroutine of the first
assigns after that of the second. -/
theorem C94_last_slots_statement_fails :
    ∃ es : List Ev, (∀ e ∈ es, e.keepsSlots = true) ∧
      let s := run exactLog (initial sampleDoc) ([.start noEnv ip1 tmp, .save slotsA, .save slotsB] ++ es)
      s.seen.writers = 0 ∧ s.seen.slots = some (.strs slotsA) ∧
      (run exactLog s [.stop, .start noEnv ip1 tmp]).seen.slots = some (.strs slotsA) :=
  ⟨through ++ through, by decide, by decide⟩

/-- The case of `C94_slots_partial`. -/
example :
    (run exactLog (initial sampleDoc) ([.start noEnv ip1 tmp] ++ .save slotsA :: through)).seen.slots = some (.strs slotsA) := by
  decide

/-- **C94, refuted.** A server that is killed before it has written anything has another id and another directory, thus
none of its data, once its machine has another address. -/
theorem C94_id_statement_fails :
    let s := run exactLog (initial sampleDoc) [.start noEnv ip1 tmp]
    let s' := run exactLog s [.stop, .start noEnv ip2 tmp]
    s.seen.path = some (tmp, "meta-10001-8090".toList) ∧ s'.seen.path = some (tmp, "meta-10002-8090".toList) := by
  decide

/-- A server that is told to stop keeps them, and the slots its group has in the end. -/
example :
    let s := run exactLog (initial sampleDoc) [.start noEnv ip1 tmp, .quit (some slotsB), .go 0, .go 0, .go 0]
    let s' := run exactLog s [.stop, .start noEnv ip2 tmp]
    s'.seen.path = some (tmp, "meta-10001-8090".toList) ∧ s'.seen.slots = some (.strs slotsB) := by
  decide

/-- **C94, refuted.** A server that is told to stop need not come back either: a goroutine that was waiting opens the
file when the last write is done, and the process ends. -/
theorem C94_quit_statement_fails :
    let s := run exactLog (initial sampleDoc)
      [.start noEnv ip1 tmp, .save slotsA, .quit (some slotsA), .go 0, .go 0, .go 0, .go 0, .go 0]
    s.seen.path = some (tmp, "meta-10001-8090".toList) ∧ s.seen.slots = some (.strs slotsA) ∧ s.seen.whole = false ∧
      ∀ env ip t, (run exactLog s [.stop, .start env ip t]).mem = none := by
  refine ⟨by decide, by decide, by decide, fun env ip t => rfl⟩

/-- An environment that names a group. -/
def groupEnv : Env := fun k => if k = .groupId then some (.str "g1".toList) else none

/-- **C94, refuted.** An environment variable that named the group at the first start overrides the one the server has
joined. -/
theorem C94_env_statement_fails :
    let s := run exactLog (initial sampleDoc)
      [.start groupEnv ip1 tmp, .regroup false "g2".toList ["n1".toList] slotsB, .go 0, .go 0, .go 0]
    let s' := run exactLog s [.stop, .start groupEnv ip1 tmp]
    s.seen.group = some (.str "g2".toList) ∧ s.seen.writers = 0 ∧ s'.seen.group = some (.str "g1".toList) := by
  decide

/-- An environment that turns the cache off. -/
def zeroEnv : Env := fun k => if k = .maxSize then some (.size 0) else none

/-- **C94, refuted.** With a cache of size 0 the first save of slots ends the process, and leaves the file empty. -/
theorem C94_zero_size_kills :
    let s := run exactLog (initial sampleDoc) [.start zeroEnv ip1 tmp, .save slotsA, .go 0, .go 0, .go 0]
    s.seen.cache = none ∧ s.seen.whole = false := by
  decide

end Verif.Config
