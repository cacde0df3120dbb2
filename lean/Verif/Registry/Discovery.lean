import Verif.Common.KMap

/-!
# Service registration and discovery (C55)

Every server writes `group/registry/name/id[_role] ↦ address` into etcd under a
lease; the discovery of another server reads the keys under a prefix once and
then follows the watch events.  The id and the role are parsed back out of the
key.

What is modelled: the keys, the parsing with its slice expressions (including
the panic), the local copy, the events, the entry that a process stores about
itself.  The order in which a Go map is walked is a permutation chosen by the
environment.  What is not: etcd itself (a sorted map with ordered events), the
data race between `combine` (which takes no lock) and readers, lease times.
-/

namespace Verif.Discovery

open KMap

/-! ## Keys -/

/-- The role a server registers with: none (data servers, api servers), or the
suffix set by `AsMaster`/`AsSlave`; src/common/registry/etcd_registry.go:28, 43-51. -/
inductive Role where
  | plain
  | master
  | slave
deriving DecidableEq

/-- The suffix of the key; etcd_registry.go:44, 49 (`fmt.Sprint` of two strings
adds no blank). -/
def Role.suffix : Role → Str
  | .plain => []
  | .master => '_' :: ['m', 'a', 's', 't', 'e', 'r']
  | .slave => '_' :: ['s', 'l', 'a', 'v', 'e']

/-- A registered server: service name, server id, role. -/
structure Reg where
  serv : Str
  id : Str
  role : Role
deriving DecidableEq

/-- `EtcdPrefix.FmtRegistry(group, name)` = `group/registry/name`;
src/common/cst/etcd_prefix.go:20, 27-29. -/
def fmtRegistry (group name : Str) : Str :=
  group ++ '/' :: (['r', 'e', 'g', 'i', 's', 't', 'r', 'y'] ++ '/' :: name)

/-- `EtcdRegistry.Key` with the name built by `NewEtcdRegistry`, `AsMaster` and
`AsSlave`; etcd_registry.go:23-51. -/
def regKey (group : Str) (r : Reg) : Str :=
  fmtRegistry group (r.serv ++ '/' :: (r.id ++ r.role.suffix))

/-- `Config.RegisterKey`, under which a process stores itself in its own
discovery: `group/name/id`, no `registry`, no role; src/common/registry/config.go:32-34. -/
def selfKey (group name id : Str) : Str := group ++ '/' :: (name ++ '/' :: id)

/-- `strings.LastIndexByte` / `bytes.LastIndexByte` (`none` for -1). -/
def lastIndexByte (c : Char) : Str → Option Nat
  | [] => none
  | x :: xs =>
    match lastIndexByte c xs with
    | some i => some (i + 1)
    | none => if x = c then some 0 else none

/-- The Go slice expression `k[i:j]` with `j ≤ len(k)`: it panics (`none`) when `j < i`. -/
def goSlice (k : Str) (i j : Nat) : Option Str :=
  if i ≤ j then some ((k.take j).drop i) else none

/-- What reading one key leads to. -/
inductive Parsed where
  | skip
  | panic
  | id (s : Str)
deriving DecidableEq

/-- The id read from a key by `GetServiceMapping`: between the last `/` and the last `_`
of the whole key; src/common/registry/etcd_discovery.go:107-115, etcd_registry.go:61-69. -/
def mappingId (k : Str) : Parsed :=
  match lastIndexByte '/' k with
  | none => .skip
  | some i =>
    match goSlice k (i + 1) ((lastIndexByte '_' k).getD k.length) with
    | none => .panic
    | some s => .id s

/-- The role text asked for by `GetServiceMappingWith`. -/
def wanted : Bool → Str
  | true => ['m', 'a', 's', 't', 'e', 'r']
  | false => ['s', 'l', 'a', 'v', 'e']

/-- The id read from a key by `GetServiceMappingWith(_, master)`, if its role is the one
asked for: the part after the last `/` is cut at its first `_`; etcd_discovery.go:148-159. -/
def roleId (master : Bool) (k : Str) : Parsed :=
  match lastIndexByte '/' k with
  | none => .skip
  | some i =>
    match cutOn '_' (k.drop (i + 1)) with
    | none => if master then .id (k.drop (i + 1)) else .skip
    | some (sid, role) => if role = wanted master then .id sid else .skip

/-- The loop filling the result map; `none` is a panic.  The list is the local map in the
order in which Go walks it; etcd_discovery.go:104-118, 146-161. -/
def build (parse : Str → Parsed) : List (Str × Str) → KMap Str → Option (KMap Str)
  | [], m => some m
  | (k, a) :: rest, m =>
    match parse k with
    | .skip => build parse rest m
    | .panic => none
    | .id s => build parse rest (m.put s a)

/-- `GetServiceMapping`; etcd_discovery.go:103-119. -/
def serviceMapping (walk : List (Str × Str)) : Option (KMap Str) := build mappingId walk KMap.empty

/-- `GetServiceMappingWith`; etcd_discovery.go:144-164. -/
def serviceMappingWith (master : Bool) (walk : List (Str × Str)) : Option (KMap Str) :=
  build (roleId master) walk KMap.empty

/-! ## Etcd and the local copy -/

/-- A change of an etcd key. -/
inductive Ev where
  | put (k v : Str)
  | del (k : Str)

/-- The key of a change. -/
def Ev.key : Ev → Str
  | .put k _ => k
  | .del k => k

/-- A change applied to a key-value map; also what the discovery does with an event
(`addService`, `removeService`); etcd_discovery.go:175-187, service_list.go:24-34. -/
def Ev.apply (m : KMap Str) : Ev → KMap Str
  | .put k v => m.put k v
  | .del k => m.del k

/-- The state of etcd after a history. -/
def etcd (evs : List Ev) : KMap Str := evs.foldl Ev.apply KMap.empty

/-- `cli.Get(prefix, WithPrefix())`; etcd_discovery.go:50. -/
def getPrefix (m : KMap Str) (p : Str) : List (Str × Str) :=
  m.entries.filter fun e => hasPrefix e.1 p

/-- `serviceList.combine`; service_list.go:18-22. -/
def combine (s : KMap Str) (kvs : List (Str × Str)) : KMap Str :=
  kvs.foldl (fun s e => s.put e.1 e.2) s

/-- One event of the watch (only keys under the prefix are reported); etcd_discovery.go:72-92. -/
def onEvent (p : Str) (s : KMap Str) (e : Ev) : KMap Str :=
  if hasPrefix e.key p then e.apply s else s

/-- The local copy of one service: the process itself (when it belongs to this service),
the keys read at the start, then the events seen; etcd_discovery.go:23-101. -/
def local' (self : Option (Str × Str)) (p : Str) (start : KMap Str) (seen : List Ev) : KMap Str :=
  let s0 := match self with
    | some (k, a) => KMap.empty.put k a
    | none => KMap.empty
  seen.foldl (onEvent p) (combine s0 (getPrefix start p))

/-! ## Keys are read back -/

theorem lastIndexByte_none {c : Char} {s : Str} : lastIndexByte c s = none ↔ c ∉ s := by
  induction s with
  | nil => simp [lastIndexByte]
  | cons x xs ih =>
    simp only [lastIndexByte, List.mem_cons, not_or]
    cases h : lastIndexByte c xs with
    | some i =>
      have : ¬ c ∉ xs := by rw [← ih, h]; simp
      simp [this]
    | none =>
      have := ih.1 h
      by_cases hx : x = c
      · simp [hx]
      · simp [hx, this, Ne.symm hx]

theorem lastIndexByte_append {c : Char} {a b : Str} (h : c ∉ b) :
    lastIndexByte c (a ++ c :: b) = some a.length := by
  induction a with
  | nil => simp [lastIndexByte, lastIndexByte_none.2 h]
  | cons x xs ih => simp [lastIndexByte, ih]

theorem lastIndexByte_append_not {c : Char} {a b : Str} (h : c ∉ b) :
    lastIndexByte c (a ++ b) = lastIndexByte c a := by
  induction a with
  | nil => simp [lastIndexByte, lastIndexByte_none.2 h]
  | cons x xs ih => simp [lastIndexByte, ih]

theorem lastIndexByte_lt {c : Char} {s : Str} {i : Nat} (h : lastIndexByte c s = some i) :
    i < s.length := by
  induction s generalizing i with
  | nil => simp [lastIndexByte] at h
  | cons x xs ih =>
    simp only [lastIndexByte] at h
    cases hx : lastIndexByte c xs with
    | some j => simp [hx] at h; have := ih hx; simp; omega
    | none =>
      simp only [hx] at h
      split at h <;> simp at h
      simp; omega

/-- The part of a key before the id. -/
def keyHead (group serv : Str) : Str :=
  group ++ '/' :: (['r', 'e', 'g', 'i', 's', 't', 'r', 'y'] ++ '/' :: serv)

theorem regKey_eq (g : Str) (r : Reg) :
    regKey g r = keyHead g r.serv ++ '/' :: (r.id ++ r.role.suffix) := by
  simp [regKey, fmtRegistry, keyHead]

theorem suffix_no_slash (r : Role) : '/' ∉ r.suffix := by cases r <;> decide

theorem regKey_slash {g : Str} {r : Reg} (h : '/' ∉ r.id) :
    lastIndexByte '/' (regKey g r) = some (keyHead g r.serv).length := by
  rw [regKey_eq]
  apply lastIndexByte_append
  simp [h, suffix_no_slash]

theorem drop_append_cons (a b : Str) (c : Char) : (a ++ c :: b).drop (a.length + 1) = b := by
  have : a ++ c :: b = (a ++ [c]) ++ b := by simp
  rw [this]
  have h : a.length + 1 = (a ++ [c]).length := by simp
  rw [h, List.drop_left]

/-- `wanted` matches the suffixes. -/
theorem suffix_master : Role.master.suffix = '_' :: wanted true := rfl
theorem suffix_slave : Role.slave.suffix = '_' :: wanted false := rfl

/-- With a role, `GetServiceMapping` reads back every id without `/` — also one with `_`. -/
theorem C55_id_with_role (g : Str) (r : Reg) (hr : r.role ≠ .plain) (h : '/' ∉ r.id) :
    mappingId (regKey g r) = .id r.id := by
  have hi := regKey_slash (g := g) h
  obtain ⟨w, hw, hw'⟩ : ∃ w, r.role.suffix = '_' :: w ∧ '_' ∉ w := by
    cases h' : r.role with
    | plain => exact absurd h' hr
    | master => exact ⟨_, suffix_master, by decide⟩
    | slave => exact ⟨_, suffix_slave, by decide⟩
  have hk : regKey g r = (keyHead g r.serv ++ '/' :: r.id) ++ '_' :: w := by
    rw [regKey_eq, hw]; simp
  have h2 : lastIndexByte '_' (regKey g r) = some ((keyHead g r.serv).length + 1 + r.id.length) := by
    rw [hk, lastIndexByte_append hw']; simp; omega
  simp only [mappingId, hi, h2, Option.getD_some, goSlice]
  rw [if_pos (by omega), hk]
  have ht : (keyHead g r.serv ++ '/' :: r.id ++ '_' :: w).take
      ((keyHead g r.serv).length + 1 + r.id.length) = keyHead g r.serv ++ '/' :: r.id := by
    have : (keyHead g r.serv).length + 1 + r.id.length = (keyHead g r.serv ++ '/' :: r.id).length := by
      simp; omega
    rw [this, List.take_left]
  rw [ht, drop_append_cons]

theorem head_underscore (g s : Str) : '_' ∈ keyHead g s ↔ '_' ∈ g ∨ '_' ∈ s := by
  have : '_' ∉ ['r', 'e', 'g', 'i', 's', 't', 'r', 'y'] := by decide
  simp only [keyHead, List.mem_append, List.mem_cons, this, false_or]
  have h1 : ('_' : Char) ≠ '/' := by decide
  simp [h1]

/-- Without a role, `GetServiceMapping` reads the id back when no part of the key has a `_`. -/
theorem C55_id_plain (g : Str) (r : Reg) (hr : r.role = .plain) (h : '/' ∉ r.id)
    (hu : '_' ∉ r.id) (hg : '_' ∉ g) (hs : '_' ∉ r.serv) :
    mappingId (regKey g r) = .id r.id := by
  have hi := regKey_slash (g := g) h
  have hk : regKey g r = keyHead g r.serv ++ '/' :: r.id := by rw [regKey_eq, hr]; simp [Role.suffix]
  have h2 : lastIndexByte '_' (regKey g r) = none := by
    rw [lastIndexByte_none, hk]
    have := head_underscore g r.serv
    simp only [List.mem_append, List.mem_cons, not_or]
    exact ⟨by rw [this]; simp [hg, hs], by decide, hu⟩
  simp only [mappingId, hi, h2, Option.getD_none, goSlice]
  rw [if_pos (by rw [hk]; simp), List.take_length, hk, drop_append_cons]

/-- FINDING.  Exactly when a server without a role has an id without `_` while the group or
the service name has one, `GetServiceMapping` panics on its key (slice bounds out of range),
so nothing of that service can be looked up. -/
theorem C55_panics_iff (g : Str) (r : Reg) (h : '/' ∉ r.id) :
    mappingId (regKey g r) = .panic ↔
      r.role = .plain ∧ '_' ∉ r.id ∧ ('_' ∈ g ∨ '_' ∈ r.serv) := by
  by_cases hr : r.role = .plain
  · have hi := regKey_slash (g := g) h
    have hk : regKey g r = keyHead g r.serv ++ '/' :: r.id := by
      rw [regKey_eq, hr]; simp [Role.suffix]
    by_cases hu : '_' ∈ r.id
    · -- the last `_` is inside the id
      have hlt : ∃ j, lastIndexByte '_' (regKey g r) = some j ∧ (keyHead g r.serv).length + 1 ≤ j := by
        obtain ⟨a, b, hab⟩ : ∃ a b, cutLast '_' r.id = some (a, b) := by
          cases hc : cutLast '_' r.id with
          | none => exact absurd hu (cutLast_none.1 hc)
          | some p => exact ⟨p.1, p.2, rfl⟩
        obtain ⟨he, hb⟩ := cutLast_some hab
        refine ⟨(keyHead g r.serv).length + 1 + a.length, ?_, by omega⟩
        have : regKey g r = (keyHead g r.serv ++ '/' :: a) ++ '_' :: b := by
          rw [hk, he]; simp
        rw [this, lastIndexByte_append hb]; simp; omega
      obtain ⟨j, hj, hle⟩ := hlt
      simp [mappingId, hi, hj, goSlice, hle, hu]
    · by_cases hh : '_' ∈ g ∨ '_' ∈ r.serv
      · have hm := (head_underscore g r.serv).2 hh
        have h3 : '_' ∉ '/' :: r.id := by simp [hu]
        cases hj : lastIndexByte '_' (keyHead g r.serv) with
        | none => exact absurd hm (lastIndexByte_none.1 hj)
        | some j =>
          have hlt := lastIndexByte_lt hj
          have hj' : lastIndexByte '_' (regKey g r) = some j := by
            rw [hk, lastIndexByte_append_not h3, hj]
          have : ¬ (keyHead g r.serv).length + 1 ≤ j := by omega
          simp [mappingId, hi, hj', goSlice, this, hr, hu, hh]
      · have hh' := not_or.1 hh
        rw [C55_id_plain g r hr h hu hh'.1 hh'.2]
        simp [hh]
  · rw [C55_id_with_role g r hr h]; simp [hr]

/-- FINDING.  A server without a role whose id contains `_` is listed under a shortened id. -/
theorem C55_id_shortened (g : Str) (r : Reg) (hr : r.role = .plain) {a b : Str}
    (he : r.id = a ++ '_' :: b) (hb : '_' ∉ b) (h : '/' ∉ r.id) :
    mappingId (regKey g r) = .id a := by
  have hi := regKey_slash (g := g) h
  have hk : regKey g r = (keyHead g r.serv ++ '/' :: a) ++ '_' :: b := by
    rw [regKey_eq, hr, he]; simp [Role.suffix]
  have h2 : lastIndexByte '_' (regKey g r) = some ((keyHead g r.serv).length + 1 + a.length) := by
    rw [hk, lastIndexByte_append hb]; simp; omega
  simp only [mappingId, hi, h2, Option.getD_some, goSlice]
  rw [if_pos (by omega), hk]
  have ht : (keyHead g r.serv ++ '/' :: a ++ '_' :: b).take
      ((keyHead g r.serv).length + 1 + a.length) = keyHead g r.serv ++ '/' :: a := by
    have : (keyHead g r.serv).length + 1 + a.length = (keyHead g r.serv ++ '/' :: a).length := by
      simp; omega
    rw [this, List.take_left]
  rw [ht, drop_append_cons]

/-- Whether a role belongs to a view: the master view takes every server that is not
registered as a slave. -/
def inView : Bool → Role → Bool
  | true, .slave => false
  | true, _ => true
  | false, .slave => true
  | false, _ => false

/-- The master and slave views read id and role back when the id has neither `/` nor `_`. -/
theorem C55_role_view (g : Str) (r : Reg) (master : Bool) (h : '/' ∉ r.id) (hu : '_' ∉ r.id) :
    roleId master (regKey g r) = if inView master r.role then .id r.id else .skip := by
  have hi := regKey_slash (g := g) h
  have hd : (regKey g r).drop ((keyHead g r.serv).length + 1) = r.id ++ r.role.suffix := by
    rw [regKey_eq, drop_append_cons]
  simp only [roleId, hi, hd]
  cases hr : r.role with
  | plain =>
    have : cutOn '_' (r.id ++ Role.plain.suffix) = none := by
      rw [cutOn_none]; simp [Role.suffix, hu]
    rw [this]
    cases master <;> simp [inView, Role.suffix]
  | master =>
    rw [suffix_master, cutOn_append hu]
    cases master <;> simp [inView, wanted]
  | slave =>
    rw [suffix_slave, cutOn_append hu]
    cases master <;> simp [inView, wanted]

/-- FINDING.  A server registered with a role whose id contains `_` is in neither view
(the text after the first `_` is not a role). -/
theorem C55_role_lost (g : Str) (r : Reg) (hr : r.role ≠ .plain) (master : Bool) {a b : Str}
    (he : r.id = a ++ '_' :: b) (ha : '_' ∉ a) (h : '/' ∉ r.id) :
    roleId master (regKey g r) = .skip := by
  have hi := regKey_slash (g := g) h
  have hd : (regKey g r).drop ((keyHead g r.serv).length + 1) = a ++ '_' :: (b ++ r.role.suffix) := by
    rw [regKey_eq, drop_append_cons, he]; simp
  simp only [roleId, hi, hd, cutOn_append ha]
  have hne : b ++ r.role.suffix ≠ wanted master := by
    intro hc
    have hm : '_' ∈ wanted master := by
      rw [← hc]
      cases h' : r.role with
      | plain => exact absurd h' hr
      | master => simp [suffix_master]
      | slave => simp [suffix_slave]
    revert hm
    cases master <;> decide
  simp [hne]

-- a meta server registered as slave in the default group, and a data server
example : mappingId (regKey "goodfs".toList ⟨"metaserver".toList, "m_1".toList, .slave⟩) = .id "m_1".toList := by
  decide
example : mappingId (regKey "goodfs".toList ⟨"objectserver".toList, "d-1".toList, .plain⟩) = .id "d-1".toList := by
  decide
example : mappingId (regKey "good_fs".toList ⟨"objectserver".toList, "d-1".toList, .plain⟩) = .panic := by
  decide
example : mappingId (regKey "goodfs".toList ⟨"objectserver".toList, "d_1".toList, .plain⟩) = .id "d".toList := by
  decide
example : roleId true (regKey "goodfs".toList ⟨"metaserver".toList, "m-1".toList, .master⟩) = .id "m-1".toList := by
  decide
example : roleId true (regKey "goodfs".toList ⟨"metaserver".toList, "m_1".toList, .master⟩) = .skip := by
  decide

/-! ## The local copy follows etcd -/

theorem combine_get (l : List (Str × Str)) (s : KMap Str) (k : Str)
    (hn : (l.map (·.1)).Nodup) :
    (combine s l).get k = match rawGet l k with
      | some v => some v
      | none => s.get k := by
  induction l generalizing s with
  | nil => simp [combine, rawGet]
  | cons e l ih =>
    obtain ⟨k', v⟩ := e
    simp only [List.map_cons, List.nodup_cons] at hn
    have := ih (s.put k' v) hn.2
    simp only [combine, List.foldl_cons] at this ⊢
    rw [this]
    simp only [rawGet]
    by_cases hk : k' = k
    · subst hk
      have hnone : rawGet l k' = none := by
        cases hc : rawGet l k' with
        | none => rfl
        | some w =>
          exfalso
          apply hn.1
          clear this ih hn
          induction l with
          | nil => simp [rawGet] at hc
          | cons e l ih =>
            simp only [rawGet] at hc
            split at hc
            · simp_all
            · exact List.mem_cons_of_mem _ (ih hc)
      simp [hnone, KMap.get_put]
    · simp only [if_neg hk]
      cases rawGet l k with
      | some w => rfl
      | none => simp [KMap.get_put, Ne.symm hk]

theorem rawGet_filter (l : List (Str × Str)) (q : Str → Bool) (k : Str) :
    rawGet (l.filter fun e => q e.1) k = if q k then rawGet l k else none := by
  induction l with
  | nil => simp [rawGet]
  | cons e l ih =>
    obtain ⟨k', v⟩ := e
    by_cases hq : q k'
    · simp only [List.filter_cons, hq, if_true, rawGet, ih]
      by_cases hk : k' = k
      · subst hk; simp [hq]
      · simp [hk]
    · by_cases hk : k' = k
      · subst hk; simp [hq, ih]
      · simp [hq, rawGet, hk, ih]

theorem start_get (s m : KMap Str) (p k : Str) :
    (combine s (getPrefix m p)).get k =
      if hasPrefix k p then (match m.get k with | some v => some v | none => s.get k) else s.get k := by
  rw [combine_get]
  · simp only [getPrefix]
    rw [rawGet_filter m.entries (fun k => hasPrefix k p) k]
    by_cases h : hasPrefix k p <;> simp [h, KMap.get]
  · have := m.keys_nodup
    exact List.Nodup.sublist (List.Sublist.map _ List.filter_sublist) this

theorem foldl_get (p : Str) (evs : List Ev) : ∀ (s m : KMap Str),
    (∀ k, hasPrefix k p = true → s.get k = m.get k) →
    (∀ k, hasPrefix k p = true → (evs.foldl (onEvent p) s).get k = (evs.foldl Ev.apply m).get k) ∧
    (∀ k, hasPrefix k p = false → (evs.foldl (onEvent p) s).get k = s.get k) := by
  induction evs with
  | nil => intro s m h; exact ⟨h, fun _ _ => rfl⟩
  | cons e evs ih =>
    intro s m h
    simp only [List.foldl_cons]
    have hstep : ∀ k, hasPrefix k p = true → (onEvent p s e).get k = (e.apply m).get k := by
      intro k hk
      simp only [onEvent]
      cases e with
      | put k' v =>
        by_cases hp : hasPrefix k' p
        · simp only [Ev.key, hp, if_true, Ev.apply, KMap.get_put, h k hk]
        · simp only [Ev.key, hp, Ev.apply, KMap.get_put]
          have hne : k ≠ k' := by intro hc; subst hc; exact hp hk
          simpa [hne] using h k hk
      | del k' =>
        by_cases hp : hasPrefix k' p
        · simp only [Ev.key, hp, if_true, Ev.apply, KMap.get_del, h k hk]
        · simp only [Ev.key, hp, Ev.apply, KMap.get_del]
          have hne : k ≠ k' := by intro hc; subst hc; exact hp hk
          simpa [hne] using h k hk
    obtain ⟨h1, h2⟩ := ih _ _ hstep
    refine ⟨h1, fun k hk => ?_⟩
    rw [h2 k hk]
    simp only [onEvent]
    cases e with
    | put k' v =>
      by_cases hp : hasPrefix k' p
      · simp only [Ev.key, hp, if_true, Ev.apply, KMap.get_put]
        rw [if_neg (by intro hc; subst hc; rw [hp] at hk; cases hk)]
      · simp [Ev.key, hp]
    | del k' =>
      by_cases hp : hasPrefix k' p
      · simp only [Ev.key, hp, if_true, Ev.apply, KMap.get_del]
        rw [if_neg (by intro hc; subst hc; rw [hp] at hk; cases hk)]
      · simp [Ev.key, hp]

/-- What a process stored about itself under a key. -/
def selfGet : Option (Str × Str) → Str → Option Str
  | some (k', a), k => if k = k' then some a else none
  | none, _ => none

/-- When the watch misses nothing after the first read, the local copy holds exactly the keys
of etcd under the prefix, plus the process itself. -/
theorem C55_follows (self : Option (Str × Str)) (p : Str) (before after : List Ev)
    (hself : ∀ k a, self = some (k, a) → hasPrefix k p = false) (k : Str) :
    (local' self p (etcd before) after).get k =
      if hasPrefix k p then (etcd (before ++ after)).get k else selfGet self k := by
  have hs0 : ∀ (s0 : KMap Str), (∀ k, hasPrefix k p = true → s0.get k = none) →
      (after.foldl (onEvent p) (combine s0 (getPrefix (etcd before) p))).get k =
        if hasPrefix k p then (etcd (before ++ after)).get k else s0.get k := by
    intro s0 h0
    have hb : ∀ k, hasPrefix k p = true →
        (combine s0 (getPrefix (etcd before) p)).get k = (etcd before).get k := by
      intro k hk
      rw [start_get, if_pos hk]
      cases (etcd before).get k with
      | some v => rfl
      | none => simp [h0 k hk]
    obtain ⟨h1, h2⟩ := foldl_get p after _ _ hb
    by_cases hk : hasPrefix k p = true
    · rw [if_pos hk, h1 k hk]
      simp [etcd, List.foldl_append]
    · have hk' : hasPrefix k p = false := by simpa using hk
      rw [if_neg hk, h2 k hk', start_get, if_neg hk]
  cases self with
  | none =>
    simp only [local']
    rw [hs0 _ (by simp)]
    simp [selfGet]
  | some e =>
    obtain ⟨k', a⟩ := e
    simp only [local']
    rw [hs0 _ (by
      intro k hk
      rw [KMap.get_put, if_neg]
      · simp
      · intro hc
        subst hc
        have := hself k a rfl
        rw [hk] at this
        cases this)]
    simp [KMap.get_put, selfGet]

/-! ## The views -/

theorem build_some (parse : Str → Parsed) (l : List (Str × Str)) (m : KMap Str)
    (hp : ∀ e ∈ l, parse e.1 ≠ .panic) :
    ∃ r, build parse l m = some r ∧
      (∀ i a, r.get i = some a → m.get i = some a ∨ ∃ k, (k, a) ∈ l ∧ parse k = .id i) ∧
      (∀ i, ((m.get i).isSome ∨ ∃ k a, (k, a) ∈ l ∧ parse k = .id i) → (r.get i).isSome) := by
  induction l generalizing m with
  | nil =>
    refine ⟨m, rfl, fun i a h => Or.inl h, ?_⟩
    rintro i (h | ⟨k, a, h, -⟩)
    · exact h
    · simp at h
  | cons e l ih =>
    obtain ⟨k, a⟩ := e
    have hl : ∀ e ∈ l, parse e.1 ≠ .panic := fun e he => hp e (List.mem_cons_of_mem _ he)
    cases hk : parse k with
    | panic => exact absurd hk (hp (k, a) List.mem_cons_self)
    | skip =>
      obtain ⟨r, hr, h1, h2⟩ := ih m hl
      refine ⟨r, by simp [build, hk, hr], ?_, ?_⟩
      · intro i b hb
        rcases h1 i b hb with h | ⟨k', hm, hp'⟩
        · exact Or.inl h
        · exact Or.inr ⟨k', List.mem_cons_of_mem _ hm, hp'⟩
      · rintro i (h | ⟨k', b, hm, hp'⟩)
        · exact h2 i (Or.inl h)
        · rcases List.mem_cons.1 hm with he | he
          · cases he; rw [hk] at hp'; cases hp'
          · exact h2 i (Or.inr ⟨k', b, he, hp'⟩)
    | id s =>
      obtain ⟨r, hr, h1, h2⟩ := ih (m.put s a) hl
      refine ⟨r, by simp [build, hk, hr], ?_, ?_⟩
      · intro i b hb
        rcases h1 i b hb with h | ⟨k', hm, hp'⟩
        · rw [KMap.get_put] at h
          split at h
          · rename_i hi
            subst hi
            cases h
            exact Or.inr ⟨k, List.mem_cons_self, hk⟩
          · exact Or.inl h
        · exact Or.inr ⟨k', List.mem_cons_of_mem _ hm, hp'⟩
      · rintro i (h | ⟨k', b, hm, hp'⟩)
        · apply h2 i
          left
          rw [KMap.get_put]
          split
          · simp
          · exact h
        · rcases List.mem_cons.1 hm with he | he
          · cases he
            rw [hk] at hp'
            cases hp'
            apply h2
            left
            simp
          · exact h2 i (Or.inr ⟨k', b, he, hp'⟩)

theorem build_panic (parse : Str → Parsed) (l : List (Str × Str)) (m : KMap Str)
    (hp : ∃ e ∈ l, parse e.1 = .panic) : build parse l m = none := by
  induction l generalizing m with
  | nil => simp at hp
  | cons e l ih =>
    obtain ⟨k, a⟩ := e
    cases hk : parse k with
    | panic => simp [build, hk]
    | skip =>
      have : ∃ e ∈ l, parse e.1 = .panic := by
        obtain ⟨e, he, h⟩ := hp
        rcases List.mem_cons.1 he with rfl | he
        · simp only [hk] at h; cases h
        · exact ⟨e, he, h⟩
      simp [build, hk, ih m this]
    | id s =>
      have : ∃ e ∈ l, parse e.1 = .panic := by
        obtain ⟨e, he, h⟩ := hp
        rcases List.mem_cons.1 he with rfl | he
        · simp only [hk] at h; cases h
        · exact ⟨e, he, h⟩
      simp [build, hk, ih _ this]

/-- FINDING.  One such server (no role, no `_` in its id, `_` in the group or service name) makes
every lookup in the mapping of its service panic, whatever else is registered. -/
theorem C55_panic_all (g : Str) (r : Reg) (a : Str) (hr : r.role = .plain) (hs : '/' ∉ r.id)
    (hu : '_' ∉ r.id) (hg : '_' ∈ g ∨ '_' ∈ r.serv) (walk : List (Str × Str))
    (hw : (regKey g r, a) ∈ walk) : serviceMapping walk = none :=
  build_panic _ _ _ ⟨_, hw, (C55_panics_iff g r hs).2 ⟨hr, hu, hg⟩⟩

example : serviceMapping [(regKey "good_fs".toList ⟨"obj".toList, "d1".toList, .plain⟩, "c:1".toList)] =
    none := by rfl

/-! ## Histories of registrations -/

/-- What happens to the registry: a server registers (again), its key goes (unregistered or
lease expired), or some other part of etcd changes. -/
inductive Op where
  | register (r : Reg) (addr : Str)
  | drop (r : Reg)
  | other (e : Ev)

/-- The etcd change of an operation: `Register` and `Unregister`; etcd_registry.go:93-104. -/
def Op.ev (group : Str) : Op → Ev
  | .register r a => .put (regKey group r) a
  | .drop r => .del (regKey group r)
  | .other e => e

/-- Specification: the address a registration stands with after a history, the latest
operation on it deciding. -/
def standing (ops : List Op) (r : Reg) : Option Str :=
  ops.foldl (fun cur o => match o with
      | .register r' a => if r' = r then some a else cur
      | .drop r' => if r' = r then none else cur
      | .other _ => cur) none

/-- The names used are ones that can be read back: no `/` in the service name, no `/` and
no `_` in the id. -/
def Reg.Plain (r : Reg) : Prop := '/' ∉ r.serv ∧ '_' ∉ r.serv ∧ '/' ∉ r.id ∧ '_' ∉ r.id

/-- The histories considered: readable names, and other keys outside `group/registry/`. -/
def Op.Ok (group : Str) : Op → Prop
  | .register r _ => r.Plain
  | .drop r => r.Plain
  | .other e => hasPrefix e.key (fmtRegistry group []) = false

theorem regKey_inj {g : Str} {r r' : Reg} (h : r.Plain) (h' : r'.Plain)
    (he : regKey g r = regKey g r') : r = r' := by
  have hm := C55_role_view g r true h.2.2.1 h.2.2.2
  rw [regKey_eq, regKey_eq] at he
  have hs : ∀ x : Reg, x.Plain → '/' ∉ x.id ++ x.role.suffix := by
    intro x hx; simp [hx.2.2.1, suffix_no_slash]
  have hc := congrArg (cutLast '/') he
  rw [cutLast_append (hs r h), cutLast_append (hs r' h')] at hc
  simp only [Option.some.injEq, Prod.mk.injEq] at hc
  have hserv : r.serv = r'.serv := by
    have := hc.1
    simp only [keyHead, List.append_cancel_left_eq, List.cons.injEq, true_and] at this
    exact this
  have hrest := hc.2
  have hcut : ∀ x : Reg, x.Plain → ∀ y, cutOn '_' (x.id ++ x.role.suffix) = y →
      (x.role = .plain ∧ y = none) ∨ (x.role = .master ∧ y = some (x.id, wanted true)) ∨
      (x.role = .slave ∧ y = some (x.id, wanted false)) := by
    intro x hx y hy
    subst hy
    cases hr : x.role with
    | plain => left; exact ⟨rfl, by rw [cutOn_none]; simp [Role.suffix, hx.2.2.2]⟩
    | master => right; left; exact ⟨rfl, by rw [suffix_master, cutOn_append hx.2.2.2]⟩
    | slave => right; right; exact ⟨rfl, by rw [suffix_slave, cutOn_append hx.2.2.2]⟩
  have a1 := hcut r h _ rfl
  have a2 := hcut r' h' _ rfl
  rw [hrest] at a1
  obtain ⟨s, i, ro⟩ := r
  obtain ⟨s', i', ro'⟩ := r'
  simp only at hserv hrest a1 a2
  subst hserv
  rcases a1 with ⟨q1, q2⟩ | ⟨q1, q2⟩ | ⟨q1, q2⟩ <;>
    rcases a2 with ⟨t1, t2⟩ | ⟨t1, t2⟩ | ⟨t1, t2⟩ <;>
    rw [q2] at t2 <;> simp_all [wanted, Role.suffix]

theorem hasPrefix_registry (g : Str) (n : Str) : hasPrefix (fmtRegistry g n) (fmtRegistry g []) = true := by
  rw [hasPrefix_iff]
  exact ⟨n, by simp [fmtRegistry]⟩

theorem etcd_registered (g : Str) (ops : List Op) (hok : ∀ o ∈ ops, o.Ok g) (r : Reg) (hr : r.Plain) :
    (etcd (ops.map (Op.ev g))).get (regKey g r) = standing ops r := by
  have key : ∀ (ops : List Op) (m : KMap Str) (cur : Option Str), (∀ o ∈ ops, o.Ok g) →
      m.get (regKey g r) = cur →
      ((ops.map (Op.ev g)).foldl Ev.apply m).get (regKey g r) =
        ops.foldl (fun cur o => match o with
          | .register r' a => if r' = r then some a else cur
          | .drop r' => if r' = r then none else cur
          | .other _ => cur) cur := by
    intro ops
    induction ops with
    | nil => intro m cur _ h; simpa using h
    | cons o ops ih =>
      intro m cur hok h
      simp only [List.map_cons, List.foldl_cons]
      apply ih _ _ (fun o ho => hok o (List.mem_cons_of_mem _ ho))
      have ho := hok o List.mem_cons_self
      cases o with
      | register r' a =>
        simp only [Op.ev, Ev.apply, KMap.get_put, h]
        by_cases he : r' = r
        · subst he; simp
        · rw [if_neg (fun hc => he (regKey_inj ho hr hc.symm)), if_neg he]
      | drop r' =>
        simp only [Op.ev, Ev.apply, KMap.get_del, h]
        by_cases he : r' = r
        · subst he; simp
        · rw [if_neg (fun hc => he (regKey_inj ho hr hc.symm)), if_neg he]
      | other e =>
        have hne : regKey g r ≠ e.key := by
          intro hc
          have h1 : hasPrefix e.key (fmtRegistry g []) = false := ho
          rw [← hc] at h1
          have h2 := hasPrefix_registry g (r.serv ++ '/' :: (r.id ++ r.role.suffix))
          rw [show regKey g r = fmtRegistry g (r.serv ++ '/' :: (r.id ++ r.role.suffix)) from rfl,
            h2] at h1
          cases h1
        cases e with
        | put k v =>
          have hne' : regKey g r ≠ k := hne
          simp only [Op.ev, Ev.apply, KMap.get_put]; rw [if_neg hne', h]
        | del k =>
          have hne' : regKey g r ≠ k := hne
          simp only [Op.ev, Ev.apply, KMap.get_del]; rw [if_neg hne', h]
  exact key ops KMap.empty none hok (by simp)

/-- Every key of etcd under `group/registry/` is the key of a registration of the history. -/
theorem etcd_keys (g : Str) (ops : List Op) (hok : ∀ o ∈ ops, o.Ok g) (k : Str)
    (hk : hasPrefix k (fmtRegistry g []) = true) (a : Str)
    (h : (etcd (ops.map (Op.ev g))).get k = some a) :
    ∃ r, r.Plain ∧ k = regKey g r ∧ (∃ b, Op.register r b ∈ ops) := by
  have key : ∀ (ops : List Op) (m : KMap Str), (∀ o ∈ ops, o.Ok g) →
      ((ops.map (Op.ev g)).foldl Ev.apply m).get k = some a →
      (m.get k).isSome ∨ ∃ r, r.Plain ∧ k = regKey g r ∧ (∃ b, Op.register r b ∈ ops) := by
    intro ops
    induction ops with
    | nil => intro m _ h; left; simp at h; simp [h]
    | cons o ops ih =>
      intro m hok h
      simp only [List.map_cons, List.foldl_cons] at h
      rcases ih _ (fun o ho => hok o (List.mem_cons_of_mem _ ho)) h with h1 | ⟨r, h1, h2, b, h3⟩
      · have ho := hok o List.mem_cons_self
        cases o with
        | register r' b =>
          simp only [Op.ev, Ev.apply, KMap.get_put] at h1
          by_cases he : k = regKey g r'
          · exact Or.inr ⟨r', ho, he, b, List.mem_cons_self⟩
          · rw [if_neg he] at h1; exact Or.inl h1
        | drop r' =>
          simp only [Op.ev, Ev.apply, KMap.get_del] at h1
          by_cases he : k = regKey g r'
          · rw [if_pos he] at h1; simp at h1
          · rw [if_neg he] at h1; exact Or.inl h1
        | other e =>
          have hne : k ≠ e.key := by
            intro hc
            have h1 : hasPrefix e.key (fmtRegistry g []) = false := ho
            rw [← hc, hk] at h1
            cases h1
          left
          cases e with
          | put k' v =>
            have hne' : k ≠ k' := hne
            simp only [Op.ev, Ev.apply, KMap.get_put] at h1; rwa [if_neg hne'] at h1
          | del k' =>
            have hne' : k ≠ k' := hne
            simp only [Op.ev, Ev.apply, KMap.get_del] at h1; rwa [if_neg hne'] at h1
      · exact Or.inr ⟨r, h1, h2, b, List.mem_cons_of_mem _ h3⟩
  rcases key ops KMap.empty hok h with h1 | h1
  · simp at h1
  · exact h1

/-- Specification: the servers that ought to be in a view of service `serv` — those standing
with a role of the view, and the process itself. -/
def Listed (roles : Role → Bool) (ops : List Op) (serv : Str) (self : Option (Str × Str))
    (i a : Str) : Prop :=
  (∃ role, roles role = true ∧ standing ops ⟨serv, i, role⟩ = some a) ∨
    (roles .plain = true ∧ self = some (i, a))

/-- The key and address a process stores about itself. -/
def selfEntry (g serv : Str) : Option (Str × Str) → Option (Str × Str)
  | some (i, a) => some (selfKey g serv i, a)
  | none => none

/-- No other service name in the history starts with this one. -/
def Alone (ops : List Op) (serv : Str) : Prop :=
  ∀ r a, Op.register r a ∈ ops → hasPrefix r.serv serv = true → r.serv = serv

theorem selfKey_slash {g n i : Str} (h : '/' ∉ i) :
    lastIndexByte '/' (selfKey g n i) = some (g ++ '/' :: n).length := by
  have : selfKey g n i = (g ++ '/' :: n) ++ '/' :: i := by simp [selfKey]
  rw [this, lastIndexByte_append h]

theorem selfKey_drop {g n i : Str} :
    (selfKey g n i).drop ((g ++ '/' :: n).length + 1) = i := by
  have : selfKey g n i = (g ++ '/' :: n) ++ '/' :: i := by simp [selfKey]
  rw [this, drop_append_cons]

theorem mappingId_self {g n i : Str} (h : '/' ∉ i) (hu : '_' ∉ i) (hg : '_' ∉ g) (hn : '_' ∉ n) :
    mappingId (selfKey g n i) = .id i := by
  have h2 : lastIndexByte '_' (selfKey g n i) = none := by
    rw [lastIndexByte_none]
    simp [selfKey, hg, hn, hu]
  simp only [mappingId, selfKey_slash h, h2, Option.getD_none, goSlice]
  rw [if_pos (by simp [selfKey]; omega), List.take_length, selfKey_drop]

theorem roleId_self {g n i : Str} (master : Bool) (h : '/' ∉ i) (hu : '_' ∉ i) :
    roleId master (selfKey g n i) = if inView master .plain then .id i else .skip := by
  have hc : cutOn '_' i = none := cutOn_none.2 hu
  simp only [roleId, selfKey_slash h, selfKey_drop, hc]
  cases master <;> simp [inView]

/-- A key without `/` in the name `serv` under the prefix belongs to a service whose name
starts with `serv`. -/
theorem prefix_serv {g serv : Str} {r : Reg} (hs : '/' ∉ serv)
    (h : hasPrefix (regKey g r) (fmtRegistry g serv) = true) : hasPrefix r.serv serv = true := by
  rw [hasPrefix_iff] at h ⊢
  obtain ⟨t, ht⟩ := h
  have ht' : r.serv ++ '/' :: (r.id ++ r.role.suffix) = serv ++ t := by
    have := ht
    simp only [regKey, fmtRegistry, List.append_assoc, List.cons_append,
      List.append_cancel_left_eq, List.cons.injEq, true_and] at this
    exact this
  clear ht
  generalize r.serv = x at ht'
  generalize r.id ++ r.role.suffix = y at ht'
  induction x generalizing serv with
  | nil =>
    cases serv with
    | nil => exact ⟨[], rfl⟩
    | cons c cs =>
      simp only [List.nil_append, List.cons_append, List.cons.injEq] at ht'
      exact absurd (by rw [← ht'.1]; exact List.mem_cons_self) hs
  | cons c cs ih =>
    cases serv with
    | nil => exact ⟨c :: cs, rfl⟩
    | cons d ds =>
      simp only [List.cons_append, List.cons.injEq] at ht'
      obtain ⟨t', h'⟩ := ih (fun hm => hs (List.mem_cons_of_mem _ hm)) ht'.2
      exact ⟨t', by rw [h', ht'.1]; rfl⟩

theorem own_prefix {g : Str} {r : Reg} : hasPrefix (regKey g r) (fmtRegistry g r.serv) = true := by
  rw [hasPrefix_iff]
  exact ⟨'/' :: (r.id ++ r.role.suffix), by simp [regKey, fmtRegistry]⟩

theorem self_no_prefix {g n i : Str} (hn : '/' ∉ n) (hr : n ≠ ['r', 'e', 'g', 'i', 's', 't', 'r', 'y']) :
    hasPrefix (selfKey g n i) (fmtRegistry g n) = false := by
  cases h : hasPrefix (selfKey g n i) (fmtRegistry g n) with
  | false => rfl
  | true =>
    exfalso
    rw [hasPrefix_iff] at h
    obtain ⟨t, ht⟩ := h
    have h1 : n ++ '/' :: i = ['r', 'e', 'g', 'i', 's', 't', 'r', 'y'] ++ '/' :: (n ++ t) := by
      have := ht
      simp only [selfKey, fmtRegistry, List.append_assoc, List.cons_append,
        List.append_cancel_left_eq, List.cons.injEq, true_and] at this
      exact this
    have h2 := congrArg (cutOn '/') h1
    rw [cutOn_append hn, cutOn_append (by decide)] at h2
    simp only [Option.some.injEq, Prod.mk.injEq] at h2
    exact hr h2.1

/-- The general form of both views. -/
theorem view_general (parse : Str → Parsed) (roles : Role → Bool)
    (g serv : Str) (before after : List Op) (self : Option (Str × Str))
    (hserv : '/' ∉ serv) (hreg : serv ≠ ['r', 'e', 'g', 'i', 's', 't', 'r', 'y'])
    (hok : ∀ o ∈ before ++ after, o.Ok g) (halone : Alone (before ++ after) serv)
    (hparse : ∀ r : Reg, r.serv = serv → r.Plain →
      parse (regKey g r) = if roles r.role then .id r.id else .skip)
    (hselfp : ∀ i a, self = some (i, a) →
      parse (selfKey g serv i) = if roles .plain then .id i else .skip)
    (hservp : '_' ∉ serv)
    (walk : List (Str × Str))
    (hw : walk.Perm (local' (selfEntry g serv self) (fmtRegistry g serv)
      (etcd (before.map (Op.ev g))) (after.map (Op.ev g))).entries) :
    ∃ m, build parse walk KMap.empty = some m ∧
      (∀ i a, m.get i = some a → Listed roles (before ++ after) serv self i a) ∧
      (∀ i, (∃ a, ('/' ∉ i ∧ '_' ∉ i) ∧ Listed roles (before ++ after) serv self i a) →
        (m.get i).isSome) := by
  have hselfpre : ∀ k a, selfEntry g serv self = some (k, a) →
      hasPrefix k (fmtRegistry g serv) = false := by
    intro k a h
    cases self with
    | none => simp [selfEntry] at h
    | some e =>
      obtain ⟨i, b⟩ := e
      simp only [selfEntry, Option.some.injEq, Prod.mk.injEq] at h
      rw [← h.1]
      exact self_no_prefix hserv hreg
  have hfol := C55_follows (selfEntry g serv self) (fmtRegistry g serv)
    (before.map (Op.ev g)) (after.map (Op.ev g)) hselfpre
  rw [← List.map_append] at hfol
  generalize hL : local' (selfEntry g serv self) (fmtRegistry g serv)
      (etcd (before.map (Op.ev g))) (after.map (Op.ev g)) = L at hw hfol
  -- the entries, one by one
  have hmem : ∀ k a, (k, a) ∈ walk → 
      (∃ r : Reg, r.serv = serv ∧ r.Plain ∧ k = regKey g r ∧ standing (before ++ after) r = some a) ∨
      (∃ i, self = some (i, a) ∧ k = selfKey g serv i) := by
    intro k a hka
    have hget := (L.mem_iff_get k a).1 (hw.mem_iff.1 hka)
    rw [hfol k] at hget
    by_cases hp : hasPrefix k (fmtRegistry g serv) = true
    · rw [if_pos hp] at hget
      have hp' : hasPrefix k (fmtRegistry g []) = true := by
        rw [hasPrefix_iff] at hp ⊢
        obtain ⟨t, ht⟩ := hp
        exact ⟨serv ++ t, by rw [ht]; simp [fmtRegistry]⟩
      obtain ⟨r, hr, hkr, b, hb⟩ := etcd_keys g _ hok k hp' a hget
      left
      refine ⟨r, ?_, hr, hkr, ?_⟩
      · exact halone r b hb (prefix_serv hserv (by rw [← hkr]; exact hp))
      · rw [← etcd_registered g _ hok r hr, ← hkr, hget]
    · rw [if_neg hp] at hget
      right
      cases self with
      | none => simp [selfEntry, selfGet] at hget
      | some e =>
        obtain ⟨i, b⟩ := e
        simp only [selfEntry, selfGet] at hget
        split at hget
        · cases hget; exact ⟨i, rfl, by assumption⟩
        · cases hget
  obtain ⟨m, hm, h1, h2⟩ := build_some parse walk KMap.empty (by
    rintro ⟨k, a⟩ he
    rcases hmem k a he with ⟨r, hrs, hr, hkr, -⟩ | ⟨i, hi, hki⟩
    · simp only [hkr]
      rw [hparse r hrs hr]
      cases roles r.role <;> simp
    · simp only [hki]
      rw [hselfp i a hi]
      cases roles Role.plain <;> simp)
  refine ⟨m, hm, ?_, ?_⟩
  · intro i a hia
    rcases h1 i a hia with h | ⟨k, hka, hpk⟩
    · simp at h
    · rcases hmem k a hka with ⟨r, hrs, hr, hkr, hst⟩ | ⟨j, hj, hkj⟩
      · rw [hkr, hparse r hrs hr] at hpk
        cases hro : roles r.role with
        | false => simp [hro] at hpk
        | true =>
          simp [hro] at hpk
          left
          refine ⟨r.role, hro, ?_⟩
          rw [← hpk, ← hrs]
          exact hst
      · rw [hkj, hselfp j a hj] at hpk
        cases hro : roles Role.plain with
        | false => simp [hro] at hpk
        | true =>
          simp [hro] at hpk
          right
          exact ⟨hro, by rw [hj, hpk]⟩
  · rintro i ⟨a, hi, ⟨role, hro, hst⟩ | ⟨hro, hself⟩⟩
    · apply h2
      right
      have hr : (⟨serv, i, role⟩ : Reg).Plain := ⟨hserv, hservp, hi.1, hi.2⟩
      refine ⟨regKey g ⟨serv, i, role⟩, a, ?_, ?_⟩
      · rw [hw.mem_iff, L.mem_iff_get, hfol, if_pos own_prefix, etcd_registered g _ hok _ hr, hst]
      · rw [hparse _ rfl hr]; simp [hro]
    · apply h2
      right
      refine ⟨selfKey g serv i, a, ?_, ?_⟩
      · rw [hw.mem_iff, L.mem_iff_get, hfol, if_neg]
        · simp [hself, selfEntry, selfGet]
        · rw [self_no_prefix hserv hreg]; simp
      · rw [hselfp i a hself]; simp [hro]

/-- `GetServiceMapping` holds exactly the servers of the service that stand registered (and the
process itself), each under its id, after every history of registrations — provided the watch
missed nothing, the names are readable, and no other service name starts with this one.
Missing for the full property: those provisos (see the findings). -/
theorem C55_mapping_partial (g serv : Str) (before after : List Op) (self : Option (Str × Str))
    (hg : '_' ∉ g) (hserv : '/' ∉ serv) (hservp : '_' ∉ serv)
    (hreg : serv ≠ ['r', 'e', 'g', 'i', 's', 't', 'r', 'y'])
    (hok : ∀ o ∈ before ++ after, o.Ok g) (halone : Alone (before ++ after) serv)
    (hself : ∀ i a, self = some (i, a) → '/' ∉ i ∧ '_' ∉ i) (walk : List (Str × Str))
    (hw : walk.Perm (local' (selfEntry g serv self) (fmtRegistry g serv)
      (etcd (before.map (Op.ev g))) (after.map (Op.ev g))).entries) :
    ∃ m, serviceMapping walk = some m ∧
      (∀ i a, m.get i = some a → Listed (fun _ => true) (before ++ after) serv self i a) ∧
      (∀ i, (∃ a, ('/' ∉ i ∧ '_' ∉ i) ∧ Listed (fun _ => true) (before ++ after) serv self i a) →
        (m.get i).isSome) := by
  refine view_general mappingId (fun _ => true) g serv before after self hserv hreg hok halone
    ?_ ?_ hservp walk hw
  · intro r _ hr
    simp only [if_true]
    by_cases hp : r.role = .plain
    · exact C55_id_plain g r hp hr.2.2.1 hr.2.2.2 hg hr.2.1
    · exact C55_id_with_role g r hp hr.2.2.1
  · intro i a hi
    obtain ⟨h1, h2⟩ := hself i a hi
    simp only [if_true]
    exact mappingId_self h1 h2 hg hservp

/-- The master view holds exactly the servers standing without the slave role, the slave view
exactly the slaves, under the same provisos (here the group may contain `_`). -/
theorem C55_views_partial (master : Bool) (g serv : Str) (before after : List Op)
    (self : Option (Str × Str)) (hserv : '/' ∉ serv) (hservp : '_' ∉ serv)
    (hreg : serv ≠ ['r', 'e', 'g', 'i', 's', 't', 'r', 'y'])
    (hok : ∀ o ∈ before ++ after, o.Ok g) (halone : Alone (before ++ after) serv)
    (hself : ∀ i a, self = some (i, a) → '/' ∉ i ∧ '_' ∉ i) (walk : List (Str × Str))
    (hw : walk.Perm (local' (selfEntry g serv self) (fmtRegistry g serv)
      (etcd (before.map (Op.ev g))) (after.map (Op.ev g))).entries) :
    ∃ m, serviceMappingWith master walk = some m ∧
      (∀ i a, m.get i = some a → Listed (inView master) (before ++ after) serv self i a) ∧
      (∀ i, (∃ a, ('/' ∉ i ∧ '_' ∉ i) ∧ Listed (inView master) (before ++ after) serv self i a) →
        (m.get i).isSome) := by
  refine view_general (roleId master) (inView master) g serv before after self hserv hreg hok halone
    ?_ ?_ hservp walk hw
  · intro r _ hr
    exact C55_role_view g r master hr.2.2.1 hr.2.2.2
  · intro i a hi
    obtain ⟨h1, h2⟩ := hself i a hi
    exact roleId_self master h1 h2

/-- When no id stands with two addresses, the mapping is exact. -/
theorem C55_exact_partial (g serv : Str) (before after : List Op) (self : Option (Str × Str))
    (hg : '_' ∉ g) (hserv : '/' ∉ serv) (hservp : '_' ∉ serv)
    (hreg : serv ≠ ['r', 'e', 'g', 'i', 's', 't', 'r', 'y'])
    (hok : ∀ o ∈ before ++ after, o.Ok g) (halone : Alone (before ++ after) serv)
    (hself : ∀ i a, self = some (i, a) → '/' ∉ i ∧ '_' ∉ i) (walk : List (Str × Str))
    (hw : walk.Perm (local' (selfEntry g serv self) (fmtRegistry g serv)
      (etcd (before.map (Op.ev g))) (after.map (Op.ev g))).entries)
    (hone : ∀ i a b, Listed (fun _ => true) (before ++ after) serv self i a →
      Listed (fun _ => true) (before ++ after) serv self i b → a = b) :
    ∃ m, serviceMapping walk = some m ∧
      ∀ i a, ('/' ∉ i ∧ '_' ∉ i) →
        (m.get i = some a ↔ Listed (fun _ => true) (before ++ after) serv self i a) := by
  obtain ⟨m, hm, h1, h2⟩ := C55_mapping_partial g serv before after self hg hserv hservp hreg hok
    halone hself walk hw
  refine ⟨m, hm, fun i a hi => ⟨h1 i a, fun hl => ?_⟩⟩
  have := h2 i ⟨a, hi, hl⟩
  obtain ⟨b, hb⟩ := Option.isSome_iff_exists.1 this
  rw [hb, hone i b a (h1 i b hb) hl]

/-- `EtcdRegistry.GetServiceMapping` (meta servers) reads etcd at every call: the same holds
without the watch and without the own entry; etcd_registry.go:53-72. -/
theorem C55_registry_partial (g serv : Str) (ops : List Op)
    (hg : '_' ∉ g) (hserv : '/' ∉ serv) (hservp : '_' ∉ serv)
    (hreg : serv ≠ ['r', 'e', 'g', 'i', 's', 't', 'r', 'y'])
    (hok : ∀ o ∈ ops, o.Ok g) (halone : Alone ops serv) :
    ∃ m, serviceMapping (getPrefix (etcd (ops.map (Op.ev g))) (fmtRegistry g serv)) = some m ∧
      (∀ i a, m.get i = some a → Listed (fun _ => true) ops serv none i a) ∧
      (∀ i, (∃ a, ('/' ∉ i ∧ '_' ∉ i) ∧ Listed (fun _ => true) ops serv none i a) →
        (m.get i).isSome) := by
  have h := C55_mapping_partial g serv ops [] none hg hserv hservp hreg
    (by simpa using hok) (by simpa using halone) (by simp)
    (getPrefix (etcd (ops.map (Op.ev g))) (fmtRegistry g serv))
  simp only [List.append_nil, List.map_nil] at h
  apply h
  let K : KMap Str := ⟨getPrefix (etcd (ops.map (Op.ev g))) (fmtRegistry g serv),
    (etcd (ops.map (Op.ev g))).sorted.sublist List.filter_sublist⟩
  have hK : K = local' (selfEntry g serv none) (fmtRegistry g serv)
      (etcd (ops.map (Op.ev g))) [] := by
    apply ext_get
    intro k
    simp only [local', selfEntry, List.foldl_nil]
    rw [start_get]
    show rawGet (getPrefix _ _) k = _
    simp only [getPrefix]
    rw [rawGet_filter _ (fun k => hasPrefix k (fmtRegistry g serv)) k]
    by_cases hp : hasPrefix k (fmtRegistry g serv) = true
    · simp only [hp, if_true]
      show (etcd _).get k = _
      cases (etcd (ops.map (Op.ev g))).get k <;> simp
    · simp [hp]
  show K.entries.Perm _
  rw [hK]

/-! ### A concrete history -/

/-- Two meta servers and a data server in the default group; the second meta server leaves. -/
def demo : List Op :=
  [.register ⟨"meta".toList, "m1".toList, .master⟩ "a:1".toList,
   .register ⟨"meta".toList, "m2".toList, .slave⟩ "b:1".toList,
   .register ⟨"obj".toList, "d1".toList, .plain⟩ "c:1".toList,
   .other (.put "goodfs/hash_slot/s".toList "x".toList),
   .drop ⟨"meta".toList, "m2".toList, .slave⟩]

example : (∀ o ∈ demo, o.Ok "goodfs".toList) ∧ Alone demo "meta".toList := by
  constructor
  · intro o ho
    simp only [demo, List.mem_cons, List.not_mem_nil, or_false] at ho
    rcases ho with rfl | rfl | rfl | rfl | rfl
    · show _ ∧ _ ∧ _ ∧ _; decide
    · show _ ∧ _ ∧ _ ∧ _; decide
    · show _ ∧ _ ∧ _ ∧ _; decide
    · show _ = _; decide
    · show _ ∧ _ ∧ _ ∧ _; decide
  · intro r a hr hp
    simp only [demo, List.mem_cons, List.not_mem_nil, or_false, Op.register.injEq, reduceCtorEq,
      false_or] at hr
    rcases hr with ⟨rfl, -⟩ | ⟨rfl, -⟩ | ⟨rfl, -⟩
    · rfl
    · rfl
    · exact absurd hp (by decide)

-- what the discovery answers: m1 alone, as master
example : (serviceMapping (local' none (fmtRegistry "goodfs".toList "meta".toList)
    (etcd ((demo.take 2).map (Op.ev "goodfs".toList)))
    ((demo.drop 2).map (Op.ev "goodfs".toList))).entries).map KMap.entries =
    some [("m1".toList, "a:1".toList)] := by decide
example : standing demo ⟨"meta".toList, "m1".toList, .master⟩ = some "a:1".toList ∧
    standing demo ⟨"meta".toList, "m2".toList, .slave⟩ = none := by decide

/-! ### Findings -/

/-- The property in full: whatever names without `/` are used, and whichever events after the
first read reach the watch, the mapping answers and holds exactly the standing servers. -/
def C55_statement : Prop :=
  ∀ (g serv : Str) (before after seen : List Op),
    '/' ∉ serv → (∀ o ∈ before ++ after, match o with
      | .register r _ => '/' ∉ r.serv ∧ '/' ∉ r.id
      | .drop r => '/' ∉ r.serv ∧ '/' ∉ r.id
      | .other e => hasPrefix e.key (fmtRegistry g []) = false) →
    seen.Sublist after →
    ∃ m, serviceMapping (local' none (fmtRegistry g serv) (etcd (before.map (Op.ev g)))
        (seen.map (Op.ev g))).entries = some m ∧
      ∀ i a, m.get i = some a ↔ ∃ role, standing (before ++ after) ⟨serv, i, role⟩ = some a

/-- FINDING.  The watch starts without the revision of the first read (and is restarted the
same way two seconds after it breaks), so an event in between is never seen: a server that left
in that moment stays listed. -/
theorem C55_missed_event :
    let r : Reg := ⟨"obj".toList, "d1".toList, .plain⟩
    let before := [Op.register r "c:1".toList]
    let after := [Op.drop r]
    standing (before ++ after) r = none ∧
    (serviceMapping (local' none (fmtRegistry "goodfs".toList "obj".toList)
      (etcd (before.map (Op.ev "goodfs".toList))) []).entries).map KMap.entries =
      some [("d1".toList, "c:1".toList)] := by
  decide

theorem C55_statement_fails : ¬ C55_statement := by
  intro h
  obtain ⟨m, hm, hex⟩ := h "goodfs".toList "obj".toList
    [.register ⟨"obj".toList, "d1".toList, .plain⟩ "c:1".toList]
    [.drop ⟨"obj".toList, "d1".toList, .plain⟩] [] (by decide) (by
      intro o ho
      simp only [List.cons_append, List.nil_append, List.mem_cons, List.not_mem_nil, or_false] at ho
      rcases ho with rfl | rfl <;> (show _ ∧ _; decide)) (by simp)
  have hd := C55_missed_event.2
  simp only [List.map_nil] at hm
  rw [hm] at hd
  simp only [Option.map_some, Option.some.injEq] at hd
  have hg : m.get "d1".toList = some "c:1".toList := by
    rw [KMap.get, hd]; decide
  obtain ⟨role, hr⟩ := (hex _ _).1 hg
  revert hr
  cases role <;> decide

/-- FINDING.  The prefix of a service name ends without `/`: a service whose name starts with
this one is mixed in. -/
theorem C55_prefix_mixes :
    let ops := [Op.register ⟨"meta2".toList, "x".toList, .plain⟩ "c:1".toList]
    standing ops ⟨"meta".toList, "x".toList, .plain⟩ = none ∧
    (serviceMapping (local' none (fmtRegistry "goodfs".toList "meta".toList)
      (etcd (ops.map (Op.ev "goodfs".toList))) []).entries).map KMap.entries =
      some [("x".toList, "c:1".toList)] := by
  decide

/-- FINDING.  The own entry of a process is stored without its role: a meta server's (or any
process's) own view of its service lists it among the masters although it is a slave, and
keeps listing it after it has left. -/
theorem C55_self_is_master (g serv i a : Str) (before after : List Op)
    (hserv : '/' ∉ serv) (hservp : '_' ∉ serv)
    (hreg : serv ≠ ['r', 'e', 'g', 'i', 's', 't', 'r', 'y'])
    (hok : ∀ o ∈ before ++ after, o.Ok g) (halone : Alone (before ++ after) serv)
    (hi : '/' ∉ i ∧ '_' ∉ i) (walk : List (Str × Str))
    (hw : walk.Perm (local' (selfEntry g serv (some (i, a))) (fmtRegistry g serv)
      (etcd (before.map (Op.ev g))) (after.map (Op.ev g))).entries) :
    ∃ m, serviceMappingWith true walk = some m ∧ (m.get i).isSome := by
  obtain ⟨m, hm, -, h2⟩ := C55_views_partial true g serv before after (some (i, a)) hserv hservp
    hreg hok halone (by rintro j b h; cases h; exact hi) walk hw
  exact ⟨m, hm, h2 i ⟨a, hi, Or.inr ⟨rfl, rfl⟩⟩⟩

/-- FINDING.  Once such a process is also registered, `GetServices` (the list of all addresses)
holds it twice, so it is chosen twice as often as the others. -/
theorem C55_self_twice :
    let r : Reg := ⟨"obj".toList, "d1".toList, .plain⟩
    ((local' (selfEntry "goodfs".toList "obj".toList (some ("d1".toList, "c:1".toList)))
      (fmtRegistry "goodfs".toList "obj".toList)
      (etcd ([Op.register r "c:1".toList].map (Op.ev "goodfs".toList))) []).entries).map (·.2) =
      ["c:1".toList, "c:1".toList] := by
  decide

/-! ## The role of a server over time -/

/-- What happens to one meta server: a new lease (`Lifecycle` calls `Register`), a change of
leadership, the loss of its lease.  The flags say whether etcd answered. -/
inductive Life where
  | lease (ok : Bool)
  | leader (isLeader : Bool) (delOk putOk : Bool)
  | expire

/-- The role set on the registry and the operations done so far; `AsMaster`/`AsSlave` change the
name used by the next `Key()`; src/metaserver/internal/usecase/logic/registry_logic.go:11-18,
src/metaserver/internal/app/app.go:52-58.  Simplified: the goroutine of a new lease and the one
of a leadership change do not interleave. -/
def life (serv i addr : Str) : Role × List Op → Life → Role × List Op
  | (ro, ops), .lease ok => (ro, ops ++ if ok then [.register ⟨serv, i, ro⟩ addr] else [])
  | (ro, ops), .leader l delOk putOk =>
    let new := if l then Role.master else Role.slave
    (new, ops ++ (if delOk then [.drop ⟨serv, i, ro⟩] else []) ++
      (if putOk then [.register ⟨serv, i, new⟩ addr] else []))
  | (ro, ops), .expire =>
    (ro, ops ++ [.drop ⟨serv, i, .plain⟩, .drop ⟨serv, i, .master⟩, .drop ⟨serv, i, .slave⟩])

theorem standing_append (ops : List Op) (o : Op) (r : Reg) :
    standing (ops ++ [o]) r = (match o with
      | .register r' a => if r' = r then some a else standing ops r
      | .drop r' => if r' = r then none else standing ops r
      | .other _ => standing ops r) := by
  simp [standing, List.foldl_append]

/-- While etcd answers the unregistrations, a server stands with at most one role, the one it
has, through every sequence of leases and leadership changes. -/
theorem C55_one_role_partial (serv i addr : Str) (start : Role) (ls : List Life)
    (hdel : ∀ l d p, Life.leader l d p ∈ ls → d = true) (ro : Role)
    (h : standing (ls.foldl (life serv i addr) (start, [])).2 ⟨serv, i, ro⟩ ≠ none) :
    ro = (ls.foldl (life serv i addr) (start, [])).1 ∧
      standing (ls.foldl (life serv i addr) (start, [])).2 ⟨serv, i, ro⟩ = some addr := by
  have inv : ∀ (ls : List Life) (st : Role × List Op), (∀ l d p, Life.leader l d p ∈ ls → d = true) →
      (∀ ro, standing st.2 ⟨serv, i, ro⟩ ≠ none →
        ro = st.1 ∧ standing st.2 ⟨serv, i, ro⟩ = some addr) →
      ∀ ro, standing (ls.foldl (life serv i addr) st).2 ⟨serv, i, ro⟩ ≠ none →
        ro = (ls.foldl (life serv i addr) st).1 ∧
          standing (ls.foldl (life serv i addr) st).2 ⟨serv, i, ro⟩ = some addr := by
    intro ls
    induction ls with
    | nil => intro st _ h; simpa using h
    | cons l ls ih =>
      intro st hd h
      simp only [List.foldl_cons]
      apply ih _ (fun a b c hm => hd a b c (List.mem_cons_of_mem _ hm))
      intro ro hro
      obtain ⟨cur, ops⟩ := st
      cases l with
      | lease ok =>
        cases ok with
        | false => simp only [life, Bool.false_eq_true, if_false, List.append_nil] at hro ⊢; exact h ro hro
        | true =>
          simp only [life, if_true, standing_append] at hro ⊢
          by_cases hr : cur = ro
          · subst hr; simp
          · have hne : (⟨serv, i, cur⟩ : Reg) ≠ ⟨serv, i, ro⟩ := by simp [hr]
            rw [if_neg hne] at hro ⊢
            exact h ro hro
      | leader l d p =>
        have hd' := hd l d p List.mem_cons_self
        subst hd'
        cases p with
        | false =>
          simp only [life, if_true, Bool.false_eq_true, if_false, List.append_nil,
            standing_append] at hro ⊢
          by_cases hr : cur = ro
          · subst hr; simp at hro
          · have hne : (⟨serv, i, cur⟩ : Reg) ≠ ⟨serv, i, ro⟩ := by simp [hr]
            rw [if_neg hne] at hro
            exact absurd (h ro hro).1.symm hr
        | true =>
          simp only [life, if_true, standing_append] at hro ⊢
          generalize (if l = true then Role.master else Role.slave) = new at hro ⊢
          by_cases hn : new = ro
          · subst hn; simp
          · have hne : (⟨serv, i, new⟩ : Reg) ≠ ⟨serv, i, ro⟩ := by simp [hn]
            rw [if_neg hne] at hro
            by_cases hr : cur = ro
            · subst hr; simp at hro
            · have hne : (⟨serv, i, cur⟩ : Reg) ≠ ⟨serv, i, ro⟩ := by simp [hr]
              rw [if_neg hne] at hro
              exact absurd (h ro hro).1.symm hr
      | expire =>
        have he : standing (life serv i addr (cur, ops) .expire).2 ⟨serv, i, ro⟩ = none := by
          have : ops ++ [Op.drop ⟨serv, i, .plain⟩, .drop ⟨serv, i, .master⟩, .drop ⟨serv, i, .slave⟩] =
              ((ops ++ [Op.drop ⟨serv, i, .plain⟩]) ++ [.drop ⟨serv, i, .master⟩]) ++
                [.drop ⟨serv, i, .slave⟩] := by simp
          simp only [life, this, standing_append]
          cases ro <;> simp
        exact absurd he hro
  exact inv ls (start, []) hdel (by intro ro h; simp [standing] at h) ro h

-- a slave becomes leader, then loses leadership: it stands as slave only
example : standing (([.lease true, .leader true true true, .leader false true true] : List Life).foldl
    (life "meta".toList "m1".toList "a:1".toList) (.slave, [])).2 ⟨"meta".toList, "m1".toList, .slave⟩ =
      some "a:1".toList ∧
    standing (([.lease true, .leader true true true, .leader false true true] : List Life).foldl
    (life "meta".toList "m1".toList "a:1".toList) (.slave, [])).2 ⟨"meta".toList, "m1".toList, .master⟩ =
      none := by decide

/-- FINDING.  The result of `Unregister` is ignored.  If that call fails, the server stands with
both roles for as long as its lease is kept alive: a server that lost leadership stays in the
master view. -/
theorem C55_two_roles :
    let ops := (([.lease true, .leader false false true] : List Life).foldl
      (life "meta".toList "m1".toList "a:1".toList) (.master, [])).2
    standing ops ⟨"meta".toList, "m1".toList, .slave⟩ = some "a:1".toList ∧
    standing ops ⟨"meta".toList, "m1".toList, .master⟩ = some "a:1".toList := by decide

/-! ## Default server ids -/

/-- `Config.SID` without a configured id: name, `-`, address with `.` removed and `:` replaced
by `-`; src/common/registry/config.go:36-44. -/
def defaultSid (name addr : Str) : Str :=
  name ++ '-' :: ((addr.filter (· ≠ '.')).map fun c => if c = ':' then '-' else c)

/-- Servers of one machine (same IP) get different ids for different ports. -/
theorem C55_sid_ports (name ip p q : Str) (hp : ∀ c ∈ p, c.isDigit = true) (hq : ∀ c ∈ q, c.isDigit = true)
    (h : defaultSid name (ip ++ ':' :: p) = defaultSid name (ip ++ ':' :: q)) : p = q := by
  have hd : ∀ (s : Str), (∀ c ∈ s, c.isDigit = true) →
      ((s.filter (· ≠ '.')).map fun c => if c = ':' then '-' else c) = s := by
    intro s hs
    have hf : s.filter (· ≠ '.') = s := by
      rw [List.filter_eq_self]
      intro c hc
      have := hs c hc
      have hne : c ≠ '.' := by rintro rfl; revert this; decide
      simpa using hne
    rw [hf]
    conv => rhs; rw [← List.map_id s]
    apply List.map_congr_left
    intro c hc
    have := hs c hc
    have hne : c ≠ ':' := by rintro rfl; revert this; decide
    simp [hne]
  have h1 : ((p.filter (· ≠ '.')).map fun c => if c = ':' then '-' else c) =
      ((q.filter (· ≠ '.')).map fun c => if c = ':' then '-' else c) := by
    have := h
    simp only [defaultSid, List.append_cancel_left_eq, List.cons.injEq, true_and,
      List.filter_append, List.map_append, List.filter_cons] at this
    simpa using this
  rw [hd p hp, hd q hq] at h1
  exact h1

/-- FINDING.  Different machines can get the same default id: the dots of the address are simply
dropped.  The second to register overwrites the first. -/
theorem C55_sid_collide :
    defaultSid "obj".toList "10.1.11.1:80".toList = defaultSid "obj".toList "10.11.1.1:80".toList := by
  decide

end Verif.Discovery
