import Verif.Meta.Index

/-!
# Moving a shard to another data server (C68)

Models src/objectserver/internal/usecase/service/migration_service.go (`writeStream`, `sendFileTo`,
the part of `SendingTo` for one file, `FinishObject`, `OpenFile`),
src/objectserver/internal/controller/grpc/migration_server.go (`ReceiveData`, `FinishReceive`) and
`UpdateVersionLocates`, src/objectserver/internal/usecase/webapi/meta_server.go:31-51, against the
metadata store of `Verif.Meta.Model`.

One shard is sent by one server.  The connections are described by what gets through; the metadata
masters are those the discovery returns.  Not modelled: the path database of the receiver (a file is
found where it was put, see `Verif.Object.Paths`), and writes of other clients while the shard moves.
-/

namespace Verif.Relocate

open Verif.Meta

abbrev Bytes := List UInt8

/-! ## The metadata -/

/-- What happens to one request over the network. -/
inductive Net
  | works
  | lost          -- the request does not arrive
  | answerLost    -- it is carried out, the answer does not arrive
  deriving DecidableEq

/-- What the caller of `UpdateVersionLocates` sees. -/
inductive Reply
  | ok | notFound | failed
  deriving DecidableEq

/-- The HTTP answer of the handler `UpdateLocates`, http/version_rest.go:123-138: 404 for
`ErrNotFound` (`response.FailErr`), 500 for other errors and, by gin's recovery, for a panic. -/
def Reply.ofRes : Res → Reply
  | .err .notFound => .notFound
  | .err _ => .failed
  | .panic => .failed
  | _ => .ok

/-- One metadata master: the network to it, the time of its clock, and its store. -/
structure Master where
  net : Net
  now : Int
  store : Store

/-- `UpdateVersionLocates(ip, hash, seq, newLoc)` against one master: what the caller sees and the
store of the master. -/
def patch (hash : Str) (i : Nat) (loc : Str) (m : Master) : Reply × Store :=
  let r := step m.store (.updateLocate m.now hash i loc)
  match m.net with
  | .works => (.ofRes r.1, r.2)
  | .lost => (.failed, m.store)
  | .answerLost => (.failed, r.2)

/-- `FinishObject`, migration_service.go:288-315, the metadata part: whether it succeeds, and the
stores of the masters.  404 is no failure (lines 301-303). -/
def updateAll (hash : Str) (i : Nat) (loc : Str) (ms : List Master) : Bool × List Store :=
  let rs := ms.map (patch hash i loc)
  (ms ≠ [] ∧ (rs.filter fun r => r.1 = .failed).length < (ms.length + 1) / 2, rs.map (·.2))

/-! ## The data -/

/-- `OpenFile` (migration_service.go:318-336) with `ReceiveData` (migration_server.go:30-63) and
`writeStream` (migration_service.go:94-138): whether the sender sees success, and the receiver's file.
`old` is the file the receiver has, `arrived` how many bytes get through, `answer` whether the answer
does.  `none` when the loop of `writeStream` does not end: for an empty file the buffer is empty, and
reading into it never reports the end of the file (lines 117-125). -/
def sendData (data : Bytes) (old : Option Bytes) (arrived : Nat) (answer : Bool) : Option (Bool × Option Bytes) :=
  match old with
  | some o =>
    if o.length = data.length then some (answer, some o)
    else if data = [] then none
    else some (decide (data.length ≤ arrived) && answer, some (data.take arrived))
  | none =>
    if data = [] then none
    else some (decide (data.length ≤ arrived) && answer, some (data.take arrived))

/-- The servers as far as the shard is concerned. -/
structure World where
  source : Option Bytes
  target : Option Bytes
  masters : List Master

/-- How the move of one shard goes. -/
structure Luck where
  arrived : Nat
  answer : Bool
  /-- the answer of `FinishReceive` arrives -/
  finished : Bool

/-- `sendFileTo`, migration_service.go:140-161, followed by the deletion of the local file when it
succeeds, lines 210-226.  `FinishObject` compares the sizes first (lines 267-277). -/
def move (hash : Str) (i : Nat) (loc : Str) (l : Luck) (w : World) : Option (Bool × World) :=
  match w.source with
  | none => some (false, w)
  | some data =>
    match sendData data w.target l.arrived l.answer with
    | none => none
    | some (false, t) => some (false, { w with target := t })
    | some (true, t) =>
      if (t.map List.length) ≠ some data.length then some (false, { w with target := t })
      else
        let u := updateAll hash i loc w.masters
        let ms := (w.masters.zip u.2).map fun p => { p.1 with store := p.2 }
        if u.1 && l.finished then some (true, { source := none, target := t, masters := ms })
        else some (false, { source := some data, target := t, masters := ms })

/-! ## Specification -/

/-- Every version of this content says that shard `i` is on server `loc`. -/
def Names (s : Store) (hash : Str) (i : Nat) (loc : Str) : Prop :=
  ∀ n q v, getVer s n q = .ok v → v.hash = hash → v.locate[i]? = some loc

/-- **C68**, the full statement: when the copy at the source is gone, the receiver has it, and all
metadata name the receiver. -/
def C68_statement : Prop :=
  ∀ (hash : Str) (i : Nat) (loc : Str) (l : Luck) (w w' : World) (data : Bytes) (r : Bool),
    (∀ m ∈ w.masters, Reachable m.store) → w.source = some data → (w.target = none ∨ w.target = some data) →
    move hash i loc l w = some (r, w') → w'.source = none →
      w'.target = some data ∧ ∀ m ∈ w'.masters, Names m.store hash i loc

/-! ## Relocation in one store -/

theorem updateVer_stored {n : Str} {d : Version} {s s' : Store} (h : updateVer n d s = (.ok (), s'))
    (n' : Str) (q : Nat) (v : Version) :
    Stored s' n' q v ↔
      (n' = n ∧ q = d.sequence ∧ ∃ o, Stored s n q o ∧
        v = { d with uniqueId := o.uniqueId, sequence := o.sequence, hash := o.hash }) ∨
      (¬ (n' = n ∧ q = d.sequence) ∧ Stored s n' q v) := by
  obtain ⟨b, o, h1, h2, h3, rfl⟩ := updateVer_ok h
  rw [stored_put (s := s) (n := n) rfl]
  split
  · rename_i hn; subst hn
    by_cases hq : q = d.sequence
    · subst hq
      rw [KMap.get_put_self]
      constructor
      · intro e
        exact .inl ⟨rfl, rfl, o, ⟨b, h1, h2⟩, (Option.some.inj e).symm⟩
      · rintro (⟨_, _, o', ⟨b', hb', ho'⟩, rfl⟩ | ⟨h, _⟩)
        · rw [h1] at hb'; cases hb'
          rw [h2] at ho'; cases ho'
          rfl
        · exact absurd ⟨rfl, rfl⟩ h
    · rw [KMap.get_put_ne _ _ fun e => hq (verKey_inj e).2]
      constructor
      · intro hg; exact .inr ⟨fun h => hq h.2, b, h1, hg⟩
      · rintro (⟨_, h, _⟩ | ⟨_, b', hb', hg⟩)
        · exact absurd h hq
        · rw [h1] at hb'; cases hb'; exact hg
  · rename_i hn
    constructor
    · intro h; exact .inr ⟨fun h => hn h.1, h⟩
    · rintro (⟨h, _⟩ | ⟨_, h⟩)
      · exact absurd h hn
      · exact h

theorem setNth_get {l l' : List Str} {i : Nat} {v : Str} (h : setNth l i v = some l') : l'[i]? = some v := by
  unfold setNth at h
  split at h
  · rename_i hi
    cases h
    simp [hi]
  · cases h

theorem stored_sequence {s : Store} (hi : Inv s) {n : Str} {q : Nat} {v : Version} (h : Stored s n q v) :
    v.sequence = q := by
  obtain ⟨b, hb, hg⟩ := h
  obtain ⟨q', hk, _, hq⟩ := hi.key n b _ v hb hg
  rw [hq, (verKey_inj hk).2]

/-- What a relocation of a list of index entries does to the versions. -/
theorem loop_names {now : Int} {i : Nat} {val : Str} {keys : List Str} {s s' : Store} (hi : Inv s)
    (hk : ∀ k ∈ keys, ∃ n q, k = verKey n q)
    (h : updateLocateLoop now i val keys s = some (.ok (), s')) :
    (∀ n q v, verKey n q ∈ keys → Stored s' n q v → v.locate[i]? = some val) ∧
    (∀ n q v, verKey n q ∉ keys → Stored s' n q v → Stored s n q v) ∧
    (∀ n q v', Stored s' n q v' → ∃ v, Stored s n q v ∧ v.hash = v'.hash) := by
  induction keys generalizing s with
  | nil =>
    simp only [updateLocateLoop] at h
    cases h
    exact ⟨by simp, fun _ _ _ _ h => h, fun n q v h => ⟨v, h, rfl⟩⟩
  | cons k ks ih =>
    obtain ⟨n0, q0, rfl⟩ := hk k (by simp)
    simp only [updateLocateLoop, cutLast_verKey] at h
    split at h
    · cases h
    · rename_i v0 hv0
      split at h
      · cases h
      · rename_i l hl
        split at h
        · cases h
        · rename_i s1 hu
          have hq0 : toUint64 (fmtNat q0) = q0 := by
            have := keySeq_verKey n0 q0
            simpa [keySeq, cutLast_verKey] using this
          rw [hq0, getVer_ok_iff] at hv0
          have hseq : v0.sequence = q0 := stored_sequence hi hv0
          have hst := updateVer_stored hu
          simp only [hseq] at hst
          have hi1 : Inv s1 := by
            obtain ⟨b, o, h1, h2, h3, rfl⟩ := updateVer_ok hu
            exact inv_eff (.updateVer _ _ b o h1 h2 h3) hi
          obtain ⟨a1, a2, a3⟩ := ih hi1 (fun k hk' => hk k (by simp [hk'])) h
          refine ⟨?_, ?_, ?_⟩
          · intro n q v hm hv
            by_cases hr : verKey n q ∈ ks
            · exact a1 n q v hr hv
            · have hs1 := a2 n q v hr hv
              rcases List.mem_cons.1 hm with he | he
              · obtain ⟨rfl, rfl⟩ := verKey_inj he
                rw [hst] at hs1
                rcases hs1 with ⟨_, _, o, _, rfl⟩ | ⟨hne, _⟩
                · exact setNth_get hl
                · exact absurd ⟨rfl, rfl⟩ hne
              · exact absurd he hr
          · intro n q v hm hv
            have hs1 := a2 n q v (fun h => hm (by simp [h])) hv
            rw [hst] at hs1
            rcases hs1 with ⟨rfl, rfl, _⟩ | ⟨_, h⟩
            · exact absurd (by simp) hm
            · exact h
          · intro n q v' hv'
            obtain ⟨w, hw, hh⟩ := a3 n q v' hv'
            rw [hst] at hw
            rcases hw with ⟨rfl, rfl, o, ho, rfl⟩ | ⟨_, h⟩
            · exact ⟨o, ho, hh⟩
            · exact ⟨w, h, hh⟩

/-- A relocation that succeeds renames the location in every version of the content. -/
theorem names_of_ok {now : Int} {hash : Str} {i : Nat} {loc : Str} {s : Store} (hr : Reachable s)
    (h : (step s (.updateLocate now hash i loc)).1 = .ok) :
    Names (step s (.updateLocate now hash i loc)).2 hash i loc := by
  have hi := inv_reachable hr
  simp only [step, updateLocateByHash] at h ⊢
  split at h
  · cases h
  · rename_i s' hu
    simp only [hu]
    obtain ⟨a1, _, a3⟩ := loop_names hi (fun k hk => hi.shape hash k hk) hu
    intro n q v hv hh
    rw [getVer_ok_iff] at hv
    obtain ⟨w, hw, hwh⟩ := a3 n q v hv
    refine a1 n q v ?_ hv
    rw [← hh, ← hwh]
    exact hi.hashIn n q w hw
  · cases h

/-- Without deletions of objects a relocation is never answered with 404. -/
theorem not_notFound {now : Int} {i : Nat} {loc : Str} {keys : List Str} {s : Store} (hi : Inv s)
    (hk : ∀ k ∈ keys, ∃ n q v, k = verKey n q ∧ Stored s n q v) (s' : Store) :
    updateLocateLoop now i loc keys s ≠ some (.error .notFound, s') := by
  induction keys generalizing s with
  | nil => simp [updateLocateLoop]
  | cons k ks ih =>
    obtain ⟨n0, q0, v0, rfl, hv⟩ := hk k (by simp)
    have hq0 : toUint64 (fmtNat q0) = q0 := by
      have := keySeq_verKey n0 q0
      simpa [keySeq, cutLast_verKey] using this
    have hseq : v0.sequence = q0 := stored_sequence hi hv
    intro h
    simp only [updateLocateLoop, cutLast_verKey, hq0, (getVer_ok_iff s n0 q0 v0).2 hv] at h
    split at h
    · cases h
    · split at h
      · rename_i l _ e s1 hu
        injection h with h
        injection h with h1 h2
        injection h1 with h1
        subst h1
        obtain ⟨b, hb, hg⟩ := hv
        rw [← hseq] at hg
        simp only [updateVer, hb, hg] at hu
        split at hu
        · cases hu
        · split at hu
          · rename_i e' he'
            unfold keyErr at he'
            injection hu with hu1 _
            injection hu1 with hu1
            subst hu1
            split at he'
            · cases he'
            · split at he' <;> cases he'
          · cases hu
      · rename_i l _ s1 hu
        obtain ⟨b, o, h1, h2, h3, he⟩ := updateVer_ok hu
        have hi1 : Inv s1 := by rw [he]; exact inv_eff (.updateVer _ _ b o h1 h2 h3) hi
        refine ih hi1 ?_ h
        intro k hk'
        obtain ⟨n, q, v, rfl, hv'⟩ := hk k (by simp [hk'])
        have hst := updateVer_stored hu n q
        by_cases hc : n = n0 ∧ q = v0.sequence
        · exact ⟨n, q, _, rfl, (hst _).2 (.inl ⟨hc.1, hc.2, v, hc.1 ▸ hv', rfl⟩)⟩
        · exact ⟨n, q, v, rfl, (hst _).2 (.inr ⟨hc, hv'⟩)⟩

/-! ## Properties -/

theorem patch_names {hash : Str} {i : Nat} {loc : Str} {m : Master} (hr : Reachable m.store)
    (h : (patch hash i loc m).1 = .ok) : Names (patch hash i loc m).2 hash i loc := by
  unfold patch at h ⊢
  cases hn : m.net with
  | works =>
    simp only [hn] at h ⊢
    apply names_of_ok hr
    cases hs : (step m.store (.updateLocate m.now hash i loc)).1 with
    | ok => rfl
    | seq q => simp only [step] at hs; split at hs <;> cases hs
    | versions l => simp only [step] at hs; split at hs <;> cases hs
    | err e => rw [hs] at h; cases e <;> cases h
    | panic => rw [hs] at h; cases h
  | lost => simp only [hn] at h; cases h
  | answerLost => simp only [hn] at h; cases h

theorem patch_sound {hash : Str} {i : Nat} {loc : Str} {m : Master} (hr : Reachable m.store)
    (hs : HashSound m.store) : (patch hash i loc m).1 ≠ .notFound := by
  unfold patch
  have hi := inv_reachable hr
  cases hn : m.net with
  | works =>
    simp only
    intro h
    have key : (step m.store (.updateLocate m.now hash i loc)).1 = .err .notFound := by
      cases hs : (step m.store (.updateLocate m.now hash i loc)).1 with
      | ok => rw [hs] at h; cases h
      | seq q => rw [hs] at h; cases h
      | versions l => rw [hs] at h; cases h
      | err e => rw [hs] at h; cases e <;> first | rfl | cases h
      | panic => rw [hs] at h; cases h
    simp only [step] at key
    split at key
    · cases key
    · cases key
    · rename_i e s' hu
      injection key with key
      subst key
      refine not_notFound hi ?_ s' hu
      intro k hk
      obtain ⟨n, q, rfl⟩ := hi.shape hash k hk
      obtain ⟨v, hv, _⟩ := hs hash n q hk
      exact ⟨n, q, v, rfl, hv⟩
  | lost => simp
  | answerLost => simp

theorem sendData_ok {data : Bytes} {old : Option Bytes} {a : Nat} {b : Bool} {t : Option Bytes}
    (h : sendData data old a b = some (true, t))
    (hold : ∀ o, old = some o → o.length = data.length → o = data) : t = some data := by
  have key : data.length ≤ a → data.take a = data := List.take_of_length_le
  unfold sendData at h
  split at h
  · rename_i o
    split at h
    · rename_i hl
      injection h with h
      injection h with _ h
      rw [← h, hold o rfl hl]
    · split at h
      · cases h
      · injection h with h
        injection h with h1 h
        simp only [Bool.and_eq_true, decide_eq_true_eq] at h1
        rw [← h, key h1.1]
  · split at h
    · cases h
    · injection h with h
      injection h with h1 h
      simp only [Bool.and_eq_true, decide_eq_true_eq] at h1
      rw [← h, key h1.1]

/-- What is known when the copy at the source is gone. -/
theorem move_gone {hash : Str} {i : Nat} {loc : Str} {l : Luck} {w w' : World} {data : Bytes} {r : Bool}
    (hs : w.source = some data) (h : move hash i loc l w = some (r, w')) (hg : w'.source = none) :
    r = true ∧ sendData data w.target l.arrived l.answer = some (true, w'.target) ∧
      (updateAll hash i loc w.masters).1 = true ∧
      w'.masters = (w.masters.zip (updateAll hash i loc w.masters).2).map fun p => { p.1 with store := p.2 } := by
  simp only [move, hs] at h
  split at h
  · cases h
  · injection h with h; injection h with _ h; subst h; cases hg
  · rename_i t ht
    split at h
    · injection h with h; injection h with _ h; subst h; cases hg
    · split at h
      · rename_i hu
        rw [Bool.and_eq_true] at hu
        injection h with h
        injection h with h1 h
        subst h
        exact ⟨h1.symm, ht, hu.1, rfl⟩
      · injection h with h; injection h with _ h; subst h; cases hg

/-- **C68** When everything arrives, a shard that is not empty is moved, whatever the receiver had. -/
theorem C68_goes_through {hash : Str} {i : Nat} {loc : Str} {l : Luck} {w : World} {data : Bytes} (hne : data ≠ [])
    (hs : w.source = some data) (ht : ∀ o, w.target = some o → o.length = data.length → o = data)
    (ha : data.length ≤ l.arrived) (hans : l.answer = true) (hfin : l.finished = true)
    (hu : (updateAll hash i loc w.masters).1 = true) :
    ∃ w', move hash i loc l w = some (true, w') ∧ w'.source = none ∧ w'.target = some data := by
  have hd : sendData data w.target l.arrived l.answer = some (true, some data) := by
    unfold sendData
    cases ho : w.target with
    | none => simp [hne, ha, hans, List.take_of_length_le ha]
    | some o =>
      by_cases hl : o.length = data.length
      · simp [hl, hans, ht o ho hl]
      · simp [hl, hne, ha, hans, List.take_of_length_le ha]
  unfold move
  simp only [hs, hd, hu, hfin, Option.map_some, ne_eq, not_true, if_false, Bool.and_self, if_true]
  exact ⟨_, rfl, rfl, rfl⟩

/-- **C68** (the data): whatever fails, the shard is deleted at the source only when the receiver has
its content; and a move that is not successful leaves the source as it was.  A file the receiver
already has must not have the same length and another content (`C68_same_size`). -/
theorem C68_content {hash : Str} {i : Nat} {loc : Str} {l : Luck} {w w' : World} {data : Bytes} {r : Bool}
    (hs : w.source = some data) (ht : ∀ o, w.target = some o → o.length = data.length → o = data)
    (h : move hash i loc l w = some (r, w')) :
    (r = true → w'.source = none ∧ w'.target = some data) ∧ (r = false → w'.source = some data) := by
  constructor
  · intro hr
    subst hr
    have hg : w'.source = none := by
      simp only [move, hs] at h
      split at h
      · cases h
      · cases h
      · split at h
        · cases h
        · split at h
          · injection h with h; injection h with _ h; subst h; rfl
          · cases h
    exact ⟨hg, sendData_ok (move_gone hs h hg).2.1 ht⟩
  · intro hr
    subst hr
    simp only [move, hs] at h
    split at h
    · cases h
    · injection h with h; injection h with _ h; subst h; rfl
    · split at h
      · injection h with h; injection h with _ h; subst h; rfl
      · split at h
        · cases h
        · injection h with h; injection h with _ h; subst h; rfl

theorem mem_after {hash : Str} {i : Nat} {loc : Str} {ms : List Master} {m : Master}
    (h : m ∈ (ms.zip (updateAll hash i loc ms).2).map fun p => { p.1 with store := p.2 }) :
    ∃ m0 ∈ ms, m.store = (patch hash i loc m0).2 := by
  simp only [updateAll, List.map_map] at h
  obtain ⟨p, hp, rfl⟩ := List.mem_map.1 h
  rw [List.zip_map_right, List.mem_map] at hp
  obtain ⟨x, hx, rfl⟩ := hp
  obtain ⟨hx1, -⟩ := List.of_mem_zip hx
  refine ⟨x.1, hx1, ?_⟩
  have : x.1 = x.2 := by
    have : ∀ (l : List Master) (y : Master × Master), y ∈ l.zip l → y.1 = y.2 := by
      intro l
      induction l with
      | nil => simp
      | cons a l ih =>
        intro y hy
        rcases List.mem_cons.1 (by simpa using hy) with h | h
        · subst h; rfl
        · exact ih y h
    exact this ms x hx
  simp [this]

/-- **C68** (partial): with at most two metadata masters whose objects were never deleted, the copy at
the source is deleted only when every version of the content, on every master, names the receiver.

Missing: after a deletion the left-over index entries make the master answer 404, which counts as
success (`C68_dangling`); with three masters one may be missed (`C68_minority`); the change is made
on the leaders only, not through the log (`C28_relocation_bypasses_log`). -/
theorem C68_named_partial {hash : Str} {i : Nat} {loc : Str} {l : Luck} {w w' : World} {data : Bytes} {r : Bool}
    (hm : ∀ m ∈ w.masters, ∃ ops : List Op, (∀ op ∈ ops, ¬ DestroysAny op) ∧ (run .empty ops).2 = m.store)
    (hn : w.masters.length ≤ 2) (hs : w.source = some data) (h : move hash i loc l w = some (r, w'))
    (hg : w'.source = none) : ∀ m ∈ w'.masters, Names m.store hash i loc := by
  obtain ⟨_, _, hu, hms⟩ := move_gone hs h hg
  intro m hmem
  rw [hms] at hmem
  obtain ⟨m0, hm0, he⟩ := mem_after hmem
  obtain ⟨ops, hops, hrun⟩ := hm m0 hm0
  have hreach : Reachable m0.store := ⟨ops, hrun⟩
  have hsound : HashSound m0.store := hrun ▸ hashSound_run inv_empty hashSound_empty ops hops
  rw [he]
  apply patch_names hreach
  have hnf := patch_sound (hash := hash) (i := i) (loc := loc) hreach hsound
  have hnfail : (patch hash i loc m0).1 ≠ .failed := by
    intro hf
    simp only [updateAll, decide_eq_true_eq] at hu
    have : 0 < ((w.masters.map (patch hash i loc)).filter fun r => r.1 = .failed).length := by
      apply List.length_pos_of_mem (a := patch hash i loc m0)
      rw [List.mem_filter]
      exact ⟨List.mem_map.2 ⟨m0, hm0, rfl⟩, by simp [hf]⟩
    omega
  cases hp : (patch hash i loc m0).1 with
  | ok => rfl
  | notFound => exact absurd hp hnf
  | failed => exact absurd hp hnfail

/-- **C68** (partial): with any number of masters, fewer than half of them miss the new place. -/
theorem C68_most_partial {hash : Str} {i : Nat} {loc : Str} {l : Luck} {w w' : World} {data : Bytes} {r : Bool}
    (hm : ∀ m ∈ w.masters, ∃ ops : List Op, (∀ op ∈ ops, ¬ DestroysAny op) ∧ (run .empty ops).2 = m.store)
    (hs : w.source = some data) (h : move hash i loc l w = some (r, w')) (hg : w'.source = none) :
    ∃ missed : List Master, 2 * missed.length < w'.masters.length + 1 ∧
      ∀ m ∈ w'.masters, m ∈ missed ∨ Names m.store hash i loc := by
  obtain ⟨_, _, hu, hms⟩ := move_gone hs h hg
  have hlen : w'.masters.length = w.masters.length := by
    rw [hms]; simp [updateAll]
  have hms' : w'.masters = w.masters.map fun m => { m with store := (patch hash i loc m).2 } := by
    rw [hms]
    simp only [updateAll, List.map_map]
    generalize w.masters = ms
    induction ms with
    | nil => rfl
    | cons a ms ih => simpa using ih
  refine ⟨(w.masters.filter fun m => (patch hash i loc m).1 = .failed).map
    fun m => { m with store := (patch hash i loc m).2 }, ?_, ?_⟩
  · simp only [updateAll, decide_eq_true_eq] at hu
    rw [List.length_map, hlen]
    have : (w.masters.filter fun m => (patch hash i loc m).1 = .failed).length =
        ((w.masters.map (patch hash i loc)).filter fun r => r.1 = .failed).length := by
      rw [List.filter_map, List.length_map]; rfl
    rw [this]
    omega
  · intro m hmem
    rw [hms'] at hmem
    obtain ⟨m0, hm0, rfl⟩ := List.mem_map.1 hmem
    by_cases hf : (patch hash i loc m0).1 = .failed
    · exact .inl (List.mem_map.2 ⟨m0, List.mem_filter.2 ⟨hm0, by simp [hf]⟩, rfl⟩)
    · right
      obtain ⟨ops, hops, hrun⟩ := hm m0 hm0
      have hreach : Reachable m0.store := ⟨ops, hrun⟩
      have hsound : HashSound m0.store := hrun ▸ hashSound_run inv_empty hashSound_empty ops hops
      apply patch_names hreach
      have hnf := patch_sound (hash := hash) (i := i) (loc := loc) hreach hsound
      cases hp : (patch hash i loc m0).1 with
      | ok => rfl
      | notFound => exact absurd hp hnf
      | failed => exact absurd hp hf

/-! ## Examples and findings -/

def h1 : Str := "h1".toList
def nw : Str := "new".toList

/-- Two objects with the same content, whose shards are on `s1` and `s2`. -/
def twoOps : List Op :=
  [.addMeta "b/a".toList (sampleMeta 1), .addVer "b/a".toList (sampleVer h1 "u1".toList 1),
   .addMeta "b/c".toList (sampleMeta 1), .addVer "b/c".toList (sampleVer h1 "u2".toList 1)]

def two : Store := (run .empty twoOps).2

/-- The first of them is deleted. -/
def oneDeleted : Store := (run .empty (twoOps ++ [.removeMeta "b/a".toList])).2

def good : Luck := ⟨10, true, true⟩

example : (∀ op ∈ twoOps, ¬ DestroysAny op) ∧
    (move h1 0 nw good ⟨some [1, 2], none, [⟨.works, 5, two⟩]⟩).map (fun p => (p.1, p.2.source, p.2.target)) =
      some (true, none, some [1, 2]) := by
  refine ⟨?_, by decide⟩
  rintro op ho ⟨n, h | h⟩ <;> subst h <;> simp [twoOps] at ho

/-- The places named by the versions of an object. -/
def places (s : Store) (n : Str) : Option (List Str) :=
  match getVer s n 1 with
  | .ok v => some v.locate
  | .error _ => none

example : (patch h1 0 nw ⟨.works, 5, two⟩).1 = .ok ∧
    places (patch h1 0 nw ⟨.works, 5, two⟩).2 "b/a".toList = some [nw, "s2".toList] ∧
    places (patch h1 0 nw ⟨.works, 5, two⟩).2 "b/c".toList = some [nw, "s2".toList] := by decide

/-- **C68** (finding): an object was deleted, another one with the same content is left.  The entry
of the deleted one is still in the index, so the relocation is answered with 404 and rolled back.
404 counts as success: the shard is deleted at the source, and the version that is left names the
old server. -/
theorem C68_dangling :
    let w : World := ⟨some [1, 2], none, [⟨.works, 5, oneDeleted⟩]⟩
    (move h1 0 nw good w).map (fun p => (p.1, p.2.source)) = some (true, none) ∧
      (move h1 0 nw good w).map (fun p => p.2.masters.map fun m => places m.store "b/c".toList) =
        some [some ["s1".toList, "s2".toList]] := by decide

theorem C68_statement_fails : ¬ C68_statement := by
  intro h
  obtain ⟨r, w', hm, hsrc, hp⟩ : ∃ r w', move h1 0 nw good ⟨some [1, 2], none, [⟨.works, 5, oneDeleted⟩]⟩ = some (r, w') ∧
      w'.source = none ∧ w'.masters.map (fun m => places m.store "b/c".toList) = [some ["s1".toList, "s2".toList]] :=
    ⟨_, _, rfl, by decide, by decide⟩
  obtain ⟨_, hn⟩ := h h1 0 nw good _ w' [1, 2] r (by simp; exact ⟨_, rfl⟩) rfl (.inl rfl) hm hsrc
  match hms : w'.masters with
  | [] => rw [hms] at hp; cases hp
  | m :: _ =>
    rw [hms] at hp
    simp only [List.map_cons, List.cons.injEq] at hp
    have hpm := hp.1
    unfold places at hpm
    split at hpm
    · rename_i v hv
      injection hpm with hpm
      have hh : v.hash = h1 := by
        obtain ⟨m0, hm0, he⟩ := mem_after (hash := h1) (i := 0) (loc := nw)
          (ms := [⟨.works, 5, oneDeleted⟩]) (m := m) (by
            have := (move_gone rfl hm hsrc).2.2.2
            rw [← this, hms]; simp)
        simp only [List.mem_singleton] at hm0
        subst hm0
        rw [he] at hv
        have : getVer (patch h1 0 nw ⟨.works, 5, oneDeleted⟩).2 "b/c".toList 1 =
          .ok { sampleVer h1 "u2".toList 1 with sequence := 1 } := rfl
        rw [this] at hv
        cases hv; rfl
      have := hn m (by rw [hms]; simp) "b/c".toList 1 v hv hh
      rw [hpm] at this
      revert this; decide
    · cases hpm

/-- **C68** (finding): an object is recorded by one of the masters only.  Of three masters the one
that records it cannot be reached; the shard is deleted at the source nevertheless. -/
theorem C68_minority :
    let w : World := ⟨some [1, 2], none, [⟨.works, 5, .empty⟩, ⟨.lost, 5, two⟩, ⟨.works, 5, .empty⟩]⟩
    (move h1 0 nw good w).map (fun p => (p.1, p.2.source)) = some (true, none) ∧
      (move h1 0 nw good w).map (fun p => p.2.masters.map fun m => places m.store "b/a".toList) =
        some [none, some ["s1".toList, "s2".toList], none] := by decide

/-- **C68** (finding): the receiver has a file of the same length with another content, as after a
write that was corrupted or torn.  It is kept, and the good copy is deleted. -/
theorem C68_same_size :
    (move h1 0 nw good ⟨some [1, 2], some [9, 9], [⟨.works, 5, two⟩]⟩).map (fun p => (p.1, p.2.source, p.2.target)) =
      some (true, none, some [9, 9]) := by decide

/-- **C68** (finding): two versions with the same content and different layouts have different shards
of the same name, on different servers.  Moving the shard of one of them renames the place in
the other version, too. -/
theorem C68_other_layout :
    let v : Version := { sampleVer h1 "u2".toList 1 with dataShards := 1, parityShards := 0, locate := ["x1".toList] }
    let s := (run .empty [.addMeta "b/a".toList (sampleMeta 1), .addVer "b/a".toList (sampleVer h1 "u1".toList 1),
      .addMeta "b/c".toList (sampleMeta 1), .addVer "b/c".toList v]).2
    places s "b/c".toList = some ["x1".toList] ∧
      places (patch h1 0 nw ⟨.works, 5, s⟩).2 "b/c".toList = some [nw] := by decide

/-- **C68** (finding): an empty file is never sent to the end. -/
theorem C68_empty_hangs (hash : Str) (i : Nat) (loc : Str) (l : Luck) (ms : List Master) :
    move hash i loc l ⟨some [], none, ms⟩ = none := rfl

end Verif.Relocate
