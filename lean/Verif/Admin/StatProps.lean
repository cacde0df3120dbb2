import Verif.Admin.Stat

/-!
# The monitoring pages show the newest samples (C76)
-/

namespace Verif.Admin.Stat

open Verif Verif.Msgp

/-! ## Specification -/

/-- The last `n` elements. -/
def lastN {α : Type} (n : Nat) (l : List α) : List α := l.drop (l.length - n)

/-- A sample of server `id` of service `serv` that can be read: time, CPU and memory usage. -/
def sampleOf {P : Type} (pc : Percent P) (serv id : Str) : Event → Option (Nat × P × P)
  | .value s i v now =>
    if s = serv ∧ i = id then
      match decodeMsgp readSysInfo {} v with
      | some ⟨_, some m, some c, _⟩ => some (now, pc.cpu c.usedPercent, pc.mem m.used m.all)
      | _ => none
    else none
  | _ => none

/-- All samples of the server, in the order of arrival. -/
def samples {P : Type} (pc : Percent P) (serv id : Str) (evs : List Event) : List (Nat × P × P) :=
  evs.filterMap (sampleOf pc serv id)

/-- What the pages show for a server. -/
def shown {P : Type} (db : DB P) (serv id : Str) : Timeline P := ((getTimeline db serv).get id).getD {}

/-- The timeline of a list of samples. -/
def timelineOf {P : Type} (l : List (Nat × P × P)) : Timeline P :=
  ⟨(lastN 59 l).map fun x => ⟨x.1, x.2.1⟩, (lastN 59 l).map fun x => ⟨x.1, x.2.2⟩⟩

/-- Server ids without `/`. -/
def Event.Named : Event → Prop
  | .value _ id _ _ => '/' ∉ id
  | _ => True

/-- The event does not end the process: a value is complete or cannot be read at all, and the first
read succeeds. -/
def Event.Harmless : Event → Prop
  | .value _ _ v _ => ∀ i, decodeMsgp readSysInfo {} v = some i → i.cpuStatus ≠ none ∧ i.memStatus ≠ none
  | .deleted .. => True
  | .readFailed _ => False

/-- Full statement: the pages show the newest 59 readable samples of every server. -/
def C76_statement : Prop :=
  ∀ (P : Type) (pc : Percent P) (group : Str) (evs : List Event), (∀ e ∈ evs, e.Named) →
    ∃ db, run pc group evs = .up db ∧
      ∀ serv id, shown db serv id = timelineOf (samples pc serv id evs)

/-! ## Proof -/

theorem lastN_snoc {α : Type} (l : List α) (x : α) : push (lastN 59 l) x = lastN 59 (l ++ [x]) := by
  have hl : (lastN 59 l).length = min l.length 59 := by simp [lastN]; omega
  unfold push maxTimeStat
  by_cases h : (lastN 59 l).length = 59
  · rw [if_pos h]
    have h59 : 59 ≤ l.length := by omega
    simp only [lastN, List.length_append, List.length_cons, List.length_nil, List.tail_drop]
    rw [List.drop_append_of_le_length (by omega)]
    congr 2
    omega
  · rw [if_neg h]
    have h59 : l.length < 59 := by omega
    have e1 : l.length - 59 = 0 := by omega
    have e2 : l.length + 1 - 59 = 0 := by omega
    simp [lastN, e1, e2]

theorem map_push {α β : Type} (f : α → β) (l : List α) (x : α) : (push l x).map f = push (l.map f) (f x) := by
  unfold push
  rw [List.length_map]
  split <;> simp

theorem timelineOf_snoc {P : Type} (l : List (Nat × P × P)) (x : Nat × P × P) :
    timelineOf (l ++ [x]) = (timelineOf l).append ⟨x.1, x.2.1⟩ ⟨x.1, x.2.2⟩ := by
  simp only [timelineOf, Timeline.append, ← lastN_snoc, map_push]

theorem idOfKey_fmt {group serv id : Str} (h : '/' ∉ id) : idOfKey (fmtSystemInfo group serv id) = id := by
  have e : fmtSystemInfo group serv id = (group ++ '/' :: ("sys_info".toList ++ '/' :: serv)) ++ '/' :: id := by
    simp [fmtSystemInfo]
  rw [idOfKey, e, cutLast_append h]

/-- What one event does to what is shown. -/
theorem step_shown {P : Type} (pc : Percent P) (group : Str) (db : DB P) (e : Event) (hn : e.Named)
    (hh : e.Harmless) :
    ∃ db', step pc group (.up db) e = .up db' ∧ ∀ serv id, shown db' serv id =
      match sampleOf pc serv id e with
      | some x => (shown db serv id).append ⟨x.1, x.2.1⟩ ⟨x.1, x.2.2⟩
      | none => shown db serv id := by
  cases e with
  | deleted s i => exact ⟨db, rfl, fun _ _ => rfl⟩
  | readFailed s => exact hh.elim
  | value s i v now =>
    simp only [step, addStat, idOfKey_fmt hn]
    cases hd : decodeMsgp readSysInfo {} v with
    | none =>
      refine ⟨_, rfl, fun serv id => ?_⟩
      simp only [sampleOf, hd, ite_self]
      simp only [shown, getTimeline, KMap.get_put]
      by_cases hs : serv = s
      · subst hs; simp
      · rw [if_neg hs]
    | some info =>
      obtain ⟨dk, mm, cc, io⟩ := info
      have := hh _ hd
      cases cc with
      | none => exact absurd rfl this.1
      | some c =>
        cases mm with
        | none => exact absurd rfl this.2
        | some m =>
          refine ⟨_, rfl, fun serv id => ?_⟩
          simp only [sampleOf, hd]
          simp only [shown, getTimeline, KMap.get_put]
          by_cases hs : serv = s
          · subst hs
            simp only [↓reduceIte, Option.getD_some, KMap.get_put, true_and]
            by_cases hi : id = i
            · subst hi; simp
            · rw [if_neg hi, if_neg (Ne.symm hi)]
          · rw [if_neg hs, if_neg (fun hc => hs hc.1.symm)]

/-- **C76** partial: as long as every sample is complete or unreadable and the first reads succeed,
the pages show for every server exactly its newest 59 readable samples, oldest first, CPU and
memory of the same samples; samples of other servers, unreadable samples and deletions do not
matter.  Missing: incomplete samples and failing reads end the process (`C76_statement_fails`). -/
theorem C76_timeline_partial {P : Type} (pc : Percent P) (group : Str) (evs : List Event)
    (hn : ∀ e ∈ evs, e.Named) (hh : ∀ e ∈ evs, e.Harmless) :
    ∃ db, run pc group evs = .up db ∧
      ∀ serv id, shown db serv id = timelineOf (samples pc serv id evs) := by
  have key : ∀ (evs past : List Event) (db : DB P), (∀ e ∈ evs, e.Named) → (∀ e ∈ evs, e.Harmless) →
      (∀ serv id, shown db serv id = timelineOf (samples pc serv id past)) →
      ∃ db', evs.foldl (step pc group) (.up db) = .up db' ∧
        ∀ serv id, shown db' serv id = timelineOf (samples pc serv id (past ++ evs)) := by
    intro evs
    induction evs with
    | nil => intro past db _ _ h; exact ⟨db, rfl, by simpa using h⟩
    | cons e evs ih =>
      intro past db hn hh h
      obtain ⟨db1, h1, h2⟩ := step_shown pc group db e (hn e (by simp)) (hh e (by simp))
      rw [List.foldl_cons, h1]
      obtain ⟨db2, h3, h4⟩ := ih (past ++ [e]) db1 (fun x hx => hn x (by simp [hx]))
        (fun x hx => hh x (by simp [hx])) (fun serv id => by
          rw [h2, h]
          simp only [samples, List.filterMap_append, List.filterMap_cons, List.filterMap_nil]
          cases sampleOf pc serv id e with
          | none => simp
          | some x => rw [timelineOf_snoc])
      exact ⟨db2, h3, by simpa using h4⟩
  obtain ⟨db, h1, h2⟩ := key evs [] .empty hn hh (fun _ _ => rfl)
  exact ⟨db, h1, by simpa using h2⟩

/-- **C76** Samples written by `StatSyncer.Sync` are complete, so the pages show them: every server
that published the samples `xs` is shown with the newest 59 of them. -/
theorem C76_published {P : Type} (pc : Percent P) (group serv id : Str) (hid : '/' ∉ id)
    (xs : List (Nat × SysInfo × MemStatus × CpuStat))
    (hx : ∀ x ∈ xs, x.2.1.Ok ∧ x.2.1.memStatus = some x.2.2.1 ∧ x.2.1.cpuStatus = some x.2.2.2) :
    ∃ db, run pc group (xs.map fun x => .value serv id (encodeMsgp appendSysInfo x.2.1) x.1) = .up db ∧
      shown db serv id = timelineOf (xs.map fun x =>
        (x.1, pc.cpu x.2.2.2.usedPercent, pc.mem x.2.2.1.used x.2.2.1.all)) := by
  have hdec : ∀ x ∈ xs, decodeMsgp readSysInfo {} (encodeMsgp appendSysInfo x.2.1) = some x.2.1 := by
    intro x hxx
    simpa [whole] using C73_SysInfo_roundtrip x.2.1 (hx x hxx).1 {} []
  obtain ⟨db, h1, h2⟩ := C76_timeline_partial pc group
    (xs.map fun x => .value serv id (encodeMsgp appendSysInfo x.2.1) x.1)
    (by
      intro e he
      obtain ⟨x, _, rfl⟩ := List.mem_map.1 he
      exact hid)
    (by
      intro e he
      obtain ⟨x, hxx, rfl⟩ := List.mem_map.1 he
      intro i hi
      rw [hdec x hxx] at hi
      cases hi
      rw [(hx x hxx).2.1, (hx x hxx).2.2]
      exact ⟨by simp, by simp⟩)
  refine ⟨db, h1, ?_⟩
  rw [h2]
  congr 1
  clear h1 h2
  induction xs with
  | nil => rfl
  | cons x xs ih =>
    have hd := hdec x (by simp)
    obtain ⟨_, e1, e2⟩ := hx x (by simp)
    have : sampleOf pc serv id (.value serv id (encodeMsgp appendSysInfo x.2.1) x.1) =
        some (x.1, pc.cpu x.2.2.2.usedPercent, pc.mem x.2.2.1.used x.2.2.1.all) := by
      simp only [sampleOf, true_and, ↓reduceIte, hd]
      obtain ⟨t, ⟨dk, mm, cc, io⟩, m, c⟩ := x
      simp only at e1 e2
      subst e1 e2
      rfl
    simp only [samples, List.map_cons, List.filterMap_cons, this]
    congr 1
    exact ih (fun y hy => hx y (by simp [hy])) (fun y hy => hdec y (by simp [hy]))

/-- No server is shown with more than 59 samples; with at most 59 all are shown. -/
theorem C76_bounded {P : Type} (l : List (Nat × P × P)) :
    (timelineOf l).cpu.length ≤ 59 ∧ (timelineOf l).cpu.length = (timelineOf l).mem.length ∧
    (l.length ≤ 59 → (timelineOf l).cpu = l.map fun x => ⟨x.1, x.2.1⟩) := by
  refine ⟨by simp [timelineOf, lastN]; omega, by simp [timelineOf], fun h => ?_⟩
  have : l.length - 59 = 0 := by omega
  simp [timelineOf, lastN, this]

/-- A percentage as it is. -/
def plain : Percent Nat := ⟨id, fun u _ => u⟩

def sampleInfo (cpu mem : Nat) : SysInfo :=
  { zeroInfo with cpuStatus := some { usedPercent := cpu }, memStatus := some { used := mem } }

def sampleEvent (id : String) (cpu now : Nat) : Event :=
  .value "api".toList id.toList (encodeMsgp appendSysInfo (sampleInfo cpu 7)) now

/-- Two servers, an unreadable sample and a deletion. -/
example : (match run plain "g".toList [sampleEvent "a" 10 1, sampleEvent "b" 30 1, .deleted "api".toList "b".toList,
      .value "api".toList "a".toList [0] 2, sampleEvent "a" 11 3] with
    | .up db => some (shown db "api".toList "a".toList, (shown db "api".toList "b".toList).cpu)
    | .crashed => none) =
    some (⟨[⟨1, 10⟩, ⟨3, 11⟩], [⟨1, 7⟩, ⟨3, 7⟩]⟩, [⟨1, 30⟩]) := by decide

/-- 61 samples: the first two are gone. -/
example : ((timelineOf ((List.range 61).map fun i => (i, i, i))).cpu.map (·.time)) =
    (List.range 59).map (· + 2) := by decide

theorem crashed_stays {P : Type} (pc : Percent P) (group : Str) (evs : List Event) :
    evs.foldl (step pc group) (.crashed : Proc P) = .crashed := by
  induction evs with
  | nil => rfl
  | cons e evs ih => exact ih

/-- **C76** One readable sample without CPU or memory data, of any server at any time, or one
failing first read ends the admin server. -/
theorem C76_crash {P : Type} (pc : Percent P) (group : Str) (before after : List Event) (e : Event)
    (he : ¬ e.Harmless) : run pc group (before ++ e :: after) = .crashed := by
  unfold run
  rw [List.foldl_append, List.foldl_cons]
  have : ∀ p : Proc P, step pc group p e = .crashed := by
    intro p
    cases p with
    | crashed => rfl
    | up db =>
      cases e with
      | deleted => exact absurd trivial he
      | readFailed => rfl
      | value s i v now =>
        simp only [step, addStat]
        cases hd : decodeMsgp readSysInfo {} v with
        | none => exact absurd (fun i hi => by rw [hd] at hi; cases hi) he
        | some info =>
          obtain ⟨dk, mm, cc, io⟩ := info
          cases cc with
          | none => rfl
          | some c =>
            cases mm with
            | none => rfl
            | some m =>
              refine absurd (fun i hi => ?_) he
              rw [hd] at hi; cases hi
              exact ⟨by simp, by simp⟩
  rw [this, crashed_stays]

/-- **C76** The full statement is wrong. -/
theorem C76_statement_fails : ¬ C76_statement := by
  intro h
  obtain ⟨db, h1, _⟩ := h Nat plain "g".toList [.readFailed "api".toList] (by simp [Event.Named])
  cases h1

/-! ## The pages -/

theorem foldl_put {α β : Type} (f : α → β) (l : List (Str × α)) (m : KMap β) (k : Str) :
    (l.map (·.1)).Nodup → (l.foldl (fun res e => res.put e.1 (f e.2)) m).get k =
      match l.find? (fun e => e.1 = k) with
      | some e => some (f e.2)
      | none => m.get k := by
  induction l generalizing m with
  | nil => intro _; rfl
  | cons e l ih =>
    intro hnd
    rw [List.map_cons, List.nodup_cons] at hnd
    rw [List.foldl_cons, ih _ hnd.2]
    by_cases hk : e.1 = k
    · subst hk
      have hno : l.find? (fun x => x.1 = e.1) = none := by
        rw [List.find?_eq_none]
        intro x hx hc
        exact hnd.1 (List.mem_map.2 ⟨x, hx, by simpa using hc⟩)
      simp [hno]
    · have : (m.put e.1 (f e.2)).get k = m.get k := KMap.get_put_ne _ _ (Ne.symm hk)
      simp [hk, this]

theorem find_entries {α : Type} (m : KMap α) (k : Str) :
    (m.entries.find? (fun e => e.1 = k)).map (·.2) = m.get k := by
  cases hf : m.entries.find? (fun e => e.1 = k) with
  | none =>
    cases hg : m.get k with
    | none => rfl
    | some v =>
      have := (KMap.mem_iff_get m k v).2 hg
      rw [List.find?_eq_none] at hf
      exact absurd (by simp) (hf _ this)
  | some e =>
    have h1 := List.find?_some hf
    have h2 := List.mem_of_find?_eq_some hf
    simp only [decide_eq_true_eq] at h1
    obtain ⟨k', v⟩ := e
    simp only at h1
    subst h1
    exact ((KMap.mem_iff_get m k' v).1 h2).symm

/-- **C76** The usage page of a service shows every server of the service with its timeline, and no
other server. -/
theorem C76_usage_page {P : Type} (db : DB P) (names : Str × Str × Str) (n : Int) (t id : Str) :
    (statTimeline db names n t).get id = ((getTimeline db (nameOfServerNo names n)).get id).map
      fun tl => if t = "cpu".toList then tl.cpu else tl.mem := by
  unfold statTimeline
  rw [foldl_put (fun tl : Timeline P => if t = "cpu".toList then tl.cpu else tl.mem) _ _ _ (KMap.keys_nodup _)]
  rw [← find_entries (getTimeline db (nameOfServerNo names n)) id]
  cases (getTimeline db (nameOfServerNo names n)).entries.find? (fun e => e.1 = id) with
  | none => rfl
  | some e => rfl

/-- A service number other than 0, 1 and 2 shows nothing that belongs to a named service. -/
theorem C76_unknown_service (names : Str × Str × Str) (n : Int) (h : n ≠ 0 ∧ n ≠ 1 ∧ n ≠ 2) :
    nameOfServerNo names n = [] := by
  simp [nameOfServerNo, h.1, h.2.1, h.2.2]

/-- **C76** Numbers 0, 1 and 2 select the API, metadata and data servers, in this order, whatever
their names are. -/
theorem C76_known_services (api mt ob : Str) :
    nameOfServerNo (api, mt, ob) 0 = api ∧ nameOfServerNo (api, mt, ob) 1 = mt ∧
    nameOfServerNo (api, mt, ob) 2 = ob := ⟨rfl, rfl, rfl⟩

example : nameOfServerNo ("a".toList, "m".toList, "o".toList) 2 = "o".toList ∧
    nameOfServerNo ("a".toList, "m".toList, "o".toList) (-1) = [] := by decide

theorem foldl_update (l : List (Str × SysInfo)) (m : KMap ServerInfo) (k : Str) :
    (l.map (·.1)).Nodup → (l.foldl addSys m).get k =
      (m.get k).map fun v => match l.find? (fun e => e.1 = k) with
        | some e => { v with sys := e.2 }
        | none => v := by
  induction l generalizing m with
  | nil => intro _; cases h : m.get k <;> simp [h]
  | cons e l ih =>
    intro hnd
    rw [List.map_cons, List.nodup_cons] at hnd
    rw [List.foldl_cons, ih _ hnd.2]
    by_cases hk : e.1 = k
    · subst hk
      have hno : l.find? (fun x => x.1 = e.1) = none := by
        rw [List.find?_eq_none]
        intro x hx hc
        exact hnd.1 (List.mem_map.2 ⟨x, hx, by simpa using hc⟩)
      cases hm : m.get e.1 with
      | none => simp [addSys, hm]
      | some v => simp [addSys, hm, hno]
    · have hg : (addSys m e).get k = m.get k := by
        unfold addSys
        cases hm : m.get e.1 with
        | none => rfl
        | some v => exact KMap.get_put_ne _ _ (Ne.symm hk)
      rw [hg]
      simp [hk]

/-- **C76** The server page lists exactly the discovered servers with their addresses, each with the
information it published, or zeros if it published none. -/
theorem C76_server_page (mapping : KMap Str) (kvs : List (Str × Bytes)) (page : KMap ServerInfo)
    (h : serverStat mapping kvs = some page) (k : Str) :
    ∃ sys, sysInfo kvs = some sys ∧
      page.get k = (mapping.get k).map fun addr => ⟨k, addr, (sys.get k).getD zeroInfo⟩ := by
  unfold serverStat at h
  cases hs : sysInfo kvs with
  | none => rw [hs] at h; cases h
  | some sys =>
    rw [hs] at h
    simp only [Option.map_some, Option.some.injEq] at h
    refine ⟨sys, rfl, ?_⟩
    subst h
    rw [foldl_update _ _ _ (KMap.keys_nodup sys), ← find_entries sys k]
    have hb : ∀ (l : List (Str × Str)) (m : KMap ServerInfo), (l.map (·.1)).Nodup →
        (l.foldl (fun m e => m.put e.1 (⟨e.1, e.2, zeroInfo⟩ : ServerInfo)) m).get k =
          match l.find? (fun e => e.1 = k) with
          | some e => some ⟨k, e.2, zeroInfo⟩
          | none => m.get k := by
      intro l
      induction l with
      | nil => intro _ _; rfl
      | cons e l ih =>
        intro m hnd
        rw [List.map_cons, List.nodup_cons] at hnd
        rw [List.foldl_cons, ih _ hnd.2]
        by_cases hk : e.1 = k
        · subst hk
          have hno : l.find? (fun x => x.1 = e.1) = none := by
            rw [List.find?_eq_none]
            intro x hx hc
            exact hnd.1 (List.mem_map.2 ⟨x, hx, by simpa using hc⟩)
          simp [hno]
        · have : (m.put e.1 (⟨e.1, e.2, zeroInfo⟩ : ServerInfo)).get k = m.get k :=
            KMap.get_put_ne _ _ (Ne.symm hk)
          simp [hk, this]
    rw [hb _ _ (KMap.keys_nodup mapping), ← find_entries mapping k]
    cases mapping.entries.find? (fun e => e.1 = k) with
    | none => rfl
    | some e =>
      cases sys.entries.find? (fun e => e.1 = k) with
      | none => rfl
      | some e' => rfl

/-- **C76** The same in terms of what was published: if the servers `pubs` published their information,
the page shows for a discovered server what it published itself. -/
theorem C76_server_page_published (mapping : KMap Str) (group serv : Str) (pubs : List (Str × SysInfo))
    (hok : ∀ p ∈ pubs, p.2.Ok ∧ '/' ∉ p.1) (hnd : (pubs.map (·.1)).Nodup) :
    ∃ page, serverStat mapping (pubs.map fun p => (fmtSystemInfo group serv p.1, encodeMsgp appendSysInfo p.2)) = some page ∧
      ∀ k, page.get k = (mapping.get k).map fun addr =>
        ⟨k, addr, ((pubs.find? (fun p => p.1 = k)).map (·.2)).getD zeroInfo⟩ := by
  have key : ∀ (l : List (Str × SysInfo)) (m : KMap SysInfo), (∀ p ∈ l, p.2.Ok ∧ '/' ∉ p.1) →
      (l.map fun p => (fmtSystemInfo group serv p.1, encodeMsgp appendSysInfo p.2)).foldl
        (fun res kv => res.bind fun m => (decodeMsgp readSysInfo {} kv.2).map fun i => m.put (idOfKey kv.1) i) (some m)
      = some (l.foldl (fun res e => res.put e.1 (id e.2)) m) := by
    intro l
    induction l with
    | nil => intro _ _; rfl
    | cons p l ih =>
      intro m h
      have hd : decodeMsgp readSysInfo {} (encodeMsgp appendSysInfo p.2) = some p.2 := by
        simpa [whole] using C73_SysInfo_roundtrip p.2 (h p (by simp)).1 {} []
      rw [List.map_cons, List.foldl_cons, List.foldl_cons, ← ih _ (fun q hq => h q (by simp [hq]))]
      simp only [Option.bind_some, hd, Option.map_some, idOfKey_fmt (h p (by simp)).2, id]
  have hs := key pubs .empty hok
  obtain ⟨page, hp⟩ : ∃ page, serverStat mapping
      (pubs.map fun p => (fmtSystemInfo group serv p.1, encodeMsgp appendSysInfo p.2)) = some page := by
    unfold serverStat sysInfo
    rw [hs]
    exact ⟨_, rfl⟩
  refine ⟨page, hp, fun k => ?_⟩
  obtain ⟨sys, h1, h2⟩ := C76_server_page mapping _ page hp k
  have h3 : some (pubs.foldl (fun res e => res.put e.1 (id e.2)) .empty) = some sys := hs.symm.trans h1
  cases h3
  rw [h2, foldl_put id pubs .empty k hnd]
  cases pubs.find? (fun e => e.1 = k) with
  | none => rfl
  | some e => rfl

/-- One published server, one that has not published yet, and one no longer discovered. -/
example : (serverStat ((KMap.empty.put "a".toList "h1".toList).put "b".toList "h2".toList)
      [("g/sys_info/api/a".toList, encodeMsgp appendSysInfo (sampleInfo 10 7)),
       ("g/sys_info/api/c".toList, encodeMsgp appendSysInfo (sampleInfo 20 7))]).map (fun p => p.entries.map (·.2)) =
    some [⟨"a".toList, "h1".toList, sampleInfo 10 7⟩, ⟨"b".toList, "h2".toList, zeroInfo⟩] := by decide

/-- **C76** One unreadable sample makes the server page of the whole service fail. -/
theorem C76_server_page_fails (mapping : KMap Str) (kvs kvs' : List (Str × Bytes)) (kv : Str × Bytes)
    (h : decodeMsgp readSysInfo {} kv.2 = none) : serverStat mapping (kvs ++ kv :: kvs') = none := by
  have hn : ∀ l : List (Str × Bytes), l.foldl (fun res kv => res.bind fun m =>
      (decodeMsgp readSysInfo {} kv.2).map fun i => m.put (idOfKey kv.1) i) (none : Option (KMap SysInfo)) = none := by
    intro l
    induction l with
    | nil => rfl
    | cons x l ih => exact ih
  unfold serverStat sysInfo
  rw [List.foldl_append, List.foldl_cons, h]
  have : ∀ o : Option (KMap SysInfo), (o.bind fun m => (none : Option SysInfo).map fun i => m.put (idOfKey kv.1) i) = none := by
    intro o; cases o <;> rfl
  rw [this, hn]
  rfl

/-- **C76** The overview page shows, as the "average" of a service, the timeline of one of its
servers: the one visited last. -/
theorem C76_overview_one_server {P : Type} (name : Str) (order : List (Str × Timeline P)) (last : Str × Timeline P)
    (res : KMap (List (TimeStat P))) : (overviewOf name (order ++ [last]) res).get name = some last.2.cpu := by
  simp [overviewOf]

/-- Two servers with 10 and 30 percent: depending on the order of iteration the page shows 10 or 30,
never 20. -/
example : (overviewOf "api".toList [("a".toList, ⟨[⟨1, 10⟩], []⟩), ("b".toList, ⟨[⟨1, 30⟩], []⟩)] .empty).get "api".toList
      = some [⟨1, 30⟩] ∧
    (overviewOf "api".toList [("b".toList, ⟨[⟨1, 30⟩], []⟩), ("a".toList, ⟨[⟨1, 10⟩], []⟩)] .empty).get "api".toList
      = some [⟨1, 10⟩] := by decide

end Verif.Admin.Stat
