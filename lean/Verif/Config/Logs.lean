import Verif.Common.Str

/-!
# Log levels and error mails (C124)

src/common/logs/logs.go, config.go and error_hook.go, and what the four servers do with them when they start.

Trusted: logrus prints an entry and calls the hooks of its level if the level of the entry is at most that of the
logger, in this order of levels: panic, fatal, error, warn, info, debug, trace; `Fatal` then ends the process and
`Panic` panics.  `strings.ToUpper` is a parameter.  Not modelled: colours, the format of the time, SMTP itself (a mail
is delivered or not), the data race on `SmtpPort`.
-/

namespace Verif.Logs
open Verif

/-- The levels of logrus. -/
inductive Lv | panic | fatal | error | warn | info | debug | trace
  deriving DecidableEq, Repr

def Lv.num : Lv → Nat
  | .panic => 0 | .fatal => 1 | .error => 2 | .warn => 3 | .info => 4 | .debug => 5 | .trace => 6

/-- `ToLogLevel`, logs.go:46-62, with `upper` for `strings.ToUpper`; the `default` case falls through to `Info`. -/
def toLevel (upper : Str → Str) (l : Str) : Lv :=
  let s := upper l
  if s = ['T', 'R', 'A', 'C', 'E'] then .trace
  else if s = ['D', 'E', 'B', 'U', 'G'] then .debug
  else if s = ['W', 'A', 'R', 'N'] then .warn
  else if s = ['E', 'R', 'R', 'O', 'R'] then .error
  else .info

/-- `IsDebug` and `IsTrace`, logs.go:98-104 -/
def isDebug (l : Lv) : Bool := l = .debug
def isTrace (l : Lv) : Bool := l = .trace

/-- config.go:10-16 -/
structure Email where
  target : Str
  sender : Str
  password : Str
  host : Str
  port : Str
  deriving DecidableEq

/-- `IsValid`, config.go:18-20 -/
def Email.valid (e : Email) : Bool := e.sender ≠ [] ∧ e.target ≠ [] ∧ e.host ≠ [] ∧ e.password ≠ []

/-- `Levels` of the hook, error_hook.go:14-16 -/
def hooked (l : Lv) : Bool := l = .error ∨ l = .panic ∨ l = .fatal

/-- An entry: its level and its text. -/
structure Entry where
  lv : Lv
  msg : Str
  deriving DecidableEq

/-- The logger of a process. -/
structure Logger where
  level : Lv
  hook : Option Email

/-- `WithConfig`, logs.go:36-40, 64-74: called by the API, data and metadata servers (apiserver and objectserver
pool/instance.go `initLog`, metaserver pool.go:46). -/
def withConfig (upper : Str → Str) (level : Str) (e : Email) : Logger :=
  ⟨toLevel upper level, if e.valid then some e else none⟩

/-- The admin server only sets the level, adminserver pool.go:43-44. -/
def adminConfig (upper : Str → Str) (level : Str) (_e : Email) : Logger := ⟨toLevel upper level, none⟩

/-- Whether an entry is printed (logrus). -/
def enabled (lg : Logger) (l : Lv) : Bool := l.num ≤ lg.level.num

/-- `gin` runs in debug mode, `initLog` of each server, e.g. apiserver pool/instance.go:63-70. -/
def ginDebug (lg : Logger) : Bool := isDebug lg.level || isTrace lg.level

/-- What a transaction of the metadata server prints, storage.go:39-68: the time it took, at level debug, if
`IsDebug`. -/
def txLines (lg : Logger) (line : Str) : List Entry :=
  if isDebug lg.level then (if enabled lg .debug then [⟨.debug, line⟩] else []) else []

/-- The port that the hook uses, error_hook.go:34-37. -/
def port (e : Email) : Str := if e.port = [] then ['5', '8', '7'] else e.port

/-- The text of a mail, error_hook.go:21-33.  `pre` and `post` are the fixed parts before and after `%s`, `stamp` is what
comes before the message (time and level), `at_` the caller if there is one. -/
def content (pre post stamp at_ : Str) (e : Entry) : Str := pre ++ (stamp ++ e.msg ++ at_) ++ post

/-- A process with its mails: `pending` are goroutines that have not finished. -/
structure State where
  alive : Bool
  out : List Entry
  pending : List Entry
  sent : List Entry
  lost : List Entry
  deriving DecidableEq

def start : State := ⟨true, [], [], [], []⟩

/-- `log`: an entry is made; `deliver i ok`: the `i`-th waiting goroutine comes to its end, the mail went out or the error
of `SendMail` was dropped (error_hook.go:45); `exit`: the process ends, after `Fatal`, after a panic, or otherwise. -/
inductive Ev
  | log (e : Entry)
  | deliver (i : Nat) (ok : Bool)
  | exit

/-- One event, error_hook.go:18-48. -/
def step (lg : Logger) (s : State) (ev : Ev) : State :=
  if s.alive then
    match ev with
    | .log e =>
      if enabled lg e.lv then
        { s with
          out := s.out ++ [e]
          pending := if hooked e.lv ∧ lg.hook.isSome then s.pending ++ [e] else s.pending }
      else s
    | .deliver i ok =>
      match s.pending[i]? with
      | none => s
      | some e =>
        if ok then { s with pending := s.pending.eraseIdx i, sent := s.sent ++ [e] }
        else { s with pending := s.pending.eraseIdx i, lost := s.lost ++ [e] }
    | .exit => { s with alive := false }
  else s

def run (lg : Logger) (s : State) (es : List Ev) : State := es.foldl (step lg) s

/-! ## Specification -/

/-- The entries that were made. -/
def made : List Ev → List Entry
  | [] => []
  | .log e :: es => e :: made es
  | _ :: es => made es

/-- An error or worse. -/
def Serious (l : Lv) : Prop := l.num ≤ 2

instance (l : Lv) : Decidable (Serious l) := inferInstanceAs (Decidable (_ ≤ _))

/-! ## Levels -/

/-- The five names are recognised in every spelling, everything else is "info". -/
theorem C124_levels (upper : Str → Str) (l : Str) :
    (upper l = "TRACE".toList ∧ toLevel upper l = .trace) ∨ (upper l = "DEBUG".toList ∧ toLevel upper l = .debug) ∨
    (upper l = "WARN".toList ∧ toLevel upper l = .warn) ∨ (upper l = "ERROR".toList ∧ toLevel upper l = .error) ∨
    (upper l ≠ "TRACE".toList ∧ upper l ≠ "DEBUG".toList ∧ upper l ≠ "WARN".toList ∧ upper l ≠ "ERROR".toList ∧
      toLevel upper l = .info) := by
  have e1 : "TRACE".toList = ['T', 'R', 'A', 'C', 'E'] := rfl
  have e2 : "DEBUG".toList = ['D', 'E', 'B', 'U', 'G'] := rfl
  have e3 : "WARN".toList = ['W', 'A', 'R', 'N'] := rfl
  have e4 : "ERROR".toList = ['E', 'R', 'R', 'O', 'R'] := rfl
  rw [e1, e2, e3, e4]
  unfold toLevel
  dsimp only
  by_cases h1 : upper l = ['T', 'R', 'A', 'C', 'E']
  · simp [h1]
  by_cases h2 : upper l = ['D', 'E', 'B', 'U', 'G']
  · simp [h2]
  by_cases h3 : upper l = ['W', 'A', 'R', 'N']
  · simp [h3]
  by_cases h4 : upper l = ['E', 'R', 'R', 'O', 'R']
  · simp [h4]
  simp [h1, h2, h3, h4]

example : toLevel (List.map Char.toUpper) "warn".toList = .warn ∧ toLevel (List.map Char.toUpper) "Info".toList = .info := by
  decide

/-- Other names of levels, among them those that logrus itself uses, mean "info", also where less was wanted. -/
theorem C124_other_names : toLevel (List.map Char.toUpper) "warning".toList = .info ∧
    toLevel (List.map Char.toUpper) "fatal".toList = .info ∧ toLevel (List.map Char.toUpper) "warn ".toList = .info := by
  decide

theorem toLevel_num (upper : Str → Str) (l : Str) : 2 ≤ (toLevel upper l).num := by
  unfold toLevel
  dsimp only
  repeat' split
  all_goals decide

/-- No configuration switches errors off. -/
theorem C124_errors_printed (upper : Str → Str) (l : Str) (em : Email) (v : Lv) (h : Serious v) :
    enabled (withConfig upper l em) v = true ∧ enabled (adminConfig upper l em) v = true := by
  have := toLevel_num upper l
  unfold Serious at h
  have h' : v.num ≤ (toLevel upper l).num := by omega
  exact ⟨decide_eq_true h', decide_eq_true h'⟩

example : Serious .fatal ∧ Serious .error ∧ ¬ Serious .warn := by decide

/-- A logger of a higher level prints at least as much: entries. -/
theorem C124_monotone_partial (a b : Logger) (h : a.level.num ≤ b.level.num) (l : Lv) (hl : enabled a l = true) :
    enabled b l = true := by
  simp only [enabled, decide_eq_true_eq] at hl ⊢
  omega

/-- Not so for the times of the transactions of the metadata server: "trace", the highest level, does not print what
"debug" prints. -/
theorem C124_trace_prints_less (upper : Str → Str) (d t : Str) (hd : upper d = "DEBUG".toList) (ht : upper t = "TRACE".toList)
    (em : Email) (line : Str) :
    txLines (withConfig upper d em) line = [⟨.debug, line⟩] ∧ txLines (withConfig upper t em) line = [] := by
  have e1 : "TRACE".toList = ['T', 'R', 'A', 'C', 'E'] := rfl
  have e2 : "DEBUG".toList = ['D', 'E', 'B', 'U', 'G'] := rfl
  rw [e2] at hd
  rw [e1] at ht
  simp [txLines, withConfig, toLevel, hd, ht, isDebug, enabled, Lv.num]

example : (List.map Char.toUpper) "debug".toList = "DEBUG".toList ∧ (List.map Char.toUpper) "Trace".toList = "TRACE".toList := by
  decide

/-- `gin` is in debug mode exactly at the two lowest levels. -/
theorem C124_gin (lg : Logger) : ginDebug lg = true ↔ 5 ≤ lg.level.num := by
  cases lg with
  | mk l h => cases l <;> simp [ginDebug, isDebug, isTrace, Lv.num]

/-! ## Mails -/

theorem hooked_iff (l : Lv) : hooked l = true ↔ Serious l := by
  cases l <;> decide

/-- What is known of the mails: all of them are of entries that were printed, each of them once. -/
structure Inv (lg : Logger) (s : State) : Prop where
  mails : (s.sent ++ s.lost ++ s.pending).Perm (if lg.hook.isSome then s.out.filter (fun e => decide (Serious e.lv)) else [])

theorem perm_move {α : Type} {l : List α} {i : Nat} {e : α} (h : l[i]? = some e) (a b : List α) :
    (a ++ [e] ++ b ++ l.eraseIdx i).Perm (a ++ b ++ l) := by
  have h1 : (e :: l.eraseIdx i).Perm l := by
    induction l generalizing i with
    | nil => simp at h
    | cons x xs ih =>
      cases i with
      | zero => simp at h; subst h; simp
      | succ i =>
        simp only [List.eraseIdx_cons_succ]
        exact (List.Perm.swap x e _).trans ((ih (by simpa using h)).cons x)
  have h2 : (a ++ [e] ++ b ++ l.eraseIdx i).Perm (a ++ b ++ (e :: l.eraseIdx i)) := by
    rw [List.append_assoc, List.append_assoc, List.append_assoc]
    refine List.Perm.append_left a ?_
    exact (List.perm_middle (l₁ := b) (a := e) (l₂ := l.eraseIdx i)).symm
  exact h2.trans (h1.append_left _)

theorem perm_move' {α : Type} {l : List α} {i : Nat} {e : α} (h : l[i]? = some e) (a b : List α) :
    (a ++ (b ++ [e]) ++ l.eraseIdx i).Perm (a ++ b ++ l) := by
  have := perm_move h (a ++ b) []
  simpa [List.append_assoc] using this

theorem inv_step (lg : Logger) {s : State} (hi : Inv lg s) (ev : Ev) : Inv lg (step lg s ev) := by
  unfold step
  split
  · cases ev with
    | log e =>
      dsimp only
      split
      · constructor
        have hm := hi.mails
        dsimp only
        by_cases hh : lg.hook.isSome = true
        · simp only [hh, ↓reduceIte, and_true, List.filter_append] at hm ⊢
          by_cases hk : hooked e.lv = true
          · have hs := (hooked_iff e.lv).1 hk
            simp only [hk, ↓reduceIte]
            rw [← List.append_assoc]
            exact hm.append (by simp [hs])
          · have hs : ¬ Serious e.lv := fun h => hk ((hooked_iff e.lv).2 h)
            simpa [hk, hs] using hm
        · simpa [hh] using hm
      · exact hi
    | deliver i ok =>
      dsimp only
      split
      · exact hi
      · rename_i e he
        split
        · exact ⟨(perm_move he s.sent s.lost).trans hi.mails⟩
        · exact ⟨(perm_move' he s.sent s.lost).trans hi.mails⟩
    | exit => exact ⟨hi.mails⟩
  · exact hi

theorem inv_run (lg : Logger) (s : State) (hi : Inv lg s) (es : List Ev) : Inv lg (run lg s es) := by
  induction es generalizing s with
  | nil => exact hi
  | cons e es ih => exact ih _ (inv_step lg hi e)

/-- Whatever happens, every mail, sent or lost or under way, belongs to an entry that was printed and is an error or worse,
and every such entry has exactly one mail, in any order. -/
theorem C124_mails (upper : Str → Str) (l : Str) (em : Email) (hv : em.valid = true) (es : List Ev) :
    let s := run (withConfig upper l em) start es
    (s.sent ++ s.lost ++ s.pending).Perm (s.out.filter (fun e => decide (Serious e.lv))) := by
  have h := (inv_run (withConfig upper l em) start ⟨by simp [start]⟩ es).mails
  simpa [withConfig, hv] using h

theorem out_run (lg : Logger) (s : State) (ha : s.alive = true) (es : List Ev) (hne : ∀ e ∈ es, e ≠ .exit) :
    (run lg s es).out = s.out ++ (made es).filter (fun e => enabled lg e.lv) := by
  induction es generalizing s with
  | nil => simp [run, made]
  | cons e es ih =>
    have hne' : ∀ e ∈ es, e ≠ .exit := fun x hx => hne x (List.mem_cons_of_mem _ hx)
    have hr : run lg s (e :: es) = run lg (step lg s e) es := rfl
    rw [hr]
    cases e with
    | log e =>
      by_cases he : enabled lg e.lv = true
      · rw [ih _ (by simp [step, ha, he]) hne']
        simp [step, ha, he, made]
      · rw [ih _ (by simp [step, ha, he]) hne']
        simp [step, ha, he, made]
    | deliver i ok =>
      have h1 : (step lg s (.deliver i ok)).alive = true ∧ (step lg s (.deliver i ok)).out = s.out := by
        unfold step
        rw [if_pos ha]
        dsimp only
        repeat' split
        all_goals exact ⟨ha, rfl⟩
      rw [ih _ h1.1 hne', h1.2]
      rfl
    | exit => exact absurd rfl (hne _ List.mem_cons_self)

/-- In a process that does not end, once every goroutine has come to its end and none of them failed, each error, fatal
message and panic was mailed exactly once, and nothing else.  (Missing: the end of the process, and SMTP errors; see
`C124_last_words_lost`.) -/
theorem C124_mailed_partial (upper : Str → Str) (l : Str) (em : Email) (hv : em.valid = true) (es : List Ev)
    (hne : ∀ e ∈ es, e ≠ .exit) (hp : (run (withConfig upper l em) start es).pending = [])
    (hl : (run (withConfig upper l em) start es).lost = []) :
    (run (withConfig upper l em) start es).sent.Perm ((made es).filter (fun e => decide (Serious e.lv))) := by
  have h := C124_mails upper l em hv es
  dsimp only at h
  rw [hp, hl, out_run _ _ rfl es hne] at h
  simp only [start, List.append_nil, List.nil_append, List.filter_filter] at h
  have : (fun e : Entry => decide (Serious e.lv) && enabled (withConfig upper l em) e.lv) =
      fun e => decide (Serious e.lv) := by
    funext e
    by_cases hs : Serious e.lv
    · rw [(C124_errors_printed upper l em e.lv hs).1, Bool.and_true]
    · simp [hs]
  rw [this] at h
  exact h

def someMail : Email := ⟨['a'], ['b'], ['c'], ['d'], []⟩

/-- Two errors and a warning; the mails go out in the other order. -/
example : let es : List Ev := [.log ⟨.error, ['x']⟩, .log ⟨.warn, ['w']⟩, .log ⟨.error, ['y']⟩, .deliver 1 true, .deliver 0 true]
    let s := run (withConfig id [] someMail) start es
    someMail.valid = true ∧ s.pending = [] ∧ s.lost = [] ∧ s.sent = [⟨.error, ['y']⟩, ⟨.error, ['x']⟩] := by decide

/-- The message with which a process ends is mailed by a goroutine of that process: when it ends first there is no mail. -/
theorem C124_last_words_lost (m : Str) (v : Lv) (hv : Serious v) (later : List Ev) :
    (run (withConfig id [] someMail) start ([.log ⟨v, m⟩, .exit] ++ later)).sent = [] ∧
    (run (withConfig id [] someMail) start ([.log ⟨v, m⟩, .exit] ++ later)).out = [⟨v, m⟩] := by
  have dead : ∀ (s : State) (es : List Ev), s.alive = false → run (withConfig id [] someMail) s es = s := by
    intro s es hs
    induction es with
    | nil => rfl
    | cons e es ih =>
      have : step (withConfig id [] someMail) s e = s := by simp [step, hs]
      show run _ (step _ s e) es = s
      rw [this]; exact ih
  have h : run (withConfig id [] someMail) start ([.log ⟨v, m⟩, .exit] ++ later) =
      run (withConfig id [] someMail) (run (withConfig id [] someMail) start [.log ⟨v, m⟩, .exit]) later := by
    simp [run]
  have hen := (C124_errors_printed id [] someMail v hv).1
  have hs : run (withConfig id [] someMail) start [.log ⟨v, m⟩, .exit] = ⟨false, [⟨v, m⟩], [⟨v, m⟩], [], []⟩ := by
    have hk := (hooked_iff v).2 hv
    have hsome : (withConfig id [] someMail).hook.isSome = true := by decide
    simp [run, step, start, hen, hk, hsome]
  rw [h, dead _ later (by rw [hs]), hs]
  exact ⟨rfl, rfl⟩

theorem no_hook_step (lg : Logger) (hn : lg.hook = none) (s : State) (hs : s.pending = [] ∧ s.sent = []) (e : Ev) :
    (step lg s e).pending = [] ∧ (step lg s e).sent = [] := by
  unfold step
  split
  · cases e with
    | log e =>
      dsimp only
      split
      · simpa [hn] using hs
      · exact hs
    | deliver i ok => simpa [hs.1] using hs
    | exit => exact hs
  · exact hs

theorem no_hook_run (lg : Logger) (hn : lg.hook = none) (es : List Ev) (s : State) (hs : s.pending = [] ∧ s.sent = []) :
    (run lg s es).pending = [] ∧ (run lg s es).sent = [] := by
  induction es generalizing s with
  | nil => exact hs
  | cons e es ih => exact ih _ (no_hook_step lg hn s hs e)

/-- The admin server never sends a mail, whatever its configuration says. -/
theorem C124_admin_silent (upper : Str → Str) (l : Str) (em : Email) (es : List Ev) :
    (run (adminConfig upper l em) start es).sent = [] :=
  (no_hook_run _ rfl es start ⟨rfl, rfl⟩).2

/-- Nor does a server whose configuration lacks one of the four values. -/
theorem C124_incomplete_silent (upper : Str → Str) (l : Str) (em : Email)
    (h : em.sender = [] ∨ em.target = [] ∨ em.host = [] ∨ em.password = []) (es : List Ev) :
    (run (withConfig upper l em) start es).sent = [] := by
  refine (no_hook_run _ ?_ es start ⟨rfl, rfl⟩).2
  have : em.valid = false := by
    unfold Email.valid
    rcases h with h | h | h | h <;> simp [h]
  simp [withConfig, this]

example : ({ someMail with password := [] } : Email).password = [] := rfl

/-- The mail always goes to some port. -/
theorem C124_port (em : Email) : port em ≠ [] ∧ (em.port ≠ [] → port em = em.port) := by
  unfold port
  by_cases h : em.port = [] <;> simp [h]

/-- The message is put into the HTML of the mail as it is: every `<` and every `&` of it begins a tag or a character
reference there. -/
theorem C124_markup (pre post stamp at_ : Str) (e : Entry) (c : Char) :
    (content pre post stamp at_ e).count c = (pre.count c + stamp.count c + at_.count c + post.count c) + e.msg.count c := by
  simp only [content, List.count_append]
  omega

/-- The statement of C124 for mails: an error or worse that was printed is mailed, or its mail failed, or the process
still runs. -/
theorem C124_statement_fails :
    ¬ ∀ (em : Email) (es : List Ev) (e : Entry), em.valid = true → Serious e.lv →
      e ∈ (run (withConfig id [] em) start es).out →
      e ∈ (run (withConfig id [] em) start es).sent ∨ e ∈ (run (withConfig id [] em) start es).lost ∨
      (run (withConfig id [] em) start es).alive = true := by
  intro h
  have := h someMail [.log ⟨.panic, []⟩, .exit] ⟨.panic, []⟩ (by decide) (by decide) (by decide)
  revert this
  decide

end Verif.Logs
