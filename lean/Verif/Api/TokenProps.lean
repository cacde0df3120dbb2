import Verif.Api.Token
import Verif.Admin.PagesProps

/-!
# C92 — a resume token permits the upload it was given out for

`C92_honest_partial`: as long as users only send the paths they were given, a PATCH touches only the temporary files
made by a POST of the same user and records only the version that POST was about.  Tokens are not signed, though, and
nothing about them is remembered: whoever may send a PATCH can record any version in any bucket, read-only or not,
make the API server send requests to any address, and end it or keep it busy.  A token also serves for several
versions.
-/

namespace Verif.Api.Token

open Verif Verif.Api.BucketHttp Verif.Admin.Pages

/-! ## Specification -/

/-- The tokens a user was given. -/
def Given (s : State) (u : Nat) (t : Tok) : Prop := ∃ loc, (u, loc, t) ∈ s.grants

/-- What belongs to the upload a token was given out for. -/
def Belongs (t : Tok) : Eff → Prop
  | .head a i | .write a i | .abort a i => (a, i) ∈ t.servers.zip t.ids
  | .commit a i c => (a, i) ∈ t.servers.zip t.ids ∧ c = t.compress
  | .record r => r.bucket = t.bucket ∧ r.name = t.name ∧ r.hash = t.hash ∧ r.size = t.size ∧
      r.locate = t.servers ∧ ∃ c, t.conf = some c ∧ r.ds = c.ds ∧ r.ps = c.ps

/-- What a user may cause with the tokens they were given. -/
def Covered (s : State) (u : Nat) (e : Eff) : Prop := ∃ t, Given s u t ∧ Belongs t e

/-- **C92**, the full statement: whatever requests users send, a PATCH does what a token given to its user permits,
and versions are recorded only in buckets the user may write to. -/
def C92_statement (cx : Codec) : Prop := ∀ (may : Nat → Str → Bool) (rs : List Req),
  (∀ x ∈ (run cx may init rs).patched, Covered (run cx may init rs) x.1 x.2) ∧
  (∀ u r, (u, .record r) ∈ (run cx may init rs).patched ++ (run cx may init rs).posted → may u r.bucket = true)

/-- Users send the paths they were given, as they were given. -/
def Honest (s : State) : Req → Prop
  | .post .. => True
  | .patch u _ path _ _ _ => ∃ t, (u, path, t) ∈ s.grants

def HonestRun (cx : Codec) (may : Nat → Str → Bool) : State → List Req → Prop
  | _, [] => True
  | s, r :: rs => Honest s r ∧ HonestRun cx may (step cx may s r) rs

/-! ## The path -/

theorem b64_bytes {c : Char} (h : b64 c = true) : c.toNat < 256 ∧ c ≠ '%' := by
  unfold b64 at h
  simp only [Bool.or_eq_true, decide_eq_true_eq, Char.isAlphanum, Char.isAlpha, Char.isUpper, Char.isLower,
    Char.isDigit, Bool.and_eq_true, ge_iff_le] at h
  rcases h with (((h | h) | rfl) | rfl) | rfl
  · rcases h with h | h
    · refine ⟨?_, by rintro rfl; revert h; decide⟩
      have : c.val ≤ 90 := h.2
      have : c.val.toNat ≤ 90 := this
      show c.val.toNat < 256; omega
    · refine ⟨?_, by rintro rfl; revert h; decide⟩
      have : c.val ≤ 122 := h.2
      have : c.val.toNat ≤ 122 := this
      show c.val.toNat < 256; omega
  · refine ⟨?_, by rintro rfl; revert h; decide⟩
    have : c.val ≤ 57 := h.2
    have : c.val.toNat ≤ 57 := this
    show c.val.toNat < 256; omega
  all_goals decide

theorem unescape_prefix {a b : Str} (h : '%' ∉ a) : unescape false (a ++ b) = (unescape false b).map (a ++ ·) := by
  induction a with
  | nil => rw [List.nil_append]; cases unescape false b <;> rfl
  | cons c r ih =>
    simp only [List.mem_cons, not_or] at h
    rw [List.cons_append, unescape_plain (Ne.symm h.1), ih h.2]
    cases unescape false b <;> rfl

/-- **C92** The path in the answer to a POST leads back to the token, for every token base64 can write. -/
theorem C92_location (tok : Str) (hb : ∀ c ∈ tok, b64 c = true) (hne : tok ≠ []) :
    tokenOf (location tok) = some tok := by
  have hby : Bytewise tok := fun c hc => (b64_bytes (hb c hc)).1
  have hpct : '%' ∉ tok := fun h => (b64_bytes (hb _ h)).2 rfl
  have hpre : ∀ c ∈ bigPre, pathSafe c = true := by decide
  have hpb : Bytewise bigPre := by unfold Bytewise; decide
  have hself : unescape false tok = some tok := unescape_self hpct (by intro h; cases h)
  by_cases hs : '/' ∈ tok
  · obtain ⟨i1, i2, i3, i4, i5, i6⟩ := escapeSeg_spec hby
    have hd := (escapeSeg_differs hby (Or.inl hs)).1
    have hu : unescape false (bigPre ++ escapeSeg tok) = some (bigPre ++ tok) := by
      rw [unescape_prefix (by decide), i1]; rfl
    have hraw : escapePath (bigPre ++ tok) ≠ bigPre ++ escapeSeg tok := by
      rw [escapePath_append, escapePath_self hpre]
      exact fun h => hd (List.append_cancel_left h).symm
    have hctl : hasCtl (bigPre ++ escapeSeg tok) = false := by
      unfold hasCtl at i6 ⊢
      rw [List.any_append, i6]; decide
    have hq : '?' ∉ bigPre ++ escapeSeg tok := by
      rw [List.mem_append]; rintro (h | h)
      · revert h; decide
      · exact i4 h
    have hne2 : bigPre ++ escapeSeg tok ≠ [] := by
      intro h; exact absurd (List.append_eq_nil_iff.1 h).1 (by decide)
    have hrp : routeParam false bigPre (location tok) = some (escapeSeg tok) := by
      unfold location routeParam
      rw [hctl, cut_self hq]
      simp only [setPath, hu, hraw, ↓reduceIte, Bool.false_eq_true, ne_eq, hne2, not_false_eq_true,
        hasPrefix_append, Bool.true_eq_false, List.drop_left, escapeSeg_ne hne, i3, or_self, and_false]
    unfold tokenOf
    rw [hrp]
    exact i1
  · have h2 : ',' ∉ tok := fun h => absurd (hb _ h) (by decide)
    have h3 : ';' ∉ tok := fun h => absurd (hb _ h) (by decide)
    unfold tokenOf location
    rw [escapeSeg_eq hs h2 h3, routeParam_standard false hpre hpb hby hne hs]
    exact hself

example : tokenOf (location "Lf+B/w==".toList) = some "Lf+B/w==".toList ∧
    location "Lf+B/w==".toList = "/v1/big/Lf+B%2Fw==".toList := by decide

/-- Only the encoded form of a token need be considered. -/
theorem token_back (cx : Codec) (t : Tok) : tokenOf (location (cx.enc t)) = some (cx.enc t) :=
  C92_location _ (cx.alphabet t) (cx.nonempty t)

theorem patch_location (cx : Codec) (env : Env) (t : Tok) (first : Int) (n : Nat) :
    patch cx env (location (cx.enc t)) (some first) n = resume env t first n := by
  unfold patch
  rw [token_back]
  simp only [cx.dec_enc]

/-! ## With the tokens that were given out -/

theorem flush_belongs (env : Env) (t : Tok) (c : Conf) (k : Nat) : ∀ e ∈ (flush env t c k).2, Belongs t e := by
  intro e he
  unfold flush at he
  by_cases h1 : c.ds ≤ 0 ∨ c.ps < 0
  · rw [if_pos h1] at he; cases he
  · rw [if_neg h1] at he
    have he' : e ∈ (t.files.take (c.ds + c.ps).toNat).map fun f => Eff.write f.1 f.2 := by
      dsimp only at he
      by_cases h2 : (t.ids.length : Int) < c.ds + c.ps
      · rw [if_pos h2] at he; exact he
      · rw [if_neg h2] at he; exact he
    obtain ⟨f, hf, rfl⟩ := List.mem_map.1 he'
    exact List.mem_of_mem_take hf

theorem flushes_belongs (env : Env) (t : Tok) (c : Conf) (n : Nat) : ∀ k, ∀ e ∈ (flushes env t c n k).2, Belongs t e := by
  induction n with
  | zero => intro k e he; cases he
  | succ n ih =>
    intro k e he
    unfold flushes at he
    by_cases h : (flush env t c k).1 = .ok
    · rw [if_pos h] at he
      rcases List.mem_append.1 he with he | he
      · exact flush_belongs env t c k e he
      · exact ih _ e he
    · rw [if_neg h] at he
      exact flush_belongs env t c k e he

theorem copy_belongs (env : Env) (t : Tok) (c : Conf) (n : Nat) : ∀ e ∈ (copyBody env t c n).2, Belongs t e := by
  intro e he
  unfold copyBody at he
  split at he
  · cases he
  · split at he
    · cases he
    · exact flushes_belongs env t c _ _ e he

theorem commit_belongs (env : Env) (t : Tok) (c : Conf) (n : Nat) (ok : Bool) :
    ∀ e ∈ (commit env t c n ok).2, Belongs t e := by
  have hfl : ∀ e ∈ (if n % c.blockSize.toNat = 0 then (Work.ok, []) else flush env t c (n / c.blockSize.toNat)).2,
      Belongs t e := by
    intro e he
    split at he
    · cases he
    · exact flush_belongs env t c _ e he
  intro e he
  unfold commit at he
  dsimp only at he
  generalize (if n % c.blockSize.toNat = 0 then (Work.ok, []) else flush env t c (n / c.blockSize.toNat)) = fl at he hfl
  split at he
  · rcases List.mem_append.1 he with he | he
    · exact hfl e he
    · obtain ⟨f, hf, rfl⟩ := List.mem_map.1 he
      cases ok
      · exact hf
      · exact ⟨hf, rfl⟩
  · exact hfl e he

theorem opened_conf {t : Tok} {c : Conf} (h : t.opened = some c) : t.conf = some c := by
  unfold Tok.opened at h
  cases hc : t.conf with
  | none => rw [hc] at h; cases h
  | some d =>
    rw [hc] at h
    dsimp only at h
    split at h
    · cases h
    · exact h

theorem finish_belongs (env : Env) (t : Tok) (c : Conf) (n : Nat) (hc : t.conf = some c) :
    ∀ e ∈ (finish env t c n).2, Belongs t e := by
  have hr : Belongs t (.record (t.rec_ c)) := ⟨rfl, rfl, rfl, rfl, rfl, c, hc, rfl, rfl⟩
  intro e he
  unfold finish at he
  dsimp only at he
  split at he
  · cases he
  · split at he
    · exact commit_belongs env t c n _ e (by simpa using he)
    · split at he
      · exact commit_belongs env t c n _ e (by simpa using he)
      · split at he
        · rcases List.mem_append.1 he with he | he
          · rw [List.mem_singleton.1 he]; exact hr
          · exact commit_belongs env t c n _ e he
        · rcases List.mem_cons.1 he with rfl | he
          · exact hr
          · exact commit_belongs env t c n _ e he

theorem resume_belongs (env : Env) (t : Tok) (first : Int) (n : Nat) : ∀ e ∈ (resume env t first n).2, Belongs t e := by
  intro e he
  unfold resume at he
  split at he
  · cases he
  · cases he
  · rename_i c f fs ho hf
    have hh : Belongs t (.head f.1 f.2) := by
      show (f.1, f.2) ∈ t.files
      rw [hf]; exact List.mem_cons_self ..
    split at he
    · rw [List.mem_singleton.1 he]; exact hh
    · split at he
      · rw [List.mem_singleton.1 he]; exact hh
      · dsimp only at he
        split at he
        · rcases List.mem_cons.1 he with rfl | he
          · exact hh
          · exact copy_belongs env t c n e he
        · split at he
          · rcases List.mem_cons.1 he with rfl | he
            · exact hh
            · exact copy_belongs env t c n e he
          · split at he
            · rcases List.mem_cons.1 he with rfl | he
              · exact hh
              · rcases List.mem_append.1 he with he | he
                · exact copy_belongs env t c n e he
                · exact commit_belongs env t c n _ e he
            · rcases List.mem_cons.1 he with rfl | he
              · exact hh
              · rcases List.mem_append.1 he with he | he
                · exact copy_belongs env t c n e he
                · exact finish_belongs env t c n (opened_conf ho) e he

/-- A token was given out to a user who may write to its bucket, for the path that carries it. -/
structure Inv (cx : Codec) (may : Nat → Str → Bool) (s : State) : Prop where
  loc : ∀ g ∈ s.grants, g.2.1 = location (cx.enc g.2.2)
  allowed : ∀ g ∈ s.grants, may g.1 g.2.2.bucket = true
  cov : ∀ x ∈ s.patched, Covered s x.1 x.2
  posted : ∀ u r, (u, .record r) ∈ s.posted → may u r.bucket = true

/-- What a POST records or gives out a token for is what it asked for, in a bucket that is not read-only. -/
theorem post_spec (cx : Codec) (env : PostEnv) (r : Post) :
    (∀ e ∈ (post cx env r).2.1, ∃ x, e = .record x ∧ x.bucket = r.bucket ∧ x.name = r.name ∧ x.size = r.size ∧
      x.hash = env.hash ∧ ∃ comp, env.bucket = some (false, comp)) ∧
    (∀ t, (post cx env r).2.2 = some t → (post cx env r).1 = .token (location (cx.enc t)) ∧ t.bucket = r.bucket ∧
      t.name = r.name ∧ t.size = r.size ∧ t.hash = env.hash ∧ t.servers = env.ips ∧ env.ids = some t.ids ∧
      t.conf = some env.conf ∧ ∃ comp, env.bucket = some (false, comp)) := by
  unfold post
  cases hb : env.bucket with
  | none => exact ⟨fun e he => absurd he List.not_mem_nil, fun t ht => by cases ht⟩
  | some b =>
    obtain ⟨ro, comp⟩ := b
    cases ro with
    | true => exact ⟨fun e he => absurd he List.not_mem_nil, fun t ht => by cases ht⟩
    | false =>
      simp only [Bool.false_eq_true, ↓reduceIte]
      cases hd : env.dup with
      | some l =>
        refine ⟨fun e he => ?_, fun t ht => by cases ht⟩
        rw [List.mem_singleton.1 he]
        exact ⟨_, rfl, rfl, rfl, rfl, rfl, comp, rfl⟩
      | none =>
        simp only
        cases hi : env.ids with
        | none => exact ⟨fun e he => absurd he List.not_mem_nil, fun t ht => by cases ht⟩
        | some ids =>
          simp only
          split
          · exact ⟨fun e he => absurd he List.not_mem_nil, fun t ht => by cases ht⟩
          · refine ⟨fun e he => absurd he List.not_mem_nil, fun t ht => ?_⟩
            cases ht
            exact ⟨rfl, rfl, rfl, rfl, rfl, rfl, rfl, rfl, comp, rfl⟩

/-- **C92** Nothing is given out and nothing recorded by a POST for a bucket that is read-only or cannot be read. -/
theorem C92_granted (cx : Codec) (env : PostEnv) (r : Post) (h : ∀ comp, env.bucket ≠ some (false, comp)) :
    post cx env r = (.refused, [], none) := by
  unfold post
  cases hb : env.bucket with
  | none => rfl
  | some b =>
    obtain ⟨ro, comp⟩ := b
    cases ro with
    | true => rfl
    | false => exact absurd hb (h comp)

theorem covered_mono {s s' : State} (h : ∀ g ∈ s.grants, g ∈ s'.grants) {u : Nat} {e : Eff} (hc : Covered s u e) :
    Covered s' u e := by
  obtain ⟨t, ⟨loc, hg⟩, hb⟩ := hc
  exact ⟨t, ⟨loc, h _ hg⟩, hb⟩

theorem inv_init (cx : Codec) (may : Nat → Str → Bool) : Inv cx may init :=
  ⟨fun g hg => absurd hg List.not_mem_nil, fun g hg => absurd hg List.not_mem_nil,
    fun g hg => absurd hg List.not_mem_nil, fun u r hr => absurd hr List.not_mem_nil⟩

theorem inv_step (cx : Codec) (may : Nat → Str → Bool) {s : State} (h : Inv cx may s) {r : Req} (hr : Honest s r) :
    Inv cx may (step cx may s r) := by
  cases r with
  | post u r env =>
    unfold step
    dsimp only
    by_cases hm : may u r.bucket = false
    · rw [if_pos hm]; exact h
    · rw [if_neg hm]
      have hm' : may u r.bucket = true := by cases hx : may u r.bucket <;> simp_all
      obtain ⟨h1, h2⟩ := post_spec cx env r
      have hposted : ∀ v x, (v, Eff.record x) ∈ s.posted ++ (post cx env r).2.1.map (u, ·) → may v x.bucket = true := by
        intro v x hx
        rcases List.mem_append.1 hx with hx | hx
        · exact h.posted v x hx
        · obtain ⟨e, he, heq⟩ := List.mem_map.1 hx
          obtain ⟨y, hy, hyb, _⟩ := h1 e he
          cases heq
          cases hy
          rw [hyb]; exact hm'
      generalize hp : post cx env r = q at h1 h2 hposted
      obtain ⟨a, es, ot⟩ := q
      have keep : Inv cx may ⟨s.grants, s.patched, s.posted ++ es.map (u, ·)⟩ :=
        ⟨h.loc, h.allowed, fun x hx => covered_mono (fun g hg => hg) (h.cov x hx), hposted⟩
      cases a with
      | refused => exact keep
      | done => exact keep
      | token loc =>
        cases ot with
        | none => exact keep
        | some t =>
          obtain ⟨q1, q2, _⟩ := h2 t rfl
          cases q1
          refine ⟨?_, ?_, fun x hx => covered_mono (fun g hg => List.mem_cons_of_mem _ hg) (h.cov x hx), hposted⟩
          · intro g hg
            rcases List.mem_cons.1 hg with rfl | hg
            · rfl
            · exact h.loc g hg
          · intro g hg
            rcases List.mem_cons.1 hg with rfl | hg
            · show may u t.bucket = true
              rw [q2]; exact hm'
            · exact h.allowed g hg
  | patch u header path range n env =>
    unfold step
    dsimp only
    by_cases hm : may u header = false
    · rw [if_pos hm]; exact h
    · rw [if_neg hm]
      obtain ⟨t, ht⟩ := hr
      have hloc : path = location (cx.enc t) := h.loc _ ht
      refine ⟨h.loc, h.allowed, ?_, h.posted⟩
      intro x hx
      rcases List.mem_append.1 hx with hx | hx
      · exact covered_mono (fun g hg => hg) (h.cov x hx)
      · obtain ⟨e, he, rfl⟩ := List.mem_map.1 hx
        refine ⟨t, ⟨path, ht⟩, ?_⟩
        cases range with
        | none =>
          unfold patch at he
          rw [hloc, token_back] at he
          cases he
        | some first =>
          rw [hloc, patch_location] at he
          exact resume_belongs env t first n e he

theorem inv_run (cx : Codec) (may : Nat → Str → Bool) (rs : List Req) :
    ∀ s, Inv cx may s → HonestRun cx may s rs → Inv cx may (run cx may s rs) := by
  induction rs with
  | nil => intro s h _; exact h
  | cons r rs ih => intro s h hr; exact ih _ (inv_step cx may h hr.1) hr.2

/-- **C92** partial: if users send only the paths they were given, every PATCH stays with the temporary files and the
version of a token given to its user, and versions are recorded only where the user may write.
Missing: paths a user made up (`C92_forged`). -/
theorem C92_honest_partial (cx : Codec) (may : Nat → Str → Bool) (rs : List Req) (h : HonestRun cx may init rs) :
    (∀ x ∈ (run cx may init rs).patched, Covered (run cx may init rs) x.1 x.2) ∧
    (∀ u r, (u, .record r) ∈ (run cx may init rs).patched ++ (run cx may init rs).posted → may u r.bucket = true) := by
  have hi := inv_run cx may rs init (inv_init cx may) h
  refine ⟨hi.cov, fun u r hr => ?_⟩
  rcases List.mem_append.1 hr with hr | hr
  · obtain ⟨t, ⟨loc, hg⟩, hb⟩ := hi.cov _ hr
    rw [show r.bucket = t.bucket from hb.1]
    exact hi.allowed _ hg
  · exact hi.posted u r hr

/-- **C92** What is no token does nothing. -/
theorem C92_garbage (cx : Codec) (env : Env) (path : Str) (range : Option Int) (n : Nat)
    (h : ∀ s t, tokenOf path = some s → cx.dec s ≠ some t) : (patch cx env path range n).2 = [] := by
  unfold patch
  cases hp : tokenOf path with
  | none => rfl
  | some s =>
    cases range with
    | none => rfl
    | some first =>
      cases hd : cx.dec s with
      | none => simp only [hd]
      | some t => exact absurd hd (h s t hp)

/-- **C92** When the first temporary file of a token is gone, the token only serves to ask for it. -/
theorem C92_gone (env : Env) (t : Tok) (first : Int) (n : Nat) (f : Str × Str) (fs : List (Str × Str))
    (hf : t.servers.zip t.ids = f :: fs) (hh : env.head f.1 f.2 = none) :
    ∀ e ∈ (resume env t first n).2, e = .head f.1 f.2 := by
  intro e he
  unfold resume at he
  rw [show t.files = f :: fs from hf] at he
  cases ho : t.opened with
  | none => rw [ho] at he; cases he
  | some c =>
    rw [ho] at he
    simp only [hh] at he
    exact List.mem_singleton.1 he

/-! ## With tokens somebody made up -/

/-- All servers do what they are asked to; files have `m` bytes; all buckets are read-only if `ro`. -/
def exEnv (m : Int) (ro commitOk : Bool) : Env := ⟨fun _ _ => some m, fun _ => true, false, [], fun _ => some ro, true, commitOk⟩

/-- **C92 fails**: whoever may send a PATCH for some bucket can record, with one request and in any state, whatever
version they like in whatever bucket, read-only or not, provided that some server answers that it has a temporary
file of at least its size.  That can be a server of theirs. -/
theorem C92_forged (cx : Codec) (may : Nat → Str → Bool) (s : State) (u : Nat) (own : Str) (hm : may u own = true)
    (b n h a i : Str) (size m : Int) (hsm : size ≤ m) (env : Env) (hh : env.head a i = some m) (ro : Bool)
    (hb : env.bucket b = some ro) (hr : env.recOk = true) (hc : env.checksum = true → env.sum = h) :
    ∃ path range, (u, .record ⟨b, n, h, size, [a], 1, 0, false⟩) ∈
      (step cx may s (.patch u own path range 0 env)).patched := by
  refine ⟨location (cx.enc ⟨false, size, n, h, b, [a], [i], some ⟨1, 0, 1⟩⟩), some size, ?_⟩
  unfold step
  dsimp only
  rw [if_neg (by rw [hm]; decide), patch_location]
  refine List.mem_append.2 (Or.inr (List.mem_map.2 ⟨_, ?_, rfl⟩))
  have ho : Tok.opened ⟨false, size, n, h, b, [a], [i], some ⟨1, 0, 1⟩⟩ = some ⟨1, 0, 1⟩ := rfl
  have hcur : Tok.current ⟨false, size, n, h, b, [a], [i], some ⟨1, 0, 1⟩⟩ ⟨1, 0, 1⟩ m = size := by
    unfold Tok.current
    dsimp only
    split <;> omega
  have hcp : ∀ t, copyBody env t ⟨1, 0, 1⟩ 0 = (.ok, []) := fun t => rfl
  unfold resume
  rw [ho]
  simp only [Tok.files, List.zip_cons_cons, hh, hcur, ne_eq, not_true_eq_false, if_false, hcp, Int.ofNat_zero,
    Int.natCast_zero, Int.add_zero, Int.lt_irrefl, gt_iff_lt]
  refine List.mem_cons_of_mem _ (List.mem_append.2 (Or.inr ?_))
  unfold finish
  rw [if_neg (by decide), if_neg (by rintro ⟨h1, h2⟩; exact h2 (hc h1))]
  simp only [hb, hr]
  exact List.mem_cons_self ..

/-- **C92 fails**: with any bucket, any address is asked for any path of temporary files. -/
theorem C92_any_address (cx : Codec) (may : Nat → Str → Bool) (s : State) (u : Nat) (own : Str) (hm : may u own = true)
    (a i : Str) (env : Env) :
    ∃ path range, (u, .head a i) ∈ (step cx may s (.patch u own path range 0 env)).patched := by
  refine ⟨location (cx.enc ⟨false, 0, [], [], [], [a], [i], some ⟨1, 0, 1⟩⟩), some 0, ?_⟩
  unfold step
  dsimp only
  rw [if_neg (by rw [hm]; decide), patch_location]
  refine List.mem_append.2 (Or.inr (List.mem_map.2 ⟨_, ?_, rfl⟩))
  have ho : Tok.opened ⟨false, 0, [], [], [], [a], [i], some ⟨1, 0, 1⟩⟩ = some ⟨1, 0, 1⟩ := rfl
  unfold resume
  rw [ho]
  simp only [Tok.files, List.zip_cons_cons]
  cases env.head a i with
  | none => exact List.mem_cons_self ..
  | some m =>
    simp only
    split
    · exact List.mem_cons_self ..
    · split
      · exact List.mem_cons_self ..
      · split
        · exact List.mem_cons_self ..
        · split <;> exact List.mem_cons_self ..

/-- **C92 fails**: a token for more shards than it has files ends the process of the API server. -/
theorem C92_crash (cx : Codec) (a i : Str) (m : Int) (env : Env) (hh : env.head a i = some m) :
    ∃ path range n, (patch cx env path range n).1 = .dead := by
  refine ⟨location (cx.enc ⟨false, m * 2 + 2, [], [], [], [a], [i], some ⟨2, 0, 1⟩⟩), some (m * 2), 2, ?_⟩
  rw [patch_location]
  have ho : Tok.opened ⟨false, m * 2 + 2, [], [], [], [a], [i], some ⟨2, 0, 1⟩⟩ = some ⟨2, 0, 1⟩ := rfl
  have hcur : Tok.current ⟨false, m * 2 + 2, [], [], [], [a], [i], some ⟨2, 0, 1⟩⟩ ⟨2, 0, 1⟩ m = m * 2 := by
    unfold Tok.current
    dsimp only
    split <;> omega
  have hcp : copyBody env ⟨false, m * 2 + 2, [], [], [], [a], [i], some ⟨2, 0, 1⟩⟩ ⟨2, 0, 1⟩ 2 = (.dead, [.write a i]) := rfl
  unfold resume
  rw [ho]
  simp only [Tok.files, List.zip_cons_cons, hh, hcur, ne_eq, not_true_eq_false, if_false, hcp]
  rfl

/-- **C92 fails**: a token for blocks of no bytes keeps the API server in a loop. -/
theorem C92_spin (cx : Codec) (a i : Str) (m : Int) (env : Env) (hh : env.head a i = some m) :
    ∃ path range n, (patch cx env path range n).1 = .spin := by
  refine ⟨location (cx.enc ⟨false, m + 1, [], [], [], [a], [i], some ⟨1, 0, 0⟩⟩), some m, 1, ?_⟩
  rw [patch_location]
  have ho : Tok.opened ⟨false, m + 1, [], [], [], [a], [i], some ⟨1, 0, 0⟩⟩ = some ⟨1, 0, 0⟩ := rfl
  have hcur : Tok.current ⟨false, m + 1, [], [], [], [a], [i], some ⟨1, 0, 0⟩⟩ ⟨1, 0, 0⟩ m = m := by
    unfold Tok.current
    dsimp only
    split <;> omega
  have hcp : copyBody env ⟨false, m + 1, [], [], [], [a], [i], some ⟨1, 0, 0⟩⟩ ⟨1, 0, 0⟩ 1 = (.spin, []) := rfl
  unfold resume
  rw [ho]
  simp only [Tok.files, List.zip_cons_cons, hh, hcur, ne_eq, not_true_eq_false, if_false, hcp]
  rfl

/-- **C92** The full statement is wrong, for every codec. -/
theorem C92_statement_fails (cx : Codec) : ¬ C92_statement cx := by
  intro h
  obtain ⟨path, range, hp⟩ := C92_forged cx (fun u b => u = 0 ∧ b = ['m']) init 0 ['m'] (by decide) ['b'] ['n'] ['h']
    ['s'] ['i'] 5 5 (by decide) (exEnv 5 true true) rfl true rfl rfl (by intro h; cases h)
  have := (h (fun u b => u = 0 ∧ b = ['m']) [.patch 0 ['m'] path range 0 (exEnv 5 true true)]).2 0 _
    (List.mem_append.2 (Or.inl hp))
  exact absurd this (by decide)

/-! ## A token that serves twice -/

def exPost : Post := ⟨['b'], ['n'], 4, false⟩
def exPostEnv : PostEnv := ⟨some (false, false), ⟨2, 1, 2⟩, ['h'], none, [['s'], ['t'], ['u']], some [['1'], ['2'], ['3']]⟩
def exTok : Tok := ⟨false, 4, ['n'], ['h'], ['b'], [['s'], ['t'], ['u']], [['1'], ['2'], ['3']], some ⟨2, 1, 2⟩⟩

/-- An upload, and the end of it again because committing failed; meanwhile the bucket was made read-only. -/
def exTwice (cx : Codec) : List Req :=
  [.post 0 exPost exPostEnv, .patch 0 ['b'] (location (cx.enc exTok)) (some 0) 4 (exEnv 0 false false),
    .patch 0 ['b'] (location (cx.enc exTok)) (some 4) 0 (exEnv 2 true true)]

/-- How many versions requests PATCH have recorded. -/
def recorded (s : State) : Nat := (s.patched.filter fun x => match x.2 with | .record _ => true | _ => false).length

/-- **C92 fails** also for tokens that were given out: one token serves for two versions, the second of them in a
bucket that has become read-only. -/
theorem C92_twice (cx : Codec) : HonestRun cx (fun _ _ => true) init (exTwice cx) ∧
    recorded (run cx (fun _ _ => true) init (exTwice cx)) = 2 := by
  have h1 : step cx (fun _ _ => true) init (.post 0 exPost exPostEnv) = ⟨[(0, location (cx.enc exTok), exTok)], [], []⟩ := rfl
  have h2 : ∀ s, step cx (fun _ _ => true) s (.patch 0 ['b'] (location (cx.enc exTok)) (some 0) 4 (exEnv 0 false false)) =
      ⟨s.grants, s.patched ++ (resume (exEnv 0 false false) exTok 0 4).2.map (0, ·), s.posted⟩ := by
    intro s; unfold step; dsimp only; rw [if_neg (by decide), patch_location]
  have h3 : ∀ s, step cx (fun _ _ => true) s (.patch 0 ['b'] (location (cx.enc exTok)) (some 4) 0 (exEnv 2 true true)) =
      ⟨s.grants, s.patched ++ (resume (exEnv 2 true true) exTok 4 0).2.map (0, ·), s.posted⟩ := by
    intro s; unfold step; dsimp only; rw [if_neg (by decide), patch_location]
  refine ⟨⟨trivial, ⟨exTok, ?_⟩, ⟨exTok, ?_⟩, trivial⟩, ?_⟩
  · rw [h1]; exact List.mem_cons_self ..
  · rw [h1, h2]; exact List.mem_cons_self ..
  · unfold exTwice run
    simp only [List.foldl_cons, List.foldl_nil]
    rw [h1, h2, h3]
    have : ∀ g, recorded ⟨g, [] ++ (resume (exEnv 0 false false) exTok 0 4).2.map (0, ·) ++
      (resume (exEnv 2 true true) exTok 4 0).2.map (0, ·), []⟩ = 2 := fun g => by rfl
    exact this _

end Verif.Api.Token
