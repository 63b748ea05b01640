import Verif.Lemmas.HashDir
/-!
# C67 The directory of hash files and its updates
-/
namespace Cdtb
set_option autoImplicit false
open Py Spec

/-! ## The directory -/

theorem envDir_some {e : OsEnv} {name : String} {v : Str} : e.envDir name.toList = some v ↔ EnvSet e name v := by
  unfold OsEnv.envDir EnvSet
  generalize e.getenv name.toList = x
  cases x with
  | none => simp
  | some w =>
    cases w with
    | nil => simp only [List.isEmpty_nil, if_true]; constructor
             · intro h; simp at h
             · rintro ⟨h, h'⟩; exact absurd (Option.some.inj h).symm h'
    | cons a l => simp only [List.isEmpty_cons, Bool.false_eq_true, if_false]; constructor
                  · intro h; exact ⟨h, by rw [← Option.some.inj h]; simp⟩
                  · exact fun h => h.1

theorem envDir_none {e : OsEnv} {name : String} : e.envDir name.toList = none ↔ EnvUnset e name := by
  unfold EnvUnset
  constructor
  · rintro h ⟨v, hv⟩
    rw [envDir_some.2 hv] at h
    exact absurd h (by simp)
  · intro h
    cases hx : e.envDir name.toList with
    | none => rfl
    | some v => exact absurd ⟨v, envDir_some.1 hx⟩ h

theorem isAbsolute_iff (v : Str) : isAbsolute v = true ↔ v.head? = some '/' := by
  unfold isAbsolute
  rw [startsWith_iff]
  cases v with
  | nil => simp
  | cons a l => simp [eq_comm]

theorem pjoin_rel {v w : Str} (hv : v ≠ []) (hw : w.head? ≠ some '/') : pjoin v w = inDir v w := by
  unfold pjoin inDir
  have h1 : ¬ startsWith w ['/'] = true := by
    rw [startsWith_iff]; rintro ⟨t, rfl⟩; exact hw rfl
  rw [if_neg h1]
  have he : v.isEmpty = false := by simpa using hv
  rw [he, Bool.false_or]
  by_cases h : v.getLast? = some '/'
  · rw [if_pos h, if_pos]
    obtain ⟨t, rfl⟩ := List.getLast?_eq_some_iff.1 h
    exact endsWith_iff.2 ⟨t, rfl⟩
  · rw [if_neg h, if_neg]
    · simp
    · intro h'
      obtain ⟨t, rfl⟩ := endsWith_iff.1 h'
      exact h (by simp)

/-- The directory of the hash files, for every environment whose home directory is not the empty path; an error happens only
if the home directory is needed and cannot be found. -/
theorem C67_dir (e : OsEnv) (hh : e.home ≠ .ok []) :
    (∀ dir, defaultHashDir e = .ok dir ↔ HashDir e dir) ∧
    (∀ err, defaultHashDir e = .error err ↔
      EnvUnset e "CDTB_HASHES_DIR" ∧ EnvUnset e "CDRAGON_DATA" ∧ (∀ x, EnvSet e "XDG_DATA_HOME" x → x.head? ≠ some '/') ∧
      EnvUnset e "LOCALAPPDATA" ∧ e.home = .error err) := by
  have key : ∀ {v w : Str}, v ≠ [] → w.head? ≠ some '/' → pjoin v w = inDir v w := pjoin_rel
  have d1 : ("hashes/lol".toList).head? ≠ some '/' := by decide +kernel
  have d2 : ("cdragon/data/hashes/lol".toList).head? ≠ some '/' := by decide +kernel
  have d3 : (".local/share".toList).head? ≠ some '/' := by decide +kernel
  have hne : ∀ v : Str, inDir v ".local/share".toList ≠ [] := by
    intro v; unfold inDir; split <;> simp
  unfold defaultHashDir
  generalize hw1 : "hashes/lol".toList = w1 at *
  generalize hw2 : "cdragon/data/hashes/lol".toList = w2 at *
  generalize hw3 : ".local/share".toList = w3 at *
  have unset {name : String} {v : Str} (h : EnvSet e name v) : ¬EnvUnset e name := fun h' => h' ⟨v, h⟩
  have uniq {name : String} {v w : Str} (h : EnvSet e name v) (h' : EnvSet e name w) : v = w :=
    Option.some.inj (h.1.symm.trans h'.1)
  cases h1 : e.envDir "CDTB_HASHES_DIR".toList with
  | some p =>
    have h1 := envDir_some.1 h1
    simp only
    refine ⟨fun dir => ⟨?_, ?_⟩, fun err => ⟨fun h => by simp at h, fun h => absurd h.1 (unset h1)⟩⟩
    · intro h; simp only [Except.ok.injEq] at h; subst h; exact .told h1
    · intro h
      cases h with
      | told h => rw [uniq h h1]
      | data h _ => exact absurd h (unset h1)
      | xdg h _ _ _ => exact absurd h (unset h1)
      | local_ h _ _ _ => exact absurd h (unset h1)
      | home h _ _ _ _ => exact absurd h (unset h1)
  | none =>
    have h1 := envDir_none.1 h1
    simp only
    cases h2 : e.envDir "CDRAGON_DATA".toList with
    | some p =>
      have h2 := envDir_some.1 h2
      simp only
      rw [key h2.2 d1]
      refine ⟨fun dir => ⟨?_, ?_⟩, fun err => ⟨fun h => by simp at h, fun h => absurd h.2.1 (unset h2)⟩⟩
      · intro h; simp only [Except.ok.injEq] at h; subst h; subst hw1; exact .data h1 h2
      · intro h
        cases h with
        | told h => exact absurd h1 (unset h)
        | data _ h => rw [uniq h h2, hw1]
        | xdg _ h _ _ => exact absurd h (unset h2)
        | local_ _ h _ _ => exact absurd h (unset h2)
        | home _ h _ _ _ => exact absurd h (unset h2)
    | none =>
      have h2 := envDir_none.1 h2
      simp only
      cases h3 : (e.envDir "XDG_DATA_HOME".toList).filter isAbsolute with
      | some p =>
        obtain ⟨h3, h3a⟩ := Option.filter_eq_some_iff.1 h3
        have h3 := envDir_some.1 h3
        have h3a := (isAbsolute_iff p).1 h3a
        simp only [bind, Except.bind]
        rw [key h3.2 d2]
        refine ⟨fun dir => ⟨?_, ?_⟩, fun err => ⟨fun h => by simp at h, fun h => absurd h3a (h.2.2.1 p h3)⟩⟩
        · intro h; simp only [Except.ok.injEq] at h; subst h; subst hw2; exact .xdg h1 h2 h3 h3a
        · intro h
          cases h with
          | told h => exact absurd h1 (unset h)
          | data _ h => exact absurd h2 (unset h)
          | xdg _ _ h _ => rw [uniq h h3, hw2]
          | local_ _ _ h _ => exact absurd h3a (h p h3)
          | home _ _ h _ _ => exact absurd h3a (h p h3)
      | none =>
        have h3 : ∀ x, EnvSet e "XDG_DATA_HOME" x → x.head? ≠ some '/' := by
          intro x hx hx'
          rw [envDir_some.2 hx, Option.filter_some, if_pos ((isAbsolute_iff x).2 hx')] at h3
          exact absurd h3 (by simp)
        simp only
        cases h4 : e.envDir "LOCALAPPDATA".toList with
        | some p =>
          have h4 := envDir_some.1 h4
          simp only [bind, Except.bind]
          rw [key h4.2 d2]
          refine ⟨fun dir => ⟨?_, ?_⟩, fun err => ⟨fun h => by simp at h, fun h => absurd h.2.2.2.1 (unset h4)⟩⟩
          · intro h; simp only [Except.ok.injEq] at h; subst h; subst hw2; exact .local_ h1 h2 h3 h4
          · intro h
            cases h with
            | told h => exact absurd h1 (unset h)
            | data _ h => exact absurd h2 (unset h)
            | xdg _ _ h h' => exact absurd h' (h3 _ h)
            | local_ _ _ _ h => rw [uniq h h4, hw2]
            | home _ _ _ h _ => exact absurd h (unset h4)
        | none =>
          have h4 := envDir_none.1 h4
          simp only [bind, Except.bind, Except.map]
          cases h5 : e.home with
          | error err =>
            simp only
            refine ⟨fun dir => ⟨fun h => by simp at h, ?_⟩, fun err' => ⟨fun h => ⟨h1, h2, h3, h4, ?_⟩, fun h => h.2.2.2.2⟩⟩
            · intro h
              cases h with
              | told h => exact absurd h1 (unset h)
              | data _ h => exact absurd h2 (unset h)
              | xdg _ _ h h' => exact absurd h' (h3 _ h)
              | local_ _ _ _ h => exact absurd h4 (unset h)
              | home _ _ _ _ h => rw [h5] at h; simp at h
            · exact h
          | ok v =>
            have hv : v ≠ [] := by rintro rfl; exact hh h5
            simp only
            rw [key hv d3, key (hne v) d2]
            refine ⟨fun dir => ⟨?_, ?_⟩, fun err' => ⟨fun h => by simp at h, fun h => ?_⟩⟩
            · intro h; simp only [Except.ok.injEq] at h; subst h; subst hw2; subst hw3; exact .home h1 h2 h3 h4 h5
            · intro h
              cases h with
              | told h => exact absurd h1 (unset h)
              | data _ h => exact absurd h2 (unset h)
              | xdg _ _ h h' => exact absurd h' (h3 _ h)
              | local_ _ _ _ h => exact absurd h4 (unset h)
              | home _ _ _ _ h =>
                rw [h5] at h
                rw [← Except.ok.inj h, hw2, hw3]
            · exact absurd h.2.2.2.2 (by simp)

/-! ## One update -/

/-- A name of a file in a directory -/
def FileName (b : Str) : Prop := b ≠ [] ∧ '/' ∉ b

instance (b : Str) : Decidable (FileName b) := inferInstanceAs (Decidable (_ ∧ _))

theorem stat_present {d : TimedFS} {p : Str} {n : Node} (h : d.fs p = some n) : d.stat p = .ok (d.mtime p) := by
  unfold TimedFS.stat; rw [h]

/-- A file at least as recent as the one of the server, as told by the date of its answer: one request is made, and nothing
changes. -/
theorem C67_current (dir b : Str) (hd : dir ≠ []) (hb : FileName b) (d : TimedFS) (c : UpdateCall) (n : Node) (h : Str) (t : Nat)
    (hn : d.fs (inDir dir b) = some n) (hh : c.head = .ok h) (ht : HttpDate h t) (hm : (t : Int) * 1000000000 ≤ d.mtime (inDir dir b)) :
    updateHashfile dir d b c = (d, .ok (), [.head]) := by
  unfold updateHashfile checkUpdate
  rw [pjoin_inDir hd hb.2]
  simp only
  rw [stat_present hn, hh]
  simp only [bind, Except.bind, parseHttpDate_date ht]
  rw [decide_eq_true (show d.mtime (inDir dir b) ≥ _ from hm)]

/-- What a download gives. An error of the request changes nothing; otherwise the file is the content of the answer, with the
current time, or, if writing it fails, it is removed. -/
def Downloaded (dir b : Str) (d : TimedFS) (c : UpdateCall) (d' : TimedFS) (r : Res Unit) : Prop :=
  (∃ e, c.get = .error e ∧ r = .error e ∧ d' = d) ∨
  (∃ content, c.get = .ok content ∧ r = .ok () ∧ d'.fs (inDir dir b) = some (.file content) ∧ d'.mtime (inDir dir b) = c.now) ∨
  (∃ content e, c.get = .ok content ∧ r = .error e ∧ (c.faults.remove = false → d'.fs (inDir dir b) = none))

theorem fetch_downloaded (dir b : Str) (hb : FileName b) (d : TimedFS) (c : UpdateCall) (hp : d.fs (inDir dir b) ≠ some .dir) :
    Downloaded dir b d c (fetchHashfile d (inDir dir b) c).1 (fetchHashfile d (inDir dir b) c).2 := by
  rcases hf : fetchHashfile d (inDir dir b) c with ⟨d', r⟩
  cases r with
  | ok u =>
    obtain ⟨x, h1, h2, h3⟩ := fetchHashfile_ok hf
    exact Or.inr (Or.inl ⟨x, h1, rfl, h2, h3⟩)
  | error e =>
    cases hg : c.get with
    | error e' =>
      have : fetchHashfile d (inDir dir b) c = (d, .error e') := by unfold fetchHashfile; rw [hg]
      rw [this] at hf
      simp only [Prod.mk.injEq, Except.error.injEq] at hf
      exact Or.inl ⟨e', hg, by rw [hf.2], hf.1.symm⟩
    | ok x =>
      refine Or.inr (Or.inr ⟨x, e, hg, rfl, fun hr => ?_⟩)
      rcases fetchHashfile_error (by rw [basename_inDir hb.2]; exact hb.1) hp hr hf with ⟨h, -⟩ | ⟨-, h⟩
      · rw [hg] at h; exact absurd h (by simp)
      · exact h

/-- A file that is not there is downloaded, without asking for its date. A file older than the one of the server is
downloaded too. -/
theorem C67_download (dir b : Str) (hd : dir ≠ []) (hb : FileName b) (d : TimedFS) (c : UpdateCall)
    (hp : d.fs (inDir dir b) ≠ some .dir) :
    (d.fs (inDir dir b) = none → (∀ x, d.fs (dirname (inDir dir b)) ≠ some (.file x)) →
      ∃ d' r, updateHashfile dir d b c = (d', r, [.get]) ∧ Downloaded dir b d c d' r) ∧
    (∀ x h t, d.fs (inDir dir b) = some (.file x) → c.head = .ok h → HttpDate h t →
      d.mtime (inDir dir b) < (t : Int) * 1000000000 →
      ∃ d' r, updateHashfile dir d b c = (d', r, [.head, .get]) ∧ Downloaded dir b d c d' r) := by
  have hf := fetch_downloaded dir b hb d c hp
  constructor
  · intro hn hpar
    refine ⟨_, _, ?_, hf⟩
    unfold updateHashfile checkUpdate
    rw [pjoin_inDir hd hb.2]
    simp only
    have : d.stat (inDir dir b) = .error .fileNotFound := by
      unfold TimedFS.stat
      rw [hn]
      simp only
    rw [this]
    rfl
  · intro x h t hn hh ht hm
    refine ⟨_, _, ?_, hf⟩
    unfold updateHashfile checkUpdate
    rw [pjoin_inDir hd hb.2]
    simp only
    rw [stat_present hn, hh]
    simp only [bind, Except.bind, parseHttpDate_date ht]
    rw [decide_eq_false (show ¬ d.mtime (inDir dir b) ≥ _ by omega)]
    rfl

/-- If the date of the file of the server cannot be known, nothing changes. -/
theorem C67_no_date (dir b : Str) (hd : dir ≠ []) (hb : FileName b) (d : TimedFS) (c : UpdateCall) (n : Node) (e : Err)
    (hn : d.fs (inDir dir b) = some n) (hh : c.head = .error e) (he : e ≠ .fileNotFound) :
    updateHashfile dir d b c = (d, .error e, [.head]) := by
  unfold updateHashfile checkUpdate
  rw [pjoin_inDir hd hb.2]
  simp only
  rw [stat_present hn, hh]
  simp only [bind, Except.bind]

theorem update_frame (dir b : Str) (hd : dir ≠ []) (hb : FileName b) (d : TimedFS) (c : UpdateCall) (q : Str)
    (hq : q ≠ inDir dir b) :
    ((updateHashfile dir d b c).1.fs q = d.fs q ∨ (q ∈ dirPrefixes (dirname (inDir dir b)) ∧ d.fs q = none ∧
      (updateHashfile dir d b c).1.fs q = some .dir)) ∧
    (updateHashfile dir d b c).1.mtime q = d.mtime q := by
  rcases updateHashfile_cases dir d b c with ⟨r, reqs, h, -⟩ | ⟨reqs, h⟩
  · rw [h]; exact ⟨Or.inl rfl, rfl⟩
  · rw [h, pjoin_inDir hd hb.2]; exact fetchHashfile_frame hq

/-- No other file is created, changed or removed by an update, whatever fails. -/
theorem C67_frame (dir b : Str) (hd : dir ≠ []) (hb : FileName b) (d : TimedFS) (c : UpdateCall) (q : Str) (hq : q ≠ inDir dir b)
    (x : Bytes) :
    ((updateHashfile dir d b c).1.fs q = some (.file x) ↔ d.fs q = some (.file x)) ∧
    (updateHashfile dir d b c).1.mtime q = d.mtime q := by
  obtain ⟨h1, h2⟩ := update_frame dir b hd hb d c q hq
  refine ⟨?_, h2⟩
  rcases h1 with h1 | ⟨-, h3, h4⟩
  · rw [h1]
  · rw [h3, h4]; simp

/-! ## A history of updates -/

/-- The file on disk is the one of the server at some instant, and has not changed there until the end of the second when
it was written. -/
def FreshAt (s : HashServer) (T : Int) (d : TimedFS) (p : Str) : Prop :=
  d.fs p = none ∨ ∃ g, g ≤ d.mtime p ∧ d.mtime p ≤ T ∧ d.fs p = some (.file (s.content g)) ∧
    ∀ t, g ≤ t → second t ≤ second (d.mtime p) → (s.lastChange t : Int) ≤ g

theorem update_fresh {s : HashServer} (hs : s.Honest) {dir b : Str} (hd : dir ≠ []) (hb : FileName b) {d : TimedFS} {T t0 t1 : Int}
    {c : UpdateCall} (hi : FreshAt s T d (inDir dir b)) (h0 : 0 ≤ T) (hT : T ≤ t0) (hc : ServedAt s c t0 t1) :
    FreshAt s c.now (updateHashfile dir d b c).1 (inDir dir b) ∧
    ((updateHashfile dir d b c).2.1 = .ok () → ∃ t, t0 ≤ t ∧ t ≤ c.now ∧
      (updateHashfile dir d b c).1.fs (inDir dir b) = some (.file (s.content t))) := by
  have ho := hc.order
  have hp : d.fs (inDir dir b) ≠ some .dir := by
    rcases hi with h | ⟨g, -, -, h, -⟩ <;> rw [h] <;> simp
  have hmono : FreshAt s c.now d (inDir dir b) := by
    rcases hi with h | ⟨g, h1, h2, h3, h4⟩
    · exact Or.inl h
    · exact Or.inr ⟨g, h1, by omega, h3, h4⟩
  rcases updateHashfile_cases dir d b c with ⟨r, reqs, h, hreq⟩ | ⟨reqs, h⟩
  · refine ⟨by rw [h]; exact hmono, fun hok => ?_⟩
    rcases hi with hn | ⟨g, h1, h2, h3, h4⟩
    · -- an absent file is not up to date
      exfalso
      unfold updateHashfile checkUpdate at h hok
      rw [pjoin_inDir hd hb.2] at h hok
      unfold TimedFS.stat at h hok
      simp only [hn] at h hok
      rcases hx : d.fs (dirname (inDir dir b)) with _ | _ | _
      · rw [hx] at h; simp only [Prod.mk.injEq] at h; rw [← h.2.2] at hreq; simp at hreq
      · rw [hx] at hok; simp at hok
      · rw [hx] at h; simp only [Prod.mk.injEq] at h; rw [← h.2.2] at hreq; simp at hreq
    · cases hh : c.head with
      | error e =>
        exfalso
        by_cases he : e = .fileNotFound
        · subst he
          unfold updateHashfile checkUpdate at h
          rw [pjoin_inDir hd hb.2] at h
          simp only at h
          rw [stat_present h3, hh] at h
          simp only [bind, Except.bind, Prod.mk.injEq] at h
          rw [← h.2.2] at hreq; simp at hreq
        · rw [C67_no_date dir b hd hb d c _ e h3 hh he] at hok
          simp at hok
      | ok hdr =>
        have hdate := hc.head hdr hh
        by_cases hcmp : ((s.lastChange t0 / 1000000000 : Nat) : Int) * 1000000000 ≤ d.mtime (inDir dir b)
        · refine ⟨t0, le_refl _, by omega, ?_⟩
          rw [C67_current dir b hd hb d c _ hdr _ h3 hh hdate hcmp]
          simp only
          rw [h3]
          congr 2
          obtain ⟨hle, hsame⟩ := hs g t0 (by omega)
          by_cases hcg : (s.lastChange t0 : Int) ≤ g
          · exact (hsame hcg (by omega)).1
          · exfalso
            have hself := ((hs (s.lastChange t0 : Int) t0 (by omega)).2 (le_refl _) hle).2
            have := h4 (s.lastChange t0 : Int) (by omega) (by
              unfold second
              have : ((s.lastChange t0 : Int) / 1000000000) * 1000000000 ≤ d.mtime (inDir dir b) := by exact_mod_cast hcmp
              omega)
            rw [hself] at this
            exact hcg this
        · exfalso
          obtain ⟨d', r', h', -⟩ := (C67_download dir b hd hb d c hp).2 _ hdr _ h3 hh hdate (by omega)
          rw [h] at h'
          simp only [Prod.mk.injEq] at h'
          rw [h'.2.2] at hreq; simp at hreq
  · rw [h, pjoin_inDir hd hb.2]
    simp only
    rcases fetch_downloaded dir b hb d c hp with ⟨e, h1, h2, h3⟩ | ⟨x, h1, h2, h3, h4⟩ | ⟨x, e, h1, h2, h3⟩
    · rw [h2, h3]; exact ⟨hmono, fun h => by simp at h⟩
    · have hx := hc.get x h1
      subst hx
      refine ⟨Or.inr ⟨t1, by rw [h4]; omega, by rw [h4], h3, ?_⟩, fun _ => ⟨t1, ho.1, ho.2, h3⟩⟩
      rw [h4]; exact hc.quiet
    · rw [h2]
      exact ⟨Or.inl (h3 hc.remove), fun h => by simp at h⟩

theorem updates_fresh {s : HashServer} (hs : s.Honest) {dir b : Str} (hd : dir ≠ []) (hb : FileName b) :
    ∀ {cs : List UpdateCall} {d : TimedFS} {T T' : Int}, 0 ≤ T → FreshAt s T d (inDir dir b) → Served s T cs T' →
      FreshAt s T' (afterUpdates dir b d cs) (inDir dir b) ∧ 0 ≤ T' := by
  intro cs
  induction cs with
  | nil => intro d T T' h0 hi h; cases h; exact ⟨hi, h0⟩
  | cons c cs ih =>
    intro d T T' h0 hi h
    cases h with
    | cons h1 h2 h3 =>
      have := h2.order
      exact ih (by omega) (update_fresh hs hd hb hi h0 h1 h2).1 h3

/-- After any history of updates (any of which may have failed in any way, as long as what it wrote could be removed), a
successful update makes the file the same as the one of the server, at some instant of this last update. The file of the
server must not have changed during the downloads, nor in the second when they ended. -/
theorem C67_fresh (s : HashServer) (hs : s.Honest) (dir b : Str) (hd : dir ≠ []) (hb : FileName b) (d : TimedFS) (T T' : Int)
    (h0 : 0 ≤ T) (hn : d.fs (inDir dir b) = none) (cs : List UpdateCall) (hcs : Served s T cs T') (c : UpdateCall) (t0 t1 : Int) (hT : T' ≤ t0)
    (hc : ServedAt s c t0 t1) (d' : TimedFS) (reqs : List HashRequest)
    (h : updateHashfile dir (afterUpdates dir b d cs) b c = (d', .ok (), reqs)) :
    ∃ t, t0 ≤ t ∧ t ≤ c.now ∧ d'.fs (inDir dir b) = some (.file (s.content t)) := by
  obtain ⟨hf, h0'⟩ := updates_fresh hs hd hb h0 (Or.inl hn) hcs
  have := (update_fresh hs hd hb hf h0' hT hc).2
  rw [h] at this
  exact this rfl

/-- Limitation: a crash while the file is written leaves a truncated file, and as long as the file of the server does not
change afterwards, all updates consider it as up to date. -/
theorem C67_crash (dir b : Str) (hd : dir ≠ []) (hb : FileName b) (d : TimedFS) (content : Bytes) (now : Int) (k : Nat)
    (c : UpdateCall) (h : Str) (t : Nat) (hh : c.head = .ok h) (ht : HttpDate h t) (hnow : (t : Int) * 1000000000 ≤ now) :
    (updateCrash dir d b content now k).fs (inDir dir b) = some (.file (content.take k)) ∧
    updateHashfile dir (updateCrash dir d b content now k) b c = (updateCrash dir d b content now k, .ok (), [.head]) := by
  have h1 : (updateCrash dir d b content now k).fs (inDir dir b) = some (.file (content.take k)) := by
    unfold updateCrash
    rw [pjoin_inDir hd hb.2]
    simp
  refine ⟨h1, C67_current dir b hd hb _ c _ h t h1 hh ht ?_⟩
  unfold updateCrash
  rw [pjoin_inDir hd hb.2]
  simpa using hnow

/-! ## The command -/

theorem update_updated (dir b : Str) (hd : dir ≠ []) (hb : FileName b) (d : TimedFS) (c : UpdateCall)
    (h : (updateHashfile dir d b c).2.1 = .ok ()) : Updated dir d (updateHashfile dir d b c).1 b c := by
  unfold Updated
  unfold updateHashfile at h ⊢
  rw [pjoin_inDir hd hb.2] at h ⊢
  simp only at h ⊢
  split at h
  · rename_i reqs hc
    right
    unfold checkUpdate TimedFS.stat at hc
    cases hn : d.fs (inDir dir b) with
    | none =>
      rw [hn] at hc
      simp only at hc
      rcases hx : d.fs (dirname (inDir dir b)) with _ | _ | _ <;> rw [hx] at hc <;> simp at hc
    | some n =>
      rw [hn] at hc
      simp only [Prod.mk.injEq] at hc
      refine ⟨by simp, rfl, rfl, ?_⟩
      cases hh : c.head with
      | error e => rw [hh] at hc; simp [bind, Except.bind] at hc
      | ok hdr =>
        refine ⟨hdr, rfl, fun t ht => ?_⟩
        rw [hh] at hc
        simp only [bind, Except.bind, parseHttpDate_date ht, Except.ok.injEq] at hc
        exact of_decide_eq_true hc.1
  · rename_i reqs hc
    left
    rcases hf : fetchHashfile d (inDir dir b) c with ⟨d', r⟩
    rw [hf] at h
    simp only at h
    subst h
    exact fetchHashfile_ok hf
  · rename_i reqs hc
    left
    rcases hf : fetchHashfile d (inDir dir b) c with ⟨d', r⟩
    rw [hf] at h
    simp only at h
    subst h
    exact fetchHashfile_ok hf
  · simp at h

theorem update_untouched (dir b x : Str) (hd : dir ≠ []) (hb : FileName b) (hx : FileName x) (hne : x ≠ b) (d : TimedFS)
    (c : UpdateCall) : Untouched dir d (updateHashfile dir d b c).1 x := by
  obtain ⟨h1, h2⟩ := update_frame dir b hd hb d c (inDir dir x) (fun h => hne (inDir_inj h))
  refine ⟨?_, h2⟩
  rcases h1 with h1 | ⟨h1, -⟩
  · exact h1
  · exact absurd h1 (inDir_not_prefix hb.2 hx.1 hx.2)

theorem Spec.Untouched.trans {dir : Str} {d d' d'' : TimedFS} {b : Str} (h : Untouched dir d d' b) (h' : Untouched dir d' d'' b) :
    Untouched dir d d'' b := ⟨h'.1.trans h.1, h'.2.trans h.2⟩

theorem Spec.Updated.left {dir : Str} {d d' d'' : TimedFS} {b : Str} {c : UpdateCall} (h : Untouched dir d d' b)
    (h' : Updated dir d' d'' b c) : Updated dir d d'' b c := by
  unfold Updated at *
  rw [h.1, h.2] at h'
  exact h'

theorem Spec.Updated.right {dir : Str} {d d' d'' : TimedFS} {b : Str} {c : UpdateCall} (h : Updated dir d d' b c)
    (h' : Untouched dir d' d'' b) : Updated dir d d'' b c := by
  unfold Updated at *
  rw [h'.1, h'.2]
  exact h

/-- The loop: files one after the other, until an error. -/
theorem updateAll_spec (dir : Str) (hd : dir ≠ []) (calls : Str → UpdateCall) :
    ∀ (bs : List Str) (d : TimedFS), bs.Nodup → (∀ b ∈ bs, FileName b) →
      (∀ x, FileName x → x ∉ bs → Untouched dir d (updateAll dir calls d bs).1 x) ∧
      (∀ q, (∀ b ∈ bs, q ≠ inDir dir b) → ∀ x, (updateAll dir calls d bs).1.fs q = some (.file x) ↔ d.fs q = some (.file x)) ∧
      ((updateAll dir calls d bs).2 = .ok () → ∀ b ∈ bs, Updated dir d (updateAll dir calls d bs).1 b (calls b)) ∧
      (∀ e, (updateAll dir calls d bs).2 = .error e → ∃ done b rest, bs = done ++ b :: rest ∧
        (∀ x ∈ done, Updated dir d (updateAll dir calls d bs).1 x (calls x)) ∧
        (∀ x ∈ rest, Untouched dir d (updateAll dir calls d bs).1 x) ∧
        (d.fs (inDir dir b) ≠ some .dir → (calls b).faults.remove = false →
          (updateAll dir calls d bs).1.fs (inDir dir b) = d.fs (inDir dir b) ∨
          (updateAll dir calls d bs).1.fs (inDir dir b) = none)) := by
  intro bs
  induction bs with
  | nil =>
    intro d _ _
    exact ⟨fun _ _ _ => ⟨rfl, rfl⟩, fun _ _ _ => Iff.rfl, by simp, fun e h => by simp [updateAll] at h⟩
  | cons b bs ih =>
    intro d hnd hfn
    have hb := hfn b (by simp)
    obtain ⟨hnb, hnd'⟩ := List.nodup_cons.1 hnd
    rcases hu : updateHashfile dir d b (calls b) with ⟨d1, r1, reqs⟩
    have hframe := fun q hq => C67_frame dir b hd hb d (calls b) q hq
    have hunt := fun x hx hne => update_untouched dir b x hd hb hx hne d (calls b)
    have hupd := update_updated dir b hd hb d (calls b)
    rw [hu] at hunt hupd
    simp only [hu] at hframe
    cases r1 with
    | error e =>
      have he : updateAll dir calls d (b :: bs) = (d1, .error e) := by
        simp only [updateAll, hu]
      rw [he]
      refine ⟨fun x hx hn => hunt x hx (fun h => hn (by simp [h])), fun q hq x => (hframe q (hq b (by simp)) x).1, by simp,
        fun e' h' => ⟨[], b, bs, rfl, by simp, fun x hx => hunt x (hfn x (by simp [hx])) (fun h => hnb (h ▸ hx)), ?_⟩⟩
      intro hp hr
      simp only
      rcases updateHashfile_cases dir d b (calls b) with ⟨r, reqs', h, -⟩ | ⟨reqs', h⟩
      · rw [hu] at h
        simp only [Prod.mk.injEq] at h
        rw [h.1]; exact Or.inl rfl
      · rw [hu, pjoin_inDir hd hb.2] at h
        simp only [Prod.mk.injEq] at h
        rcases fetch_downloaded dir b hb d (calls b) hp with ⟨e2, h1, h2, h3⟩ | ⟨x, h1, h2, h3, h4⟩ | ⟨x, e2, h1, h2, h3⟩
        · rw [h.1, h3]; exact Or.inl rfl
        · rw [← h.2.1] at h2; simp at h2
        · rw [h.1]; exact Or.inr (h3 hr)
    | ok u =>
      have he : updateAll dir calls d (b :: bs) = updateAll dir calls d1 bs := by
        simp only [updateAll, hu]
      rw [he]
      obtain ⟨i1, i2, i3, i4⟩ := ih d1 hnd' (fun x hx => hfn x (by simp [hx]))
      have hb1 := (hupd rfl).right (i1 b hb hnb)
      refine ⟨fun x hx hn => (hunt x hx (fun h => hn (by simp [h]))).trans (i1 x hx (fun h => hn (by simp [h]))), ?_, ?_, ?_⟩
      · intro q hq x
        rw [i2 q (fun b' hb' => hq b' (by simp [hb'])) x]
        exact (hframe q (hq b (by simp)) x).1
      · intro hok x hx
        rcases List.mem_cons.1 hx with rfl | hx
        · exact hb1
        · exact (i3 hok x hx).left (hunt x (hfn x (by simp [hx])) (fun h => hnb (h ▸ hx)))
      · intro e h
        obtain ⟨done, b', rest, h1, h2, h3, h4⟩ := i4 e h
        have hmem : ∀ x ∈ bs, Untouched dir d d1 x := fun x hx => hunt x (hfn x (by simp [hx])) (fun h => hnb (h ▸ hx))
        refine ⟨b :: done, b', rest, by rw [h1]; rfl, ?_, ?_, ?_⟩
        · intro x hx
          rcases List.mem_cons.1 hx with rfl | hx
          · exact hb1
          · exact (h2 x hx).left (hmem x (by rw [h1]; simp [hx]))
        · intro x hx
          exact (hmem x (by rw [h1]; simp [hx])).trans (h3 x hx)
        · have := (hmem b' (by rw [h1]; simp)).1
          rw [← this]; exact h4

theorem fetchedHashes_ok : fetchedHashes.Nodup ∧ ∀ b ∈ fetchedHashes, FileName b := by decide +kernel

/-- `fetch-hashes`, on success: each hash file has been downloaded, or was there and not older than the one of the
server. On failure, some files have been updated, one has been left as it was or removed, the others are untouched. In both
cases no other file is changed. The hash files of the source directory are never updated. -/
theorem C67_fetch (source dir : Str) (hd : dir ≠ []) (calls : Str → UpdateCall) (fault : Option (Nat × Err)) (d : TimedFS) :
    (dir = source → commandFetchHashes source dir calls fault d = (d, .error .usage)) ∧
    (∀ q, (∀ b ∈ hashNames, q ≠ inDir dir b) → ∀ x,
      (commandFetchHashes source dir calls fault d).1.fs q = some (.file x) ↔ d.fs q = some (.file x)) ∧
    ((commandFetchHashes source dir calls fault d).2 = .ok () →
      ∀ b ∈ hashNames, Updated dir d (commandFetchHashes source dir calls fault d).1 b (calls b)) ∧
    (∀ e, (commandFetchHashes source dir calls fault d).2 = .error e →
      (∀ b ∈ hashNames, Untouched dir d (commandFetchHashes source dir calls fault d).1 b) ∨
      ∃ done b rest, hashNames = done ++ b :: rest ∧
        (∀ x ∈ done, Updated dir d (commandFetchHashes source dir calls fault d).1 x (calls x)) ∧
        (∀ x ∈ rest, Untouched dir d (commandFetchHashes source dir calls fault d).1 x) ∧
        (d.fs (inDir dir b) ≠ some .dir → (calls b).faults.remove = false →
          (commandFetchHashes source dir calls fault d).1.fs (inDir dir b) = d.fs (inDir dir b) ∨
          (commandFetchHashes source dir calls fault d).1.fs (inDir dir b) = none)) := by
  rw [← show fetchedHashes = hashNames from rfl]
  by_cases hs : dir = source
  · have : commandFetchHashes source dir calls fault d = (d, .error .usage) := by unfold commandFetchHashes; rw [if_pos hs]
    rw [this]
    exact ⟨fun _ => rfl, fun _ _ _ => Iff.rfl, by simp, fun _ _ => Or.inl fun _ _ => ⟨rfl, rfl⟩⟩
  · refine ⟨fun h => absurd h hs, ?_⟩
    have hmk := makedirs_dirsAdded d.fs dir fault
    rcases hm : d.fs.makedirs dir fault with ⟨fs1, r⟩
    rw [hm] at hmk
    have hfile : ∀ q x, fs1 q = some (.file x) ↔ d.fs q = some (.file x) := by
      intro q x
      rcases hmk q with h | ⟨-, h2, h3⟩
      · simp only at h; rw [h]
      · simp only at h3; rw [h2, h3]; simp
    have hunt : ∀ b, FileName b → Untouched dir d { d with fs := fs1 } b := by
      intro b hb
      refine ⟨?_, rfl⟩
      rcases hmk (inDir dir b) with h | ⟨h, -⟩
      · exact h
      · exfalso
        have h1 := mem_dirPrefixes_length h
        have h2 : 0 < b.length := List.length_pos_of_ne_nil hb.1
        unfold inDir at h1
        split at h1 <;> simp only [List.length_append, List.length_cons] at h1 <;> omega
    cases r with
    | error e =>
      have : commandFetchHashes source dir calls fault d = ({ d with fs := fs1 }, .error e) := by
        unfold commandFetchHashes; rw [if_neg hs, hm]
      rw [this]
      exact ⟨fun q _ x => hfile q x, by simp, fun _ _ => Or.inl fun b hb => hunt b (fetchedHashes_ok.2 b hb)⟩
    | ok u =>
      have : commandFetchHashes source dir calls fault d = updateAll dir calls { d with fs := fs1 } fetchedHashes := by
        unfold commandFetchHashes; rw [if_neg hs, hm]
      rw [this]
      obtain ⟨-, i2, i3, i4⟩ := updateAll_spec dir hd calls fetchedHashes { d with fs := fs1 } fetchedHashes_ok.1 fetchedHashes_ok.2
      refine ⟨fun q hq x => (i2 q hq x).trans (hfile q x), ?_, ?_⟩
      · intro hok b hb
        exact (i3 hok b hb).left (hunt b (fetchedHashes_ok.2 b hb))
      · intro e h
        obtain ⟨done, b', rest, h1, h2, h3, h4⟩ := i4 e h
        refine Or.inr ⟨done, b', rest, h1, ?_, ?_, ?_⟩
        · intro x hx
          exact (h2 x hx).left (hunt x (fetchedHashes_ok.2 x (by rw [h1]; simp [hx])))
        · intro x hx
          exact (hunt x (fetchedHashes_ok.2 x (by rw [h1]; simp [hx]))).trans (h3 x hx)
        · have := (hunt b' (fetchedHashes_ok.2 b' (by rw [h1]; simp))).1
          rw [← this]; exact h4

/-- The hash files the program reads by default, for WAD files, RST files of all versions and bin files, are all among the
updated ones: after a successful `fetch-hashes` (where no directory has the name of a hash file) they exist. -/
theorem C67_all (source dir : Str) (hd : dir ≠ []) (calls : Str → UpdateCall) (fault : Option (Nat × Err)) (d : TimedFS)
    (hdir : ∀ b ∈ hashNames, d.fs (inDir dir b) ≠ some .dir)
    (hok : (commandFetchHashes source dir calls fault d).2 = .ok ()) (p : Str)
    (hp : (∃ wad, defaultHashfile dir wad = .ok p) ∨ (∃ v, p = rstHashfile dir v) ∨ p ∈ binHashfiles dir) :
    ∃ content, (commandFetchHashes source dir calls fault d).1.fs p = some (.file content) := by
  have hmem : ∃ b ∈ fetchedHashes, p = inDir dir b := by
    have mk : ∀ b ∈ fetchedHashes, p = pjoin dir b → ∃ b ∈ fetchedHashes, p = inDir dir b := fun b hb h =>
      ⟨b, hb, by rw [h, pjoin_inDir hd (fetchedHashes_ok.2 b hb).2]⟩
    rcases hp with ⟨wad, h⟩ | ⟨v, rfl⟩ | h
    · unfold defaultHashfile at h
      split at h
      · exact mk _ (by decide +kernel) (Except.ok.inj h).symm
      · split at h
        · exact mk _ (by decide +kernel) (Except.ok.inj h).symm
        · simp at h
    · by_cases hv : v ≥ 1415
      · refine mk "hashes.rst.xxh3.txt".toList (by decide +kernel) ?_
        unfold rstHashfile; rw [if_pos hv]
      · refine mk "hashes.rst.xxh64.txt".toList (by decide +kernel) ?_
        unfold rstHashfile; rw [if_neg hv]
    · obtain ⟨s, hs, rfl⟩ := List.mem_map.1 h
      refine mk _ ?_ rfl
      simp only [List.mem_cons, List.not_mem_nil, or_false] at hs
      rcases hs with rfl | rfl | rfl | rfl <;> decide +kernel
  obtain ⟨b, hb, rfl⟩ := hmem
  rcases (C67_fetch source dir hd calls fault d).2.2.1 hok b hb with ⟨x, -, h, -⟩ | ⟨h1, h2, -⟩
  · exact ⟨x, h⟩
  · rw [h2]
    cases hx : d.fs (inDir dir b) with
    | none => exact absurd hx h1
    | some n =>
      cases n with
      | file x => exact ⟨x, rfl⟩
      | dir => exact absurd hx (hdir b hb)

/-! ## Limitations and examples -/

namespace C67ex

def dir : Str := "/data/hashes".toList
def name : Str := "hashes.game.txt".toList
def path : Str := "/data/hashes/hashes.game.txt".toList

/-- Changes at 5.5 s -/
def server : HashServer where
  content t := if t < 5500000000 then [1] else [2]
  lastChange t := if t < 5500000000 then 0 else 5500000000

theorem honest : server.Honest := by
  intro t t' h0
  unfold server
  simp only
  by_cases h : t' < 5500000000
  · rw [if_pos h, if_pos h]
    refine ⟨by simpa using h0, fun h1 h2 => ?_⟩
    rw [if_pos (by omega), if_pos (by omega)]
    exact ⟨rfl, rfl⟩
  · rw [if_neg h, if_neg h]
    refine ⟨by omega, fun h1 h2 => ?_⟩
    rw [if_neg (by omega), if_neg (by omega)]
    exact ⟨rfl, rfl⟩

def date0 : Str := "Thu, 01 Jan 1970 00:00:00 GMT".toList
def date5 : Str := "Thu, 01 Jan 1970 00:00:05 GMT".toList

theorem date0_ok : HttpDate date0 0 :=
  ⟨"Thu".toList, by decide +kernel, 1970, 1, 1, 0, 0, 0, "Jan".toList, by decide +kernel, by decide, by decide, by decide, by decide,
    ⟨31, by decide +kernel, by decide⟩, by decide, by decide, by decide, by decide +kernel, by decide +kernel⟩

theorem date5_ok : HttpDate date5 5 :=
  ⟨"Thu".toList, by decide +kernel, 1970, 1, 1, 0, 0, 5, "Jan".toList, by decide +kernel, by decide, by decide, by decide, by decide,
    ⟨31, by decide +kernel, by decide⟩, by decide, by decide, by decide, by decide +kernel, by decide +kernel⟩

/-- A date of a leap year -/
example : HttpDate "Thu, 29 Feb 2024 12:34:56 GMT".toList 1709210096 :=
  ⟨"Thu".toList, by decide +kernel, 2024, 2, 29, 12, 34, 56, "Feb".toList, by decide +kernel, by decide, by decide, by decide, by decide,
    ⟨29, by decide +kernel, by decide⟩, by decide, by decide, by decide, by decide +kernel, by decide +kernel⟩

def disk : TimedFS where
  fs p := if p = "/data".toList then some .dir else none
  mtime _ := 0

/-- Calls without failures: the requests at `t0` and `t1`, the file is written at `now`. -/
def call (head : Str) (t1 now : Int) (f : WriteFaults := {}) : UpdateCall :=
  { head := .ok head, get := .ok (server.content t1), now := now, faults := f }

theorem served {h : Str} {t0 t1 now : Int} {f : WriteFaults} (ho : t0 ≤ t1 ∧ t1 ≤ now) (hd : HttpDate h (server.lastChange t0 / 1000000000))
    (hq : second now < 5 ∨ 5500000000 ≤ t1) (hr : f.remove = false) (h1 : 0 ≤ t1) : ServedAt server (call h t1 now f) t0 t1 where
  order := ho
  head := fun x hx => by rw [← Except.ok.inj hx]; exact hd
  get := fun b hb => (Except.ok.inj hb).symm
  remove := hr
  quiet := by
    intro t ht hs
    unfold server
    simp only
    change second t ≤ second now at hs
    unfold second at *
    rcases hq with hq | hq
    · rw [if_pos (by omega)]; simpa using h1
    · rw [if_neg (by omega)]; exact hq

/-- A download; one that fails while the file is opened, after a change; and a last one. -/
def c1 : UpdateCall := call date0 1000000001 2000000000
def c2 : UpdateCall := call date5 6000000000 6000000001 { open_ := some (.os 28) }
def c3 : UpdateCall := call date5 7000000000 7000000009

theorem history : Served server 0 [c1, c2] 6000000001 :=
  .cons (t0 := 1000000000) (t1 := 1000000001) (by decide) (served (by decide) date0_ok (by decide) rfl (by decide))
    (.cons (t0 := 5900000000) (t1 := 6000000000) (by decide) (served (by decide) date5_ok (by decide) rfl (by decide)) (.nil _))

/-- The hypotheses of `C67_fresh` are met, and the result is the new content. -/
example : ∃ t, 6500000000 ≤ t ∧ t ≤ 7000000009 ∧
    (updateHashfile dir (afterUpdates dir name disk [c1, c2]) name c3).1.fs path = some (.file (server.content t)) := by
  have hr : (updateHashfile dir (afterUpdates dir name disk [c1, c2]) name c3).2.1 = .ok () := by decide +kernel
  have := C67_fresh server honest dir name (by decide) (by decide +kernel) disk 0 6000000001 (by decide) (by decide +kernel) [c1, c2] history
    c3 6500000000 7000000000 (by decide) (served (by decide) date5_ok (by decide) rfl (by decide))
    (updateHashfile dir (afterUpdates dir name disk [c1, c2]) name c3).1
    (updateHashfile dir (afterUpdates dir name disk [c1, c2]) name c3).2.2 (by rw [← hr])
  exact this

example : (updateHashfile dir disk name c1).1.fs path = some (.file [1]) ∧
    (afterUpdates dir name disk [c1, c2]).fs path = none ∧
    (updateHashfile dir (afterUpdates dir name disk [c1, c2]) name c3).1.fs path = some (.file [2]) := by decide +kernel

/-- An up to date file, a file that is too old -/
example : updateHashfile dir (updateHashfile dir disk name c1).1 name (call date0 3000000000 3000000000) =
    ((updateHashfile dir disk name c1).1, .ok (), [.head]) :=
  C67_current dir name (by decide) (by decide +kernel) _ _ (.file [1]) date0 0 (by decide +kernel) rfl date0_ok (by decide +kernel)
example : (updateHashfile dir (updateHashfile dir disk name c1).1 name (call date5 6000000000 6000000000)).2 =
    (.ok (), [.head, .get]) := by decide +kernel

/-- The directory -/
def env (l : List (String × String)) : OsEnv where
  getenv n := (l.find? fun kv => kv.1.toList = n).map fun kv => kv.2.toList
  home := .ok "/home/u".toList

example : defaultHashDir (env []) = .ok "/home/u/.local/share/cdragon/data/hashes/lol".toList := by decide +kernel
example : defaultHashDir (env [("XDG_DATA_HOME", "rel"), ("LOCALAPPDATA", "/l")]) = .ok "/l/cdragon/data/hashes/lol".toList := by
  decide +kernel
example : defaultHashDir (env [("XDG_DATA_HOME", "/x/"), ("LOCALAPPDATA", "/l")]) = .ok "/x/cdragon/data/hashes/lol".toList := by
  decide +kernel
example : defaultHashDir (env [("CDTB_HASHES_DIR", ""), ("CDRAGON_DATA", "/c")]) = .ok "/c/hashes/lol".toList := by decide +kernel

/-- The command, with and without a failure (of the request for the fourth file) -/
example : (commandFetchHashes "/src".toList dir (fun _ => c1) none disk).2 = .ok () ∧
    ∀ b ∈ hashNames, (commandFetchHashes "/src".toList dir (fun _ => c1) none disk).1.fs (inDir dir b) = some (.file [1]) := by
  decide +kernel
example :
    let calls := fun b => if b = "hashes.bintypes.txt".toList then { c1 with get := .error (.http 503) } else c1
    (commandFetchHashes "/src".toList dir calls none disk).2 = .error (.http 503) ∧
    (commandFetchHashes "/src".toList dir calls none disk).1.fs "/data/hashes/hashes.binhashes.txt".toList = some (.file [1]) ∧
    (commandFetchHashes "/src".toList dir calls none disk).1.fs path = none := by decide +kernel

end C67ex

open C67ex in
/-- Limitation: dates are in seconds, and the time of the file is the one when it was written. A change on the server in
the second of the end of a download (here at 5.5 s, after a download at 5.2 s) is not seen by the next updates: this is
what the hypothesis on changes of `C67_fresh` excludes. -/
theorem C67_race : ∃ (s : HashServer) (c1 : UpdateCall) (d1 : TimedFS), s.Honest ∧
    c1.get = .ok (s.content 5200000000) ∧ c1.now = 5300000000 ∧ updateHashfile dir disk name c1 = (d1, .ok (), [.get]) ∧
    ∀ (t0 : Int) (c2 : UpdateCall) (h : Str), 6000000000 ≤ t0 → c2.head = .ok h → HttpDate h (s.lastChange t0 / 1000000000) →
      updateHashfile dir d1 name c2 = (d1, .ok (), [.head]) ∧ d1.fs path ≠ some (.file (s.content t0)) := by
  refine ⟨server, call date0 5200000000 5300000000, (updateHashfile dir disk name (call date0 5200000000 5300000000)).1, honest, rfl, rfl, ?_, ?_⟩
  · have : (updateHashfile dir disk name (call date0 5200000000 5300000000)).2 = (.ok (), [.get]) := by decide +kernel
    rw [← this]
  · intro t0 c2 h ht0 hh hd
    have hf : (updateHashfile dir disk name (call date0 5200000000 5300000000)).1.fs path = some (.file [1]) := by decide +kernel
    have hm : (updateHashfile dir disk name (call date0 5200000000 5300000000)).1.mtime path = 5300000000 := by decide +kernel
    have hp : inDir dir name = path := by decide +kernel
    have hlc : server.lastChange t0 = 5500000000 := by
      unfold server; simp only; rw [if_neg (by omega)]
    refine ⟨C67_current dir name (by decide) (by decide +kernel) _ c2 (.file [1]) h _ (by rw [hp]; exact hf) hh hd ?_, ?_⟩
    · rw [hp, hm, hlc]; decide
    · rw [hf]
      unfold server; simp only
      rw [if_neg (by omega)]
      decide

end Cdtb
