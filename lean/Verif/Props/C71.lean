import Verif.Spec.GuessCmd
import Verif.Lemmas.GuessCmd
import Verif.Props.C66
/-!
# C71  The command that guesses hashes only adds true entries to the hash files, and only when asked
-/
namespace Cdtb
set_option autoImplicit false
open Py

/-! ## Counting entries -/

/-- Sizes of the table and of the sets of a guesser, after some checks -/
structure Counts (g0 g : Guesser) : Prop where
  wf : Dict.WF g.known
  unknown : g.unknown.length + g.printed.length = g0.unknown.length + g0.printed.length
  known : g.known.length + g0.printed.length = g0.known.length + g.printed.length

theorem Counts.check {H : Str → Int} {g0 g : Guesser} (c : Counts g0 g) (p : Str) (hd : ∀ h ∈ g.unknown, g.known.get? h = none) :
    Counts g0 (g.check H p) := by
  unfold Guesser.check
  simp only
  split
  · rename_i h
    have h1 := List.length_erase_of_mem h
    have h2 := List.length_pos_of_mem h
    have h3 : (g.known.set (H p) p).length = g.known.length + 1 := by
      rw [Dict.length_set, if_neg]
      rw [← Dict.get?_isSome, hd _ h]
      simp
    obtain ⟨a, b, e⟩ := c
    refine ⟨a.set _ _, ?_, ?_⟩ <;> simp only [Guesser.addKnown, List.length_append, List.length_cons, List.length_nil] <;> omega
  · exact c

theorem Counts.iter {H : Str → Int} {g0 g i0 : Guesser} {cands : Str → Prop} (c : Counts g0 g) (hi : g.Inv H i0 cands) (ps : List Str) :
    Counts g0 (g.checkIter H ps) := by
  induction ps generalizing g cands with
  | nil => rw [checkIter_nil]; exact c
  | cons p ps ih =>
    have : g.checkIter H (p :: ps) = (g.check H p).checkIter H ps := rfl
    rw [this]
    exact ih (c.check p hi.disjoint) (hi.check p)

theorem Counts.run {H : Str → Int} {g0 g i0 : Guesser} {cands : Str → Prop} (c : Counts g0 g) (hi : g.Inv H i0 cands) (ops : List GuessOp) :
    Counts g0 (g.run H ops) := by
  induction ops generalizing g cands with
  | nil => exact c
  | cons op ops ih =>
    refine ih ?_ (hi.step op)
    cases op with
    | check p => exact c.check p hi.disjoint
    | isKnown p =>
      show Counts g0 (g.isKnown H p).1
      rw [isKnown_fst]
      exact c.check p hi.disjoint
    | checkIter ps => exact c.iter hi ps
    | checkText t => exact c.iter hi _
    | directoryList b =>
      obtain ⟨h1, h2, h3⟩ := c
      show Counts g0 (g.directoryList b).1
      unfold Guesser.directoryList
      split <;> exact ⟨h1, h2, h3⟩

/-- The guesser after some checks has new entries -/
theorem Checks.entries {H : Str → Int} {d : Dict Int Str} (hd : Dict.WF d) {hashes : List Int} {g : Guesser}
    (h : Checks H (Guesser.init d hashes) g) :
    Spec.NewEntries H (· ∈ hashes) d g.known g.printed ∧ Dict.WF g.known ∧
      g.printed.length = (Guesser.init d hashes).unknown.length - g.unknown.length ∧ g.unknown.length ≤ (Guesser.init d hashes).unknown.length := by
  obtain ⟨ops, rfl⟩ := h
  obtain ⟨h1, h2, h3, h4, h5, h6⟩ := C45_safe H d hashes ops
  have c : Counts (Guesser.init d hashes) ((Guesser.init d hashes).run H ops) :=
    Counts.run (H := H) ⟨hd, rfl, rfl⟩ (Guesser.Inv.init H d hashes) ops
  have hp : (Guesser.init d hashes).printed.length = 0 := rfl
  have hk : (Guesser.init d hashes).known.length = d.length := rfl
  have cu := c.unknown
  have ck := c.known
  refine ⟨⟨fun k p => ?_, h6, fun k p hk => ?_, by omega, c.wf⟩, c.wf, by omega, by omega⟩
  · rw [h5]
    constructor
    · intro hk
      rcases hdk : d.get? k with _ | q
      · exact .inr ⟨hk, rfl⟩
      · rw [h1 k q hdk] at hk
        exact .inl hk
    · rintro (hk | hk)
      · exact h1 k p hk
      · exact hk.1
  · rw [h5] at hk
    obtain ⟨a, -, b⟩ := h2 k p hk.1 hk.2
    exact ⟨a, hk.2, b⟩

theorem loadHashFile_wf {fs : FS} {path : Str} {d : Dict Int Str} (h : loadHashFile fs path = .ok d) : Dict.WF d := by
  unfold loadHashFile at h
  rcases hb : fs.readFile path with e | b
  · rw [hb] at h; cases h
  rw [hb] at h
  rcases ht : utf8 b with e | t
  · simp only [bind, Except.bind, ht] at h; cases h
  simp only [bind, Except.bind, ht, loadText] at h
  split at h
  · cases h
  · cases h
    exact Dict.WF.ofList _

/-- A phase of the command -/
theorem guessPhase_of {H : Str → Int} {cx : Codecs} {grep : WadFile → Guesser → Guesser × Res Unit} (hc : ∀ w g, Checks H g (grep w g).1)
    {methods : List (Str × (Guesser → Guesser × Res Unit))} (hm : AllCheck H methods) (names : List Str) (label path : Str) (dry : Bool)
    (fault : Option (Nat × Err)) (fs : FS) (cache : ExtCache) (wads : List WadFile) :
    (∀ e, loadHashFile fs path = .error e → (guessPhase cx names grep methods label path dry fault fs cache wads).2 = ⟨fs, [], .error e⟩) ∧
    ∀ d, loadHashFile fs path = .ok d → Spec.PhaseOf H (fun h => ∃ w ∈ wads, ∃ f ∈ w.files, (f.pathHash : Int) = h) label path dry fault fs d
      (guessPhase cx names grep methods label path dry fault fs cache wads).2 := by
  refine ⟨fun e he => by rw [guessPhase, he], fun d hd => ?_⟩
  have hw := loadHashFile_wf hd
  rw [guessPhase, hd]
  simp only
  split
  · exact .nothing
  · have hch := Checks.runGuesser (cx := cx) hc hm names cache (guesserOf d wads) wads
    have fin : ∀ g, Checks H (guesserOf d wads) g →
        Spec.NewEntries H (fun h => ∃ w ∈ wads, ∃ f ∈ w.files, (f.pathHash : Int) = h) d g.known g.printed ∧
          g.printed.length = (guesserOf d wads).unknown.length - g.unknown.length := by
      intro g hg
      obtain ⟨h1, -, h3, -⟩ := Checks.entries hw hg
      refine ⟨⟨h1.entries, h1.once, fun h p hp => ?_, h1.size, h1.keys⟩, h3⟩
      obtain ⟨a, b, c⟩ := h1.sound h p hp
      simp only [List.mem_flatMap, List.mem_map] at a
      exact ⟨a, b, c⟩
    split
    · rename_i c g' e he
      rw [he] at hch
      exact .failed g'.known g'.printed e (fin g' hch).1
    · rename_i c g' he
      rw [he] at hch
      obtain ⟨h1, h2⟩ := fin g' hch
      simp only [finishPhase]
      rw [← h2]
      split
      · rename_i hn
        have hne : g'.printed ≠ [] := fun h => hn (by rw [h]; rfl)
        cases dry with
        | true => exact .listed g'.known g'.printed rfl hne h1
        | false => cases fault with
          | none => exact .saved g'.known g'.printed rfl hne h1 rfl
          | some f => exact .cut g'.known g'.printed f.1 f.2 rfl hne h1 rfl
      · rename_i hn
        have hne : g'.printed = [] := List.length_eq_zero_iff.1 (by simpa using hn)
        rw [hne]
        exact .nothing

/-! ## Opening of WADs -/

theorem resolvePaths_hash (d : Dict Int Str) (l : List WadEntry) (f : WadEntry) (h : f ∈ resolvePaths d l) : ∃ e ∈ l, e.pathHash = f.pathHash := by
  simp only [resolvePaths, List.mem_map] at h
  obtain ⟨e, he, rfl⟩ := h
  refine ⟨e, he, ?_⟩
  split <;> rfl

theorem openWadAt_ok {cx : Codecs} {dir : Str} {fs : FS} {p : Str} {x : Str × WadFile} (h : openWadAt cx dir fs p = .ok x) :
    x.1 = p ∧ ∃ b version entries, fs p = some (.file b) ∧ parseHeaders.run b = .ok (version, entries) ∧
      ∀ n : Nat, (∃ f ∈ x.2.files, f.pathHash = n) ↔ ∃ e ∈ entries, e.pathHash = n := by
  unfold openWadAt at h
  rcases hb : fs.readFile p with e | b
  · rw [hb] at h; cases h
  rw [hb] at h
  simp only [bind, Except.bind] at h
  rcases hh : parseHeaders.run b with e | ⟨version, entries⟩
  · rw [hh] at h; cases h
  rw [hh] at h
  simp only at h
  rcases hd : defaultHashfile dir p with e | hp
  · rw [hd] at h; cases h
  rw [hd] at h
  simp only at h
  rcases hl : loadHashFile fs hp with e | d
  · rw [hl] at h; cases h
  rw [hl] at h
  simp only at h
  rcases ht : loadSubchunkToc cx b (resolvePaths d entries) with e | toc
  · rw [ht] at h; cases h
  rw [ht] at h
  simp only [Except.ok.injEq] at h
  subst h
  refine ⟨rfl, b, version, entries, readFile_iff.1 hb, hh, fun n => ⟨?_, ?_⟩⟩
  · rintro ⟨f, hf, rfl⟩
    exact resolvePaths_hash d entries f hf
  · rintro ⟨e, he, rfl⟩
    refine ⟨_, List.mem_map_of_mem he, ?_⟩
    split <;> rfl

/-- The WADs of an argument are opened -/
theorem openPatchWads_ok {cx : Codecs} {dir : Str} {fs : FS} {ps : List (Res Str)} {ws : List (Str × WadFile)} (h : openPatchWads cx dir fs ps = .ok ws) :
    ∀ x, x ∈ ws ↔ ∃ p q, .ok p ∈ ps ∧ (p = q ++ ".wad".toList ∨ p = q ++ ".wad.client".toList) ∧ openWadAt cx dir fs p = .ok x := by
  induction ps generalizing ws with
  | nil => cases h; simp
  | cons r ps ih =>
    rcases r with e | p
    · cases h
    rw [openPatchWads] at h
    split at h
    · rename_i hx
      rcases hw : openWadAt cx dir fs p with e | w
      · rw [hw] at h; cases h
      rw [hw] at h
      rcases hr : openPatchWads cx dir fs ps with e | r
      · simp only [bind, Except.bind, hr] at h; cases h
      simp only [bind, Except.bind, hr, Except.ok.injEq] at h
      subst h
      have ih := ih hr
      have hx' : ∃ q, p = q ++ ".wad".toList ∨ p = q ++ ".wad.client".toList := by
        rw [Bool.or_eq_true, endsWith_iff, endsWith_iff] at hx
        rcases hx with ⟨q, hq⟩ | ⟨q, hq⟩
        · exact ⟨q, .inl hq⟩
        · exact ⟨q, .inr hq⟩
      intro x
      rw [List.mem_cons, ih x]
      constructor
      · rintro (rfl | ⟨p', q, h1, h2, h3⟩)
        · obtain ⟨q, hq⟩ := hx'
          exact ⟨p, q, List.mem_cons_self, hq, hw⟩
        · exact ⟨p', q, List.mem_cons_of_mem _ h1, h2, h3⟩
      · rintro ⟨p', q, h1, h2, h3⟩
        rcases List.mem_cons.1 h1 with e | h1
        · cases e
          rw [hw] at h3
          cases h3
          exact .inl rfl
        · exact .inr ⟨p', q, h1, h2, h3⟩
    · rename_i hx
      intro x
      rw [ih h x]
      constructor
      · rintro ⟨p', q, h1, h2, h3⟩
        exact ⟨p', q, List.mem_cons_of_mem _ h1, h2, h3⟩
      · rintro ⟨p', q, h1, h2, h3⟩
        rcases List.mem_cons.1 h1 with e | h1
        · cases e
          refine absurd ?_ hx
          rw [Bool.or_eq_true, endsWith_iff, endsWith_iff]
          rcases h2 with h2 | h2
          · exact .inl ⟨q, h2⟩
          · exact .inr ⟨q, h2⟩
        · exact ⟨p', q, h1, h2, h3⟩

theorem openArg_ok {cx : Codecs} {dir : Str} {parse : Str → Res (Option GuessComponent)} {fs : FS} {a : Str} {ws : List (Str × WadFile)}
    (h : openArg cx dir parse fs a = .ok ws) : ∀ x, x ∈ ws ↔ ∃ p, Spec.WadOf parse a p ∧ openWadAt cx dir fs p = .ok x := by
  intro x
  rw [openArg] at h
  rcases hp : parse a with e | c
  · rw [hp] at h
    by_cases he : e = .value
    · subst he
      rcases hw : openWadAt cx dir fs a with e | w
      · simp only [bind, Except.bind, hw] at h; cases h
      simp only [bind, Except.bind, hw, Except.ok.injEq] at h
      subst h
      rw [List.mem_singleton]
      constructor
      · rintro rfl
        exact ⟨a, .file hp, hw⟩
      · rintro ⟨p, h1, h2⟩
        cases h1 with
        | file _ => rw [hw] at h2; cases h2; rfl
        | patch ps _ q h3 _ _ => rw [hp] at h3; cases h3
    · cases e <;> first | exact absurd rfl he | cases h
  · rw [hp] at h
    rcases c with _ | ps | _
    · cases h
      constructor
      · intro h; cases h
      · rintro ⟨p, h1, h2⟩
        cases h1 with
        | file h3 => rw [hp] at h3; cases h3
        | patch ps _ q h3 _ _ => rw [hp] at h3; cases h3
    · rw [openPatchWads_ok h x]
      constructor
      · rintro ⟨p, q, h1, h2, h3⟩
        exact ⟨p, .patch ps p q hp h1 h2, h3⟩
      · rintro ⟨p, h1, h2⟩
        cases h1 with
        | file h3 => rw [hp] at h3; cases h3
        | patch ps' _ q h3 h4 h5 =>
          rw [hp] at h3
          cases h3
          exact ⟨p, q, h4, h5, h2⟩
    · cases h

theorem openArgs_ok {cx : Codecs} {dir : Str} {parse : Str → Res (Option GuessComponent)} {fs : FS} {as : List Str} {ws : List (Str × WadFile)}
    (h : openArgs cx dir parse fs as = .ok ws) : ∀ x, x ∈ ws ↔ ∃ a ∈ as, ∃ p, Spec.WadOf parse a p ∧ openWadAt cx dir fs p = .ok x := by
  induction as generalizing ws with
  | nil => cases h; simp
  | cons a as ih =>
    rw [openArgs] at h
    rcases ha : openArg cx dir parse fs a with e | w
    · rw [ha] at h; cases h
    rw [ha] at h
    rcases hr : openArgs cx dir parse fs as with e | r
    · simp only [bind, Except.bind, hr] at h; cases h
    simp only [bind, Except.bind, hr, Except.ok.injEq] at h
    subst h
    intro x
    rw [List.mem_append, openArg_ok ha x, ih hr x]
    simp only [List.mem_cons, exists_eq_or_imp]

/-- All the WADs that are opened are those of the arguments -/
theorem openArgs_all {cx : Codecs} {dir : Str} {parse : Str → Res (Option GuessComponent)} {fs : FS} {as : List Str} {ws : List (Str × WadFile)}
    (h : openArgs cx dir parse fs as = .ok ws) (a : Str) (ha : a ∈ as) (p : Str) (hp : Spec.WadOf parse a p) :
    ∃ x ∈ ws, openWadAt cx dir fs p = .ok x := by
  have hpatch : ∀ (ps : List (Res Str)) (ws : List (Str × WadFile)), openPatchWads cx dir fs ps = .ok ws → ∀ p q, .ok p ∈ ps →
      (p = q ++ ".wad".toList ∨ p = q ++ ".wad.client".toList) → ∃ x, openWadAt cx dir fs p = .ok x := by
    intro ps
    induction ps with
    | nil => intro ws _ p q hp; cases hp
    | cons r ps ih =>
      intro ws h p q hp hq
      rcases r with e | p'
      · cases h
      rw [openPatchWads] at h
      split at h
      · rcases hw : openWadAt cx dir fs p' with e | w
        · rw [hw] at h; cases h
        rw [hw] at h
        rcases hr : openPatchWads cx dir fs ps with e | r
        · simp only [bind, Except.bind, hr] at h; cases h
        rcases List.mem_cons.1 hp with e | hp
        · cases e; exact ⟨w, hw⟩
        · exact ih r hr p q hp hq
      · rename_i hx
        rcases List.mem_cons.1 hp with e | hp
        · cases e
          refine absurd ?_ hx
          rw [Bool.or_eq_true, endsWith_iff, endsWith_iff]
          rcases hq with h2 | h2
          · exact .inl ⟨q, h2⟩
          · exact .inr ⟨q, h2⟩
        · exact ih ws h p q hp hq
  have key : ∃ x, openWadAt cx dir fs p = .ok x := by
    have hall : ∀ (as : List Str) (ws : List (Str × WadFile)), openArgs cx dir parse fs as = .ok ws → a ∈ as → ∃ w, openArg cx dir parse fs a = .ok w := by
      intro as
      induction as with
      | nil => intro ws _ h; cases h
      | cons a' as ih =>
        intro ws h ha
        rw [openArgs] at h
        rcases ha' : openArg cx dir parse fs a' with e | w
        · rw [ha'] at h; cases h
        rw [ha'] at h
        rcases hr : openArgs cx dir parse fs as with e | r
        · simp only [bind, Except.bind, hr] at h; cases h
        rcases List.mem_cons.1 ha with e | ha
        · subst e; exact ⟨w, ha'⟩
        · exact ih r hr ha
    obtain ⟨w, hw⟩ := hall as ws h ha
    rw [openArg] at hw
    cases hp with
    | file h1 =>
      rw [h1] at hw
      rcases ho : openWadAt cx dir fs a with e | w'
      · simp only [bind, Except.bind, ho] at hw; cases hw
      · exact ⟨w', rfl⟩
    | patch ps _ q h1 h2 h3 =>
      rw [h1] at hw
      exact hpatch ps w hw p q h2 h3
  obtain ⟨x, hx⟩ := key
  exact ⟨x, (openArgs_ok h x).2 ⟨a, ha, p, hp, hx⟩, hx⟩

theorem wadsWith_hashes {cx : Codecs} {dir : Str} {parse : Str → Res (Option GuessComponent)} {fs : FS} {as : List Str} {ws : List (Str × WadFile)}
    (h : openArgs cx dir parse fs as = .ok ws) (ext : Str) (n : Int) :
    (∃ w ∈ wadsWith ext ws, ∃ f ∈ w.files, (f.pathHash : Int) = n) ↔ Spec.InWads parse fs as ext n := by
  constructor
  · rintro ⟨w, hw, f, hf, rfl⟩
    simp only [wadsWith, List.mem_map, List.mem_filter, endsWith_iff] at hw
    obtain ⟨x, ⟨hx, q, hq⟩, rfl⟩ := hw
    obtain ⟨a, ha, p, hp, ho⟩ := (openArgs_ok h x).1 hx
    obtain ⟨h1, b, version, entries, h2, h3, h4⟩ := openWadAt_ok ho
    have e : p = q ++ ext := by rw [← h1]; exact hq
    subst e
    obtain ⟨e, he, hn⟩ := (h4 f.pathHash).1 ⟨f, hf, rfl⟩
    exact ⟨a, ha, q, hp, b, version, entries, e, h2, h3, he, by rw [hn]⟩
  · rintro ⟨a, ha, q, hp, b, version, entries, e, h2, h3, he, rfl⟩
    obtain ⟨x, hx, ho⟩ := openArgs_all h a ha _ hp
    obtain ⟨h1, b', version', entries', h2', h3', h4⟩ := openWadAt_ok ho
    rw [h2] at h2'
    cases h2'
    rw [h3] at h3'
    cases h3'
    obtain ⟨f, hf, hn⟩ := (h4 e.pathHash).2 ⟨e, he, rfl⟩
    refine ⟨x.2, ?_, f, hf, by rw [hn]⟩
    simp only [wadsWith, List.mem_map, List.mem_filter, endsWith_iff]
    exact ⟨x, ⟨hx, q, h1⟩, rfl⟩

/-! ## The command -/

theorem hashes_ne (dir : Str) : gameHashes dir ≠ lcuHashes dir := by
  intro h
  have h1 : ∀ x : Str, startsWith x ['/'] = false → pjoin dir x = (if dir.isEmpty || endsWith dir ['/'] then dir else dir ++ ['/']) ++ x := by
    intro x hx
    unfold pjoin
    rw [if_neg (by rw [hx]; simp)]
    split <;> rfl
  unfold gameHashes lcuHashes at h
  rw [h1 _ (by decide), h1 _ (by decide)] at h
  exact absurd (List.append_cancel_left h) (by decide)

theorem loadHashFile_set {fs : FS} {p q : Str} {n : Option Node} (h : q ≠ p) : loadHashFile (fs.set p n) q = loadHashFile fs q := by
  unfold loadHashFile FS.readFile FS.set
  rw [if_neg h]

/-- Only the hash file changes -/
theorem Spec.PhaseOf.frame {H : Str → Int} {hashes : Int → Prop} {label path : Str} {dry : Bool} {fault : Option (Nat × Err)} {fs : FS} {d : Dict Int Str}
    {r : GuessRun} (h : Spec.PhaseOf H hashes label path dry fault fs d r) (q : Str) (hq : q ≠ path) : r.fs q = fs q := by
  cases h with
  | failed => rfl
  | nothing => rfl
  | listed => rfl
  | saved => exact if_neg hq
  | cut => exact if_neg hq

theorem Spec.PhaseOf.load {H : Str → Int} {hashes : Int → Prop} {label path : Str} {dry : Bool} {fault : Option (Nat × Err)} {fs : FS} {d : Dict Int Str}
    {r : GuessRun} (h : Spec.PhaseOf H hashes label path dry fault fs d r) (q : Str) (hq : q ≠ path) : loadHashFile r.fs q = loadHashFile fs q := by
  unfold loadHashFile FS.readFile
  rw [h.frame q hq]

theorem Spec.PhaseOf.congr {H : Str → Int} {hashes hashes' : Int → Prop} {label path : Str} {dry : Bool} {fault : Option (Nat × Err)} {fs : FS} {d : Dict Int Str}
    {r : GuessRun} (h : Spec.PhaseOf H hashes label path dry fault fs d r) (hh : ∀ n, hashes n → hashes' n) :
    Spec.PhaseOf H hashes' label path dry fault fs d r := by
  have hn : ∀ d' new, Spec.NewEntries H hashes d d' new → Spec.NewEntries H hashes' d d' new := fun d' new h =>
    ⟨h.entries, h.once, fun n p hp => ⟨hh n (h.sound n p hp).1, (h.sound n p hp).2⟩, h.size, h.keys⟩
  cases h with
  | failed d' new e h1 => exact .failed d' new e (hn _ _ h1)
  | nothing => exact .nothing
  | listed d' new h1 h2 h3 => exact .listed d' new h1 h2 (hn _ _ h3)
  | saved d' new h1 h2 h3 h4 => exact .saved d' new h1 h2 (hn _ _ h3) h4
  | cut d' new n e h1 h2 h3 h4 => exact .cut d' new n e h1 h2 (hn _ _ h3) h4

theorem guessPhases_of (H : Str → Int) (lib : TextLib) (cx : Codecs) (dir : Str) (parse : Str → Res (Option GuessComponent))
    (faults : Option (Nat × Err) × Option (Nat × Err)) (fs : FS) (dry : Bool) (as names : List Str) (wads : List (Str × WadFile))
    (h : openArgs cx dir parse fs as = .ok wads) :
    Spec.RunOf H (Spec.InWads parse fs as ".wad".toList) (Spec.InWads parse fs as ".wad.client".toList) (lcuHashes dir) (gameHashes dir) dry faults fs
      (guessPhases H lib cx dir faults fs dry names wads) := by
  obtain ⟨a1, a2⟩ := guessPhase_of (H := H) (cx := cx) (grep := fun w g => g.lcuGrepWad H lib cx w.file w.files)
    (fun w g => Checks.lcuGrep H lib cx w.file w.files g) (lcuMethods_check H) names "LCU".toList (lcuHashes dir) dry faults.1 fs []
    (wadsWith ".wad".toList wads)
  unfold guessPhases
  rcases hl : loadHashFile fs (lcuHashes dir) with e | d
  · have := a1 e hl
    split
    · rename_i c fs' out e' he
      rw [he] at this
      cases this
      exact .noLcu e hl
    · rename_i c fs' out he
      rw [he] at this
      cases this
  have p1 := (a2 d hl).congr fun n => (wadsWith_hashes h ".wad".toList n).1
  clear a1 a2
  split
  · rename_i c fs' out e he
    rw [he] at p1
    exact .lcu d fs' out e hl p1
  · rename_i c fs' out he
    rw [he] at p1
    obtain ⟨b1, b2⟩ := guessPhase_of (H := H) (cx := cx) (grep := fun w g => g.gameGrepWad H cx w.file w.toc w.files)
      (fun w g => Checks.gameGrep H cx w.file w.toc w.files g) (gameMethods_check H) names "game".toList (gameHashes dir) dry faults.2 fs' c
      (wadsWith ".wad.client".toList wads)
    have hld : loadHashFile fs' (gameHashes dir) = loadHashFile fs (gameHashes dir) := p1.load _ (hashes_ne dir)
    rcases hl' : loadHashFile fs (gameHashes dir) with e | d'
    · have := b1 e (hld.trans hl')
      split
      rename_i c' fs'' out' r he'
      rw [he'] at this
      cases this
      rw [List.append_nil]
      exact .noGame d fs' out e hl p1 hl'
    · have p2 := (b2 d' (hld.trans hl')).congr fun n => (wadsWith_hashes h ".wad.client".toList n).1
      split
      rename_i c' fs'' out' r he'
      rw [he'] at p2
      exact .game d fs' out d' fs'' out' r hl p1 hl' p2

theorem methodNames_asked (m : Option Str) : ∀ names, methodNames m = .ok names → ∀ n, n ∈ names ↔ Spec.asked m n := by
  intro names h n
  have hdef : n ∈ guessMethods.filter (fun n => n ∉ ["basenames".toList, "words".toList]) ↔
      n ∈ Spec.methods ∧ n ≠ "basenames".toList ∧ n ≠ "words".toList := by
    rw [List.mem_filter]
    have : guessMethods = Spec.methods := rfl
    rw [this]
    generalize "basenames".toList = a
    generalize "words".toList = b
    simp
  unfold Spec.asked
  rcases m with _ | _ | ⟨c, s⟩
  · cases h
    rw [if_pos (.inl rfl)]
    exact hdef
  · cases h
    rw [if_pos (.inr rfl)]
    exact hdef
  · rw [if_neg (by simp)]
    simp only [methodNames] at h
    split at h
    · cases h
      simp only [List.mem_map]
      constructor
      · rintro ⟨x, hx, rfl⟩; exact ⟨_, x, rfl, hx, rfl⟩
      · rintro ⟨_, x, he, hx, rfl⟩; cases he; exact ⟨x, hx, rfl⟩
    · cases h

theorem methodNames_ok (m : Option Str) : (∃ names, methodNames m = .ok names) ↔ ∀ n, Spec.asked m n → n ∈ Spec.methods := by
  constructor
  · rintro ⟨names, h⟩ n hn
    rw [← methodNames_asked m names h n] at hn
    rcases m with _ | _ | ⟨c, s⟩
    · cases h; exact (List.mem_filter.1 hn).1
    · cases h; exact (List.mem_filter.1 hn).1
    · simp only [methodNames] at h
      split at h
      · rename_i ha
        cases h
        exact of_decide_eq_true (List.all_eq_true.1 ha n hn)
      · cases h
  · intro h
    rcases m with _ | _ | ⟨c, s⟩
    · exact ⟨_, rfl⟩
    · exact ⟨_, rfl⟩
    · refine ⟨((splitChar ',' (c :: s)).map strip), ?_⟩
      simp only [methodNames]
      rw [if_pos]
      rw [List.all_eq_true]
      intro n hn
      refine decide_eq_true (h n ?_)
      unfold Spec.asked
      rw [if_neg (by simp)]
      obtain ⟨x, hx, rfl⟩ := List.mem_map.1 hn
      exact ⟨_, x, rfl, hx, rfl⟩

theorem methodNames_error (m : Option Str) (e : Err) (h : methodNames m = .error e) : e = .usage := by
  rcases m with _ | _ | ⟨c, s⟩
  · cases h
  · cases h
  · simp only [methodNames] at h
    split at h
    · cases h
    · cases h; rfl

/-- Wrong arguments: without WAD, or with an unknown method, the command stops with a usage error, before anything. `--list-methods` does
nothing else than listing the methods. -/
theorem C71_usage (H : Str → Int) (lib : TextLib) (cx : Codecs) (dir : Str) (parse : Str → Res (Option GuessComponent))
    (faults : Option (Nat × Err) × Option (Nat × Err)) (fs : FS) (args : GuessArgs) :
    (args.listMethods = true → ∃ lines, commandGuess H lib cx dir parse faults fs args = ⟨fs, lines, .ok ()⟩ ∧
      List.Forall₂ (fun l m => ∃ spaces text, l = "  ".toList ++ m ++ spaces ++ text ∧ (∀ c ∈ spaces, c = ' ') ∧ m.length + spaces.length = 12)
        lines Spec.methods) ∧
    (args.listMethods = false → (args.wad = [] ∨ ∃ n, Spec.asked args.methods n ∧ n ∉ Spec.methods) →
      commandGuess H lib cx dir parse faults fs args = ⟨fs, [], .error .usage⟩) := by
  constructor
  · intro h
    refine ⟨listMethods, by rw [commandGuess, if_pos h], ?_⟩
    have key : ∀ (ms ds : List Str), ms.length = ds.length → (∀ m ∈ ms, m.length ≤ 10) →
        List.Forall₂ (fun l m => ∃ spaces text, l = "  ".toList ++ m ++ spaces ++ text ∧ (∀ c ∈ spaces, c = ' ') ∧ m.length + spaces.length = 12)
          ((ms.zip ds).map fun x => "  ".toList ++ padRight 10 x.1 ++ "  ".toList ++ x.2) ms := by
      intro ms
      induction ms with
      | nil => intro ds _ _; exact .nil
      | cons m ms ih =>
        intro ds hl hm
        cases ds with
        | nil => cases hl
        | cons d ds =>
          refine .cons ⟨List.replicate (10 - m.length) ' ' ++ "  ".toList, d, by simp [padRight], ?_, ?_⟩
            (ih ds (by simpa using hl) fun m hm' => hm m (List.mem_cons_of_mem _ hm'))
          · intro c hc
            rcases List.mem_append.1 hc with hc | hc
            · exact (List.mem_replicate.1 hc).2
            · have : ∀ c ∈ "  ".toList, c = ' ' := by decide
              exact this c hc
          · have := hm m List.mem_cons_self
            simp only [List.length_append, List.length_replicate]
            show m.length + (10 - m.length + 2) = 12
            omega
    exact key guessMethods methodDescriptions (by decide) (by decide)
  · intro h h'
    rw [commandGuess, if_neg (by rw [h]; simp)]
    rcases h' with h' | ⟨n, hn, hn'⟩
    · rw [if_pos (by rw [h']; rfl)]
    · split
      · rfl
      · rcases hm : methodNames args.methods with e | names
        · rw [methodNames_error _ _ hm]
        · exact absurd ((methodNames_ok args.methods).1 ⟨names, hm⟩ n hn) hn'

theorem openPatchWads_of {cx : Codecs} {dir : Str} {fs : FS} (ps : List (Res Str)) (he : ∀ e, .error e ∉ ps)
    (h : ∀ p q, .ok p ∈ ps → (p = q ++ ".wad".toList ∨ p = q ++ ".wad.client".toList) → ∃ w, openWadAt cx dir fs p = .ok w) :
    ∃ ws, openPatchWads cx dir fs ps = .ok ws := by
  induction ps with
  | nil => exact ⟨[], rfl⟩
  | cons r ps ih =>
    obtain ⟨ws, hws⟩ := ih (fun e hm => he e (List.mem_cons_of_mem _ hm)) fun p q hp => h p q (List.mem_cons_of_mem _ hp)
    rcases r with e | p
    · exact absurd List.mem_cons_self (he e)
    rw [openPatchWads]
    split
    · rename_i hx
      rw [Bool.or_eq_true, endsWith_iff, endsWith_iff] at hx
      have : ∃ w, openWadAt cx dir fs p = .ok w := by
        rcases hx with ⟨q, hq⟩ | ⟨q, hq⟩
        · exact h p q List.mem_cons_self (.inl hq)
        · exact h p q List.mem_cons_self (.inr hq)
      obtain ⟨w, hw⟩ := this
      rw [hw, hws]
      exact ⟨_, rfl⟩
    · exact ⟨ws, hws⟩

theorem openArgs_of {cx : Codecs} {dir : Str} {parse : Str → Res (Option GuessComponent)} {fs : FS} (as : List Str)
    (h : ∀ a ∈ as, Spec.Usable cx dir parse fs a) : ∃ ws, openArgs cx dir parse fs as = .ok ws := by
  induction as with
  | nil => exact ⟨[], rfl⟩
  | cons a as ih =>
    obtain ⟨ws, hws⟩ := ih fun a' ha => h a' (List.mem_cons_of_mem _ ha)
    obtain ⟨h1, h2⟩ := h a List.mem_cons_self
    have : ∃ w, openArg cx dir parse fs a = .ok w := by
      rw [openArg]
      rcases h1 with h1 | h1 | ⟨ps, h1, h3⟩
      · rw [h1]
        obtain ⟨w, hw⟩ := h2 a (.file h1)
        rw [hw]
        exact ⟨_, rfl⟩
      · rw [h1]
        exact ⟨_, rfl⟩
      · rw [h1]
        exact openPatchWads_of ps h3 fun p q hp hq => h2 p (.patch ps p q h1 hp hq)
    obtain ⟨w, hw⟩ := this
    rw [openArgs, hw, hws]
    exact ⟨_, rfl⟩

/-- What the command does: with valid arguments, the hashes of the client are searched and saved, then those of the game. -/
theorem C71_run (H : Str → Int) (lib : TextLib) (cx : Codecs) (dir : Str) (parse : Str → Res (Option GuessComponent))
    (faults : Option (Nat × Err) × Option (Nat × Err)) (fs : FS) (args : GuessArgs) (hl : args.listMethods = false) (hw : args.wad ≠ [])
    (hm : ∀ n, Spec.asked args.methods n → n ∈ Spec.methods) (ha : ∀ a ∈ args.wad, Spec.Usable cx dir parse fs a) :
    Spec.RunOf H (Spec.InWads parse fs args.wad ".wad".toList) (Spec.InWads parse fs args.wad ".wad.client".toList) (lcuHashes dir) (gameHashes dir)
      args.dryRun faults fs (commandGuess H lib cx dir parse faults fs args) := by
  obtain ⟨names, hn⟩ := (methodNames_ok args.methods).2 hm
  obtain ⟨ws, hws⟩ := openArgs_of args.wad ha
  rw [commandGuess, if_neg (by rw [hl]; simp), if_neg (by simpa using hw), hn, hws]
  exact guessPhases_of H lib cx dir parse faults fs args.dryRun args.wad names ws hws

/-- The command stops before the hash files are read, or it does what is described above -/
theorem commandGuess_cases (H : Str → Int) (lib : TextLib) (cx : Codecs) (dir : Str) (parse : Str → Res (Option GuessComponent))
    (faults : Option (Nat × Err) × Option (Nat × Err)) (fs : FS) (args : GuessArgs) :
    (commandGuess H lib cx dir parse faults fs args).fs = fs ∨
    Spec.RunOf H (Spec.InWads parse fs args.wad ".wad".toList) (Spec.InWads parse fs args.wad ".wad.client".toList) (lcuHashes dir) (gameHashes dir)
      args.dryRun faults fs (commandGuess H lib cx dir parse faults fs args) := by
  unfold commandGuess
  split
  · exact .inl rfl
  split
  · exact .inl rfl
  split
  · exact .inl rfl
  split
  · exact .inl rfl
  · rename_i names _ _ ws hws
    exact .inr (guessPhases_of H lib cx dir parse faults fs args.dryRun args.wad names ws hws)

/-- The content of a hash file after the command: what it was, or a table with new entries (or only its beginning, if the write fails) -/
def Spec.HashFileAfter (H : Str → Int) (hashes : Int → Prop) (dry : Bool) (fault : Option (Nat × Err)) (fs : FS) (path : Str) (after : Option Node) : Prop :=
  after = fs path ∨ dry = false ∧ ∃ d d' new, loadHashFile fs path = .ok d ∧ new ≠ [] ∧ Spec.NewEntries H hashes d d' new ∧
    (fault = none → after = some (.file (utf8Bytes (saveText 16 d')))) ∧ (∀ n e, fault = some (n, e) → after = some (.file ((utf8Bytes (saveText 16 d')).take n)))

theorem Spec.PhaseOf.file {H : Str → Int} {hashes : Int → Prop} {label path : Str} {dry : Bool} {fault : Option (Nat × Err)} {fs : FS} {d : Dict Int Str}
    {r : GuessRun} (h : Spec.PhaseOf H hashes label path dry fault fs d r) (hd : loadHashFile fs path = .ok d) :
    Spec.HashFileAfter H hashes dry fault fs path (r.fs path) := by
  cases h with
  | failed => exact .inl rfl
  | nothing => exact .inl rfl
  | listed => exact .inl rfl
  | saved d' new h1 h2 h3 h4 => exact .inr ⟨h1, d, d', new, hd, h2, h3, fun _ => if_pos rfl, fun n e he => by rw [h4] at he; cases he⟩
  | cut d' new n e h1 h2 h3 h4 =>
    refine .inr ⟨h1, d, d', new, hd, h2, h3, fun he => by (rw [h4] at he; cases he), fun n' e' he => ?_⟩
    rw [h4] at he
    cases he
    exact if_pos rfl

/-- Whatever happens, the command changes at most the two hash files. Each of them is either unchanged, or replaced by a table with all the previous
entries, and new ones: those are hashes of the files of the WADs of the same type, with a path that has this hash. -/
theorem C71_files (H : Str → Int) (lib : TextLib) (cx : Codecs) (dir : Str) (parse : Str → Res (Option GuessComponent))
    (faults : Option (Nat × Err) × Option (Nat × Err)) (fs : FS) (args : GuessArgs) :
    let r := commandGuess H lib cx dir parse faults fs args
    (∀ q, q ≠ lcuHashes dir → q ≠ gameHashes dir → r.fs q = fs q) ∧
    Spec.HashFileAfter H (Spec.InWads parse fs args.wad ".wad".toList) args.dryRun faults.1 fs (lcuHashes dir) (r.fs (lcuHashes dir)) ∧
    Spec.HashFileAfter H (Spec.InWads parse fs args.wad ".wad.client".toList) args.dryRun faults.2 fs (gameHashes dir) (r.fs (gameHashes dir)) := by
  intro r
  have hne := hashes_ne dir
  rcases commandGuess_cases H lib cx dir parse faults fs args with h | h
  · have h : r.fs = fs := h
    rw [h]
    exact ⟨fun _ _ _ => rfl, .inl rfl, .inl rfl⟩
  · generalize hrr : commandGuess H lib cx dir parse faults fs args = r' at h
    have : r = r' := hrr
    rw [this]
    clear hrr this r
    cases h with
    | noLcu e _ => exact ⟨fun _ _ _ => rfl, .inl rfl, .inl rfl⟩
    | lcu d fs' out e h1 h2 => exact ⟨fun q hq _ => h2.frame q hq, h2.file h1, .inl (h2.frame _ hne)⟩
    | noGame d fs' out e h1 h2 h3 => exact ⟨fun q hq _ => h2.frame q hq, h2.file h1, .inl (h2.frame _ hne)⟩
    | game d fs' out d' fs'' out' r h1 h2 h3 h4 =>
      refine ⟨fun q hq hq' => (h4.frame q hq').trans (h2.frame q hq), ?_, ?_⟩
      · have e : fs'' (lcuHashes dir) = fs' (lcuHashes dir) := h4.frame _ (Ne.symm hne)
        show Spec.HashFileAfter _ _ _ _ _ _ (fs'' (lcuHashes dir))
        rw [e]
        exact h2.file h1
      · have e : fs' (gameHashes dir) = fs (gameHashes dir) := h2.frame _ hne
        have hl : loadHashFile fs' (gameHashes dir) = .ok d' := (h2.load _ hne).trans h3
        have := h4.file hl
        unfold Spec.HashFileAfter at this ⊢
        rw [e, hl] at this
        rw [h3]
        exact this

/-- Loading a saved hash file gives the table: all the previous entries and the new ones, if no path has a line break. -/
theorem C71_reload (H : Str → Int) (hashes : Int → Prop) (d d' : Dict Int Str) (new : List (Int × Str)) (hn : Spec.NewEntries H hashes d d' new)
    (fs : FS) (path : Str) (h : fs path = some (.file (utf8Bytes (saveText 16 d'))))
    (hb : (∀ k p, d.get? k = some p → Spec.NoLineBreak p) ∧ ∀ x ∈ new, Spec.NoLineBreak x.2) :
    ∃ d'', loadHashFile fs path = .ok d'' ∧ ∀ k p, d''.get? k = some p ↔ d.get? k = some p ∨ (k, p) ∈ new := by
  refine ⟨sortByPath d', ?_, fun k p => ?_⟩
  · unfold loadHashFile
    rw [readFile_iff.2 h]
    simp only [bind, Except.bind, utf8_utf8Bytes]
    refine loadText_saveText 16 d' hn.keys fun kv hkv => ?_
    rcases (hn.entries kv.1 kv.2).1 ((Dict.mem_iff_get? hn.keys).1 hkv) with h | h
    · exact hb.1 _ _ h
    · exact hb.2 _ h
  · rw [Dict.get?_perm hn.keys (sortByPath_perm d') k]
    exact hn.entries k p

/-- A phase without writing -/
theorem guessPhase_dry (cx : Codecs) (names : List Str) (grep : WadFile → Guesser → Guesser × Res Unit)
    (methods : List (Str × (Guesser → Guesser × Res Unit))) (label path : Str) (fault : Option (Nat × Err)) (fs fs' : FS) (cache : ExtCache)
    (wads : List WadFile) (h : loadHashFile fs' path = loadHashFile fs path) :
    ∃ c out r fs'', guessPhase cx names grep methods label path true fault fs cache wads = (c, ⟨fs, out, r⟩) ∧
      guessPhase cx names grep methods label path false none fs' cache wads = (c, ⟨fs'', out, r⟩) ∧ ∀ q, q ≠ path → fs'' q = fs' q := by
  unfold guessPhase
  rw [h]
  rcases loadHashFile fs path with e | d
  · exact ⟨_, _, _, _, rfl, rfl, fun _ _ => rfl⟩
  simp only
  split
  · exact ⟨_, _, _, _, rfl, rfl, fun _ _ => rfl⟩
  rcases runGuesser cx names grep methods cache (guesserOf d wads) wads with ⟨c, g, e | _⟩
  · exact ⟨_, _, _, _, rfl, rfl, fun _ _ => rfl⟩
  · simp only [finishPhase]
    split
    · exact ⟨_, _, _, _, rfl, rfl, fun q hq => if_neg hq⟩
    · exact ⟨_, _, _, _, rfl, rfl, fun _ _ => rfl⟩

/-- With `--dry-run` nothing is written, and what is printed and the outcome are those of the command without it. -/
theorem C71_dry (H : Str → Int) (lib : TextLib) (cx : Codecs) (dir : Str) (parse : Str → Res (Option GuessComponent))
    (faults : Option (Nat × Err) × Option (Nat × Err)) (fs : FS) (args : GuessArgs) :
    let dry := commandGuess H lib cx dir parse faults fs { args with dryRun := true }
    let full := commandGuess H lib cx dir parse (none, none) fs { args with dryRun := false }
    dry.fs = fs ∧ dry.out = full.out ∧ dry.res = full.res := by
  simp only [commandGuess]
  split
  · exact ⟨rfl, rfl, rfl⟩
  split
  · exact ⟨rfl, rfl, rfl⟩
  rcases methodNames args.methods with e | names
  · exact ⟨rfl, rfl, rfl⟩
  simp only
  rcases openArgs cx dir parse fs args.wad with e | wads
  · exact ⟨rfl, rfl, rfl⟩
  simp only [guessPhases]
  obtain ⟨c, out, r, fs1, h1, h2, h3⟩ := guessPhase_dry cx names (fun w g => g.lcuGrepWad H lib cx w.file w.files) (lcuMethods H) "LCU".toList
    (lcuHashes dir) faults.1 fs fs [] (wadsWith ".wad".toList wads) rfl
  rw [h1, h2]
  rcases r with e | _
  · exact ⟨rfl, rfl, rfl⟩
  simp only
  have hl : loadHashFile fs1 (gameHashes dir) = loadHashFile fs (gameHashes dir) := by
    unfold loadHashFile FS.readFile
    rw [h3 _ (hashes_ne dir)]
  obtain ⟨c', out', r', fs2, h1', h2', -⟩ := guessPhase_dry cx names (fun w g => g.gameGrepWad H cx w.file w.toc w.files) (gameMethods H) "game".toList
    (gameHashes dir) faults.2 fs fs1 c (wadsWith ".wad.client".toList wads) hl
  rw [h1', h2']
  exact ⟨rfl, rfl, rfl⟩

theorem runMethods_congr (l : List (Str × (Guesser → Guesser × Res Unit))) (a b : List Str) (h : ∀ n, n ∈ a ↔ n ∈ b) (g : Guesser) :
    runMethods a l g = runMethods b l g := by
  induction l generalizing g with
  | nil => rfl
  | cons m l ih =>
    obtain ⟨n, f⟩ := m
    rw [runMethods, runMethods]
    by_cases hn : n ∈ a
    · rw [if_pos hn, if_pos ((h n).1 hn)]
      rcases f g with ⟨g', e | _⟩
      · rfl
      · exact ih g'
    · rw [if_neg hn, if_neg fun h' => hn ((h n).2 h')]
      exact ih g

theorem guessPhase_congr (cx : Codecs) (a b : List Str) (h : ∀ n, n ∈ a ↔ n ∈ b) (grep : WadFile → Guesser → Guesser × Res Unit)
    (methods : List (Str × (Guesser → Guesser × Res Unit))) (label path : Str) (dry : Bool) (fault : Option (Nat × Err)) (fs : FS) (cache : ExtCache)
    (wads : List WadFile) : guessPhase cx a grep methods label path dry fault fs cache wads = guessPhase cx b grep methods label path dry fault fs cache wads := by
  have hr : runMethods a methods = runMethods b methods := funext fun g => runMethods_congr methods a b h g
  unfold guessPhase runGuesser
  rw [hr]
  simp only [h "grep".toList]

/-- The order of the methods in the argument, and their repetition, do not matter: they are always used in the order of the command. -/
theorem C71_order (H : Str → Int) (lib : TextLib) (cx : Codecs) (dir : Str) (parse : Str → Res (Option GuessComponent))
    (faults : Option (Nat × Err) × Option (Nat × Err)) (fs : FS) (args : GuessArgs) (m : Option Str)
    (h : ∀ n, Spec.asked args.methods n ↔ Spec.asked m n) :
    commandGuess H lib cx dir parse faults fs { args with methods := m } = commandGuess H lib cx dir parse faults fs args := by
  simp only [commandGuess]
  split
  · rfl
  split
  · rfl
  rcases h1 : methodNames args.methods with e | a
  · rcases h2 : methodNames m with e' | b
    · rw [methodNames_error _ _ h1, methodNames_error _ _ h2]
    · obtain ⟨x, hx⟩ := (methodNames_ok args.methods).2 fun n hn => (methodNames_ok m).1 ⟨b, h2⟩ n ((h n).1 hn)
      rw [h1] at hx
      cases hx
  · rcases h2 : methodNames m with e' | b
    · obtain ⟨x, hx⟩ := (methodNames_ok m).2 fun n hn => (methodNames_ok args.methods).1 ⟨a, h1⟩ n ((h n).2 hn)
      rw [h2] at hx
      cases hx
    · have hab : ∀ n, n ∈ b ↔ n ∈ a := fun n => by rw [methodNames_asked _ _ h1, methodNames_asked _ _ h2, h n]
      simp only [guessPhases, guessPhase_congr cx b a hab]

/-- If the command fails (other than by a failed write), the hash file of the game is not changed; neither is the one of the client if the failure was
before the message that gives the number of its hashes. -/
theorem C71_error (H : Str → Int) (lib : TextLib) (cx : Codecs) (dir : Str) (parse : Str → Res (Option GuessComponent))
    (fs : FS) (args : GuessArgs) (e : Err) (he : (commandGuess H lib cx dir parse (none, none) fs args).res = .error e) :
    let r := commandGuess H lib cx dir parse (none, none) fs args
    r.fs (gameHashes dir) = fs (gameHashes dir) ∧
    ((∀ n, Spec.FoundLine "LCU".toList n ∉ r.out) → r.fs = fs) := by
  intro r
  have he : r.res = .error e := he
  rcases commandGuess_cases H lib cx dir parse (none, none) fs args with h | h
  · have h : r.fs = fs := h
    rw [h]
    exact ⟨rfl, fun _ => rfl⟩
  · generalize hrr : commandGuess H lib cx dir parse (none, none) fs args = r' at h
    have : r = r' := hrr
    rw [this] at he ⊢
    clear hrr this r
    have lcu : ∀ {d : Dict Int Str} {r : GuessRun}, Spec.PhaseOf H (Spec.InWads parse fs args.wad ".wad".toList) "LCU".toList (lcuHashes dir) args.dryRun none fs d r →
        (∀ n, Spec.FoundLine "LCU".toList n ∉ r.out) → r.fs = fs := by
      intro d r h hn
      cases h with
      | failed => rfl
      | nothing => rfl
      | listed => rfl
      | saved d' new h1 h2 h3 h4 => exact absurd (List.mem_append.2 (.inr List.mem_cons_self)) (hn new.length)
      | cut d' new n e h1 h2 h3 h4 => cases h4
    cases h with
    | noLcu e _ => exact ⟨rfl, fun _ => rfl⟩
    | lcu d fs' out e h1 h2 => exact ⟨h2.frame _ (hashes_ne dir), lcu h2⟩
    | noGame d fs' out e h1 h2 h3 =>
      have hl := lcu h2
      exact ⟨h2.frame _ (hashes_ne dir), hl⟩
    | game d fs' out d' fs'' out' r h1 h2 h3 h4 =>
      have e1 : fs' (gameHashes dir) = fs (gameHashes dir) := h2.frame _ (hashes_ne dir)
      have e2 : fs'' = fs' := by
        have he : r = .error e := he
        subst he
        cases h4 with
        | failed => rfl
        | cut d' new n e h1 h2 h3 h4 => cases h4
      subst e2
      have hl := lcu h2
      exact ⟨e1, fun hn => hl fun n hm => hn n (List.mem_append.2 (.inl hm))⟩

end Cdtb
