import Verif.Props.C59
import Verif.Props.C17
import Verif.Lemmas.VersionCache
/-! # C59: names of strings, and names of files that the system refuses -/
namespace Cdtb
set_option autoImplicit false
open Py Spec

/-- The name of the string with hash `k`, for known hashes `hashes` (the last one is used) and tables with hashes of `bits` bits: without known
hash, it is `k` between braces, on exactly ten hexadecimal digits. -/
def Spec.StringName (hashes : List (Nat × Str)) (bits k : Nat) (name : Str) : Prop :=
  (∃ before h after, hashes = before ++ (h, name) :: after ∧ h % 2 ^ bits = k ∧ ∀ x ∈ after, x.1 % 2 ^ bits ≠ k) ∨
  ((∀ x ∈ hashes, x.1 % 2 ^ bits ≠ k) ∧
    ∃ digits, name = '{' :: digits ++ ['}'] ∧ digits.length = 10 ∧ (∀ c ∈ digits, c ∈ hexDigits) ∧ hexValue digits = k)

theorem ofList_get?_iff {K V : Type} [DecidableEq K] (l : List (K × V)) (k : K) (v : V) :
    (Dict.ofList l).get? k = some v ↔ ∃ a b, l = a ++ (k, v) :: b ∧ ∀ x ∈ b, x.1 ≠ k := by
  rw [Dict.get?_ofList, Option.map_eq_some_iff]
  constructor
  · rintro ⟨⟨k', v'⟩, h, rfl⟩
    obtain ⟨hk, a, b, hl, hn⟩ := List.find?_eq_some_iff_append.1 h
    have hk : k' = k := by simpa using hk
    subst hk
    refine ⟨b.reverse, a.reverse, ?_, fun x hx => ?_⟩
    · have := congrArg List.reverse hl
      simpa using this
    · simpa using hn x (List.mem_reverse.1 hx)
  · rintro ⟨a, b, rfl, hb⟩
    refine ⟨(k, v), List.find?_eq_some_iff_append.2 ⟨by simp, b.reverse, a.reverse, by simp, fun x hx => ?_⟩, rfl⟩
    simpa using hb x (List.mem_reverse.1 hx)

theorem rstName_iff (hashes : Dict Nat Str) (bits k : Nat) (hk : k < 2 ^ 40) (name : Str) :
    rstName (rstNames hashes bits) k = name ↔ Spec.StringName hashes bits k name := by
  have hmap : ∀ n, (rstNames hashes bits).get? k = some n ↔
      ∃ a h b, hashes = a ++ (h, n) :: b ∧ h % 2 ^ bits = k ∧ ∀ x ∈ b, x.1 % 2 ^ bits ≠ k := by
    intro n
    unfold rstNames
    rw [ofList_get?_iff]
    constructor
    · rintro ⟨a, b, h, hb⟩
      obtain ⟨a', b', hl, rfl, hb'⟩ := List.map_eq_append_iff.1 h
      obtain ⟨⟨h', n'⟩, c, hc, he, rfl⟩ := List.map_eq_cons_iff.1 hb'
      subst hc
      cases he
      exact ⟨a', h', c, hl, rfl, fun x hx => hb _ (List.mem_map.2 ⟨x, hx, rfl⟩)⟩
    · rintro ⟨a, h, b, hl, rfl, hb⟩
      rw [hl]
      refine ⟨a.map fun kv => (kv.1 % 2 ^ bits, kv.2), b.map fun kv => (kv.1 % 2 ^ bits, kv.2), by simp, fun x hx => ?_⟩
      obtain ⟨y, hy, rfl⟩ := List.mem_map.1 hx
      exact hb y hy
  have hnone : (rstNames hashes bits).get? k = none ↔ ∀ x ∈ hashes, x.1 % 2 ^ bits ≠ k := by
    unfold rstNames
    rw [Dict.get?_ofList]
    simp
    exact ⟨fun h a b hm => h _ b a b hm rfl rfl, fun h a b x y hm ha hb => ha ▸ h x y hm⟩
  have hx : (hexW 10 k).length = 10 ∧ (∀ c ∈ hexW 10 k, c ∈ hexDigits) ∧ hexValue (hexW 10 k) = k :=
    ⟨hexW_length (w := 9) (by norm_num at hk ⊢; omega), fun c hc => by obtain ⟨d, hd, rfl⟩ := hexW_mem hc; exact (idxOf_digitChar d hd).2,
      hexValue_hexW 10 k⟩
  unfold rstName Spec.StringName
  rcases hg : (rstNames hashes bits).get? k with _ | n
  · have hno := hnone.1 hg
    constructor
    · rintro rfl
      exact .inr ⟨hno, hexW 10 k, rfl, hx⟩
    · rintro (⟨a, h, b, hl, h1, -⟩ | ⟨-, ds, rfl, h1, h2, h3⟩)
      · exact absurd h1 (hno (h, name) (hl ▸ by simp))
      · have : hexW 10 k = ds := (hexValue_inj _ _ 0 0 (by rw [hx.1, h1]) hx.2.1 h2 (hx.2.2.trans h3.symm)).2
        simp [this]
  · constructor
    · intro h
      simp only [Option.getD_some] at h
      subst h
      exact .inl ((hmap _).1 hg)
    · rintro (h | ⟨h, -⟩)
      · have := (hmap name).2 h
        rw [hg] at this
        cases this
        rfl
      · rw [hnone.2 h] at hg; cases hg

/-- Hashes of a table that was read are below `2 ^ 40`. -/
theorem rstFill_keys (env : RstEnv) (t : Bool) (data : Bytes) (n : Nat) : ∀ (l : List (Nat × Nat)) (d d' : Dict Nat Str),
    rstFill env t data d l = .ok d' → (∀ x ∈ l, x.2 < n) → (∀ x ∈ d, x.1 < n) → ∀ x ∈ d', x.1 < n := by
  intro l
  induction l with
  | nil => intro d d' h _ hd; cases h; exact hd
  | cons y l ih =>
    obtain ⟨i, k⟩ := y
    intro d d' h hl hd
    rw [rstFill] at h
    rcases ht : rstText env t data i with e | s
    · rw [ht] at h; cases h
    · rw [ht] at h
      refine ih _ _ h (fun x hx => hl x (by simp [hx])) fun x hx => ?_
      have hk : x.1 ∈ (d.set k s).keys := List.mem_map.2 ⟨x, hx, rfl⟩
      have hk : x.1 = k ∨ x.1 ∈ d.keys := by
        rw [Dict.keys_set] at hk
        split at hk
        · exact .inr hk
        · rcases List.mem_append.1 hk with hk | hk
          · exact .inr hk
          · exact .inl (by simpa using hk)
      rcases hk with hk | hk
      · rw [hk]; exact hl (i, k) (by simp)
      · obtain ⟨z, hz, hz'⟩ := List.mem_map.1 hk
        rw [← hz']; exact hd z hz

theorem times_forall {α : Type} {p : Rd α} {P : α → Prop} (hp : ∀ data pos r, p data pos = .ok r → P r.1) :
    ∀ (n : Nat) (data : Bytes) (pos : Nat) (r : List α × Nat), p.times n data pos = .ok r → ∀ x ∈ r.1, P x := by
  intro n
  induction n with
  | zero => intro data pos r h; cases h; simp
  | succ n ih =>
    intro data pos r h
    obtain ⟨a, pos1, h1, h2⟩ := Rd.bindInv h
    obtain ⟨as, pos2, h3, h4⟩ := Rd.bindInv h2
    cases h4
    intro x hx
    rcases List.mem_cons.1 hx with rfl | hx
    · exact hp _ _ _ h1
    · exact ih _ _ _ h3 x hx

theorem parseRst_keys (env : RstEnv) (gameVersion : Nat) (data : Bytes) (r : Rst) (h : (parseRst env gameVersion).run data = .ok r) :
    ∀ x ∈ r.entries, x.1 < 2 ^ 40 := by
  obtain ⟨pos, h⟩ := Rd.run_inv h
  obtain ⟨magic, p1, -, h⟩ := Rd.bindInv h
  obtain ⟨version, p2, -, h⟩ := Rd.bindInv h
  obtain ⟨-, p3, -, h⟩ := Rd.bindInv h
  obtain ⟨cb, p4, hv, h⟩ := Rd.bindInv h
  obtain ⟨count, p5, -, h⟩ := Rd.bindInv h
  obtain ⟨entries, p6, he, h⟩ := Rd.bindInv h
  obtain ⟨trenc, p7, -, h⟩ := Rd.bindInv h
  obtain ⟨rest, p8, -, h⟩ := Rd.bindInv h
  obtain ⟨d, p9, hd, h⟩ := Rd.bindInv h
  cases h
  have hb : cb.2 ≤ 40 := by
    unfold rstVersion at hv
    split at hv
    · obtain ⟨c, q, -, hq⟩ := Rd.bindInv hv
      cases hq; exact le_rfl
    split at hv
    · cases hv; exact le_rfl
    split at hv
    · cases hv; simp only; split <;> omega
    · cases hv
  refine rstFill_keys env trenc rest (2 ^ 40) entries [] d (Rd.lift_inv hd) ?_ (by simp)
  refine times_forall (P := fun x => x.2 < 2 ^ 40) (fun data pos r hr => ?_) _ _ _ _ he
  obtain ⟨v, q, -, hq⟩ := Rd.bindInv hr
  cases hq
  simp only [Nat.one_shiftLeft, Nat.and_two_pow_sub_one_eq_mod]
  exact lt_of_lt_of_le (Nat.mod_lt _ (by positivity)) (Nat.pow_le_pow_right (by omega) hb)

/-- The JSON of a string table gives the text of each string (the last one if several have this name), under its name. -/
theorem C59_strings (lib : ConvLib) (data : Bytes) (r : Rst) (h : (parseRst lib.rstEnv lib.version).run data = .ok r) (name text : Str) :
    (rstEntries lib.rstHashes r).get? name = some text ↔
      ∃ before k after, r.entries = before ++ (k, text) :: after ∧ Spec.StringName lib.rstHashes r.hashBits k name ∧
        ∀ x ∈ after, ¬ Spec.StringName lib.rstHashes r.hashBits x.1 name := by
  have hk := parseRst_keys _ _ _ _ h
  unfold rstEntries
  rw [ofList_get?_iff]
  constructor
  · rintro ⟨a, b, h, hb⟩
    obtain ⟨a', b', hl, rfl, hb'⟩ := List.map_eq_append_iff.1 h
    obtain ⟨⟨k, t⟩, c, hc, he, rfl⟩ := List.map_eq_cons_iff.1 hb'
    subst hc
    simp only [Prod.mk.injEq] at he
    obtain ⟨he, rfl⟩ := he
    refine ⟨a', k, c, hl, (rstName_iff _ _ _ (hk (k, t) (hl ▸ by simp)) _).1 he, fun x hx hn => ?_⟩
    exact hb _ (List.mem_map.2 ⟨x, hx, rfl⟩) ((rstName_iff _ _ _ (hk x (hl ▸ by simp [hx])) _).2 hn)
  · rintro ⟨a, k, b, hl, hn, hb⟩
    rw [hl]
    refine ⟨a.map fun kv => (rstName (rstNames lib.rstHashes r.hashBits) kv.1, kv.2), b.map fun kv => (rstName (rstNames lib.rstHashes r.hashBits) kv.1, kv.2),
      ?_, fun x hx => ?_⟩
    · rw [List.map_append, List.map_cons, (rstName_iff _ _ _ (hk (k, text) (hl ▸ by simp)) _).2 hn]
    · obtain ⟨y, hy, rfl⟩ := List.mem_map.1 hx
      intro he
      exact hb y hy ((rstName_iff _ _ _ (hk y (hl ▸ by simp [hy])) _).1 he)

/-- Two names with the known hash `5 + 2^38`, which is `5` on 38 bits, and an unknown hash -/
theorem C59_strings_met : Spec.StringName [(5, "a".toList), (5 + 2 ^ 38, "b".toList), (7, "c".toList)] 38 5 "b".toList ∧
    Spec.StringName [(5, "a".toList)] 38 (2 ^ 38 - 1) "{3fffffffff}".toList :=
  ⟨.inl ⟨[(5, "a".toList)], 5 + 2 ^ 38, [(7, "c".toList)], rfl, by decide, by decide⟩,
    .inr ⟨by decide, "3fffffffff".toList, rfl, rfl, by decide +kernel, by decide +kernel⟩⟩

theorem mapWrite_id (f : WriteFaults) : f.mapWrite id = f := by
  cases f
  simp [WriteFaults.mapWrite]

/-- The converters that start with a copy of the file -/
def Spec.Copied (c : Converter) : Prop := c = .copy ∨ c = .bin ∨ c = .skn ∨ c = .rst

theorem steps_copied {lib : ConvLib} {c : Converter} (h : Spec.Copied c) (output p : Str) (d : Bytes) :
    ∃ rest, c.steps lib output p d = .file (pjoin output p) id [.write d] :: rest := by
  rcases h with rfl | rfl | rfl | rfl <;> exact ⟨_, rfl⟩

theorem exportJob_refused {lib : ConvLib} {cs : List Converter} {output p : Str} {d : Bytes} {f : Nat → WriteFaults} {fs fs' : FS} {e : Err} (w : Bool)
    (hc : Spec.Copied (getConverter cs p)) (hf : writeFileOrRemove fs (pjoin output p) [.write d] (f 0) = (fs', .error e)) :
    exportJob lib cs output true fs ⟨p, w, .ok (some d)⟩ f = exportOutcome w (fs', .error e) := by
  obtain ⟨rest, hr⟩ := steps_copied (lib := lib) hc output p d
  have h1 : OutStep.run lib fs f 0 (.file (pjoin output p) id [.write d]) = (fs', .error e) := by
    simp only [OutStep.run, List.map, mapStep, mapWrite_id, hf]
  simp only [exportJob, hr, runSteps, h1, Bool.not_true, Bool.false_and, Bool.false_eq_true, if_false]

/-- The system refuses to write a plain file: the export fails with this error, even for an invalid name; next files are not exported. -/
theorem C59_refused_plain (lib : ConvLib) (e : Exporter) (src : ExportSources) (output : Str) (f : Nat → Nat → WriteFaults) (fs fs' : FS)
    (p s : Str) (rest : Dict Str Str) (d : Bytes) (n : Nat) (hp : e.plain = (p, s) :: rest) (hd : src.plain s = .ok d)
    (hc : Spec.Copied (getConverter e.converters p)) (hf : writeFileOrRemove fs (pjoin output p) [.write d] (f 0 0) = (fs', .error (.os n))) :
    e.export lib output true f src fs = (fs', .error (.os n)) := by
  have h := exportJob_refused (lib := lib) (f := f 0) false hc hf
  simp only [exportOutcome, Bool.false_and, Bool.or_false, decide_eq_true_eq, reduceCtorEq, if_false] at h
  simp only [Exporter.export, Exporter.acts, hp, List.map_cons, List.cons_append, hd, exportActs, ExportAct.run, Except.map, h]

/-- The system refuses to write a file of a WAD. For an invalid name (`EINVAL`, 22, or `ENAMETOOLONG`, 36) the file is ignored: the export goes on
as without this file. Other errors end the export. -/
theorem C59_refused_wad (lib : ConvLib) (e : Exporter) (src : ExportSources) (output : Str) (f : Nat → Nat → WriteFaults) (fs fs' : FS)
    (k : Str) (w : ExpWad) (wf : WadEntry) (files : List WadEntry) (more : Dict Str ExpWad) (content : Bytes) (toc : Option Bytes)
    (hs : src.wad w.path = .ok (content, toc)) (p : Str) (hp : wf.path = some p) (d : Bytes)
    (hd : readFileData src.codecs wf content toc = .ok (some d)) (n : Nat)
    (hc : Spec.Copied (getConverter e.converters p)) (hf : writeFileOrRemove fs (pjoin output p) [.write d] (f 1 0) = (fs', .error (.os n))) :
    let full : Exporter := { e with plain := [], wads := (k, { w with files := wf :: files }) :: more }
    let others : Exporter := { e with plain := [], wads := (k, { w with files := files }) :: more }
    full.export lib output true f src fs =
      if n = 22 ∨ n = 36 then others.export lib output true (fun i => if i = 0 then f 0 else f (i + 1)) src fs' else (fs', .error (.os n)) := by
  have shift : ∀ (acts : List ExportAct) (i : Nat) (g : FS) , exportActs lib e.converters output true f (i + 2) g acts =
      exportActs lib e.converters output true (fun i => if i = 0 then f 0 else f (i + 1)) (i + 1) g acts := by
    intro acts
    induction acts with
    | nil => intros; rfl
    | cons a as ih =>
      intro i g
      simp only [exportActs, Nat.add_eq_zero_iff, one_ne_zero, and_false, if_false]
      rcases ExportAct.run lib e.converters output true g (f (i + 1 + 1)) a with ⟨g', _ | _⟩
      · rfl
      · exact ih (i + 1) g'
  intro full others
  have h := exportJob_refused (lib := lib) (f := f 1) true hc hf
  simp only [exportOutcome, Bool.true_and, reduceCtorEq, decide_false, Bool.false_or] at h
  have hfull : full.acts src = .open_ (.ok ()) :: .file ⟨p, true, .ok (some d)⟩ :: ((others.acts src).drop 1) := by
    simp [full, others, Exporter.acts, Dict.values, wadActs, hs, hp, hd]
  have hothers : others.acts src = .open_ (.ok ()) :: (others.acts src).drop 1 := by
    simp [others, Exporter.acts, Dict.values, wadActs, hs]
  have hbad : (Err.os n).isBadName = decide (n = 22 ∨ n = 36) := by
    rw [eq_comm, ← Bool.coe_iff_coe, decide_eq_true_eq, isBadName_iff]
    simp
  rw [hbad] at h
  unfold Exporter.export
  rw [hfull, hothers]
  simp only [exportActs, ExportAct.run, full, others]
  rw [show (0 : Nat) + 1 = 1 from rfl, h]
  by_cases hn : n = 22 ∨ n = 36
  · simp only [hn, decide_true, if_true]
    rw [shift _ 0]
    rfl
  · simp only [hn, decide_false, if_false]
    rfl

/-- The hypotheses of the two theorems above are met when the system finds the name too long, and the results differ. -/
theorem C59_refused_met :
    let f : Nat → Nat → WriteFaults := fun _ _ => { open_ := some (.os 36) }
    let plain : Exporter := ⟨[("a/t.txt".toList, "/src/t".toList)], [], []⟩
    (∃ fs', writeFileOrRemove demoRoot (pjoin "/out".toList "a/t.txt".toList) [.write [1]] (f 0 0) = (fs', .error (.os 36))) ∧
    Spec.Copied (getConverter plain.converters "a/t.txt".toList) ∧
    (plain.export demoConv "/out".toList true f { demoSrc with plain := fun _ => .ok [1] } demoRoot).2 = .error (.os 36) ∧
    (ExportAct.run demoConv [] "/out".toList true demoRoot (f 1) (.file ⟨"a/t.txt".toList, true, .ok (some [1])⟩)).2 = .ok () := by
  refine ⟨⟨_, Prod.ext rfl ?_⟩, .inl ?_, ?_, ?_⟩ <;> decide +kernel

end Cdtb
