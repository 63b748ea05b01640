import Verif.Lemmas.Fnmatch
import Verif.Props.C62
import Mathlib.Data.List.Infix
/-!
# C85: patterns of `wad-extract`
-/
namespace Cdtb
set_option autoImplicit false
open Py Spec

/-! ## What a pattern matches -/

/-- A path is matched by a pattern exactly as documented: `*`, `?`, `[...]`, `[!...]`; all the places of `*` are considered. -/
theorem C85_matches {pat : Str} (h : Ordered pat) (name : Str) : fnmatchcase name pat = true ↔ Glob pat name := fnmatchcase_iff h name

/-- A text without special characters -/
def Plain (p : Str) : Prop := ∀ c ∈ p, c ≠ '*' ∧ c ≠ '?' ∧ c ≠ '['

theorem glob_plain {p : Str} (hp : Plain p) {q s : Str} : Glob (p ++ q) s ↔ ∃ t, s = p ++ t ∧ Glob q t := by
  induction p generalizing s with
  | nil => simp
  | cons c p ih =>
    have hc := hp c (by simp)
    have hp' : Plain p := fun x hx => hp x (by simp [hx])
    constructor
    · intro h
      rw [List.cons_append] at h
      generalize hq : c :: (p ++ q) = q' at h
      cases h with
      | done => cases hq
      | star => simp only [List.cons.injEq] at hq; exact absurd hq.1 hc.1
      | one => simp only [List.cons.injEq] at hq; exact absurd hq.1 hc.2.1
      | char p' s' c' _ _ _ h' =>
        simp only [List.cons.injEq] at hq
        obtain ⟨rfl, rfl⟩ := hq
        obtain ⟨t, rfl, ht⟩ := (ih hp').1 h'
        exact ⟨t, rfl, ht⟩
      | bracket => simp only [List.cons.injEq] at hq; exact absurd hq.1 hc.2.2
      | inClass => simp only [List.cons_append, List.cons.injEq] at hq; exact absurd hq.1 hc.2.2
      | notInClass => simp only [List.cons_append, List.cons.injEq] at hq; exact absurd hq.1 hc.2.2
    · rintro ⟨t, rfl, ht⟩
      exact .char _ _ _ hc.1 hc.2.1 hc.2.2 ((ih hp').2 ⟨t, rfl, ht⟩)

theorem glob_nil {s : Str} : Glob [] s ↔ s = [] := by
  constructor
  · intro h; cases h; rfl
  · rintro rfl; exact .done

theorem glob_star {p s : Str} : Glob ('*' :: p) s ↔ ∃ u t, s = u ++ t ∧ Glob p t := by
  constructor
  · intro h
    cases h with
    | star _ u t h => exact ⟨u, t, rfl, h⟩
    | char _ _ _ h => exact absurd rfl h
  · rintro ⟨u, t, rfl, h⟩
    exact .star _ _ _ h

theorem ordered_no_bracket {pat : Str} (h : '[' ∉ pat) : Ordered pat := by
  rintro a x y b rfl hm
  exact absurd (by simp [hm]) h

theorem plain_no_bracket {p : Str} (h : Plain p) : '[' ∉ p := fun hm => (h _ hm).2.2 rfl

/-- Without special characters, a pattern matches itself and nothing else (case matters). -/
theorem C85_literal {p : Str} (hp : Plain p) (name : Str) : fnmatchcase name p = true ↔ name = p := by
  rw [C85_matches (ordered_no_bracket (plain_no_bracket hp))]
  have := glob_plain hp (q := []) (s := name)
  rw [List.append_nil] at this
  rw [this]
  simp [glob_nil]

/-- A text, `*`, a text: the paths that start with the first and end with the second, which do not overlap. The `*` matches `/` too. -/
theorem C85_between {p q : Str} (hp : Plain p) (hq : Plain q) (name : Str) :
    fnmatchcase name (p ++ '*' :: q) = true ↔ ∃ x, name = p ++ x ++ q := by
  rw [C85_matches (ordered_no_bracket (by simp [plain_no_bracket hp, plain_no_bracket hq])), glob_plain hp]
  have hend : ∀ s, Glob q s ↔ ∃ t, s = q ++ t ∧ Glob [] t := by
    intro s
    have := glob_plain hq (q := []) (s := s)
    rwa [List.append_nil] at this
  simp only [glob_star, hend, glob_nil]
  constructor
  · rintro ⟨t, rfl, u, t', rfl, t'', rfl, rfl⟩
    exact ⟨u, by simp⟩
  · rintro ⟨x, rfl⟩
    exact ⟨x ++ q, by simp, x, q, rfl, [], by simp, rfl⟩

/-- The paths under a directory -/
theorem C85_prefix {p : Str} (hp : Plain p) (name : Str) : fnmatchcase name (p ++ ['*']) = true ↔ p <+: name := by
  rw [C85_between hp (q := []) (by intro c hc; cases hc)]
  constructor
  · rintro ⟨x, rfl⟩; exact ⟨x, by simp⟩
  · rintro ⟨x, rfl⟩; exact ⟨x, by simp⟩

/-- The paths with an extension -/
theorem C85_suffix {q : Str} (hq : Plain q) (name : Str) : fnmatchcase name ('*' :: q) = true ↔ q <:+ name := by
  have := C85_between (p := []) (by intro c hc; cases hc) hq name
  rw [List.nil_append] at this
  rw [this]
  constructor
  · rintro ⟨x, rfl⟩; exact ⟨x, by simp⟩
  · rintro ⟨x, rfl⟩; exact ⟨x, by simp⟩

/-- The paths that contain a text -/
theorem C85_contains {p : Str} (hp : Plain p) (name : Str) : fnmatchcase name ('*' :: p ++ ['*']) = true ↔ p <:+: name := by
  rw [C85_matches (ordered_no_bracket (by simp [plain_no_bracket hp]))]
  simp only [List.cons_append, glob_star, glob_plain hp, glob_nil]
  constructor
  · rintro ⟨u, t, rfl, t', rfl, u', t'', rfl, -⟩
    exact ⟨u, u' ++ t'', by simp⟩
  · rintro ⟨u, v, rfl⟩
    exact ⟨u, p ++ v, by simp, v, rfl, v, [], by simp, rfl⟩

/-- Order of directories: with several `*`, each text is found after the previous one. -/
theorem C85_many {ps : List Str} (hp : ∀ p ∈ ps, Plain p) (name : Str) :
    fnmatchcase name (ps.flatMap fun p => '*' :: p) = true ↔ ∃ xs : List Str, xs.length = ps.length ∧ name = (List.zipWith (· ++ ·) xs ps).flatten := by
  have hno : '[' ∉ ps.flatMap fun p => '*' :: p := by
    simp only [List.mem_flatMap, List.mem_cons, not_exists, not_and]
    rintro p hm (h | h)
    · cases h
    · exact plain_no_bracket (hp p hm) h
  rw [C85_matches (ordered_no_bracket hno)]
  induction ps generalizing name with
  | nil =>
    simp only [List.flatMap_nil, glob_nil, List.length_nil]
    constructor
    · rintro rfl; exact ⟨[], rfl, rfl⟩
    · rintro ⟨xs, h, rfl⟩
      rw [List.length_eq_zero_iff.1 h]; rfl
  | cons p ps ih =>
    have hno' : '[' ∉ ps.flatMap fun p => '*' :: p := fun h => hno (by simp only [List.flatMap_cons, List.mem_append]; exact Or.inr h)
    simp only [List.flatMap_cons, List.cons_append, glob_star, glob_plain (hp p (by simp))]
    constructor
    · rintro ⟨u, t, rfl, t', rfl, h⟩
      obtain ⟨xs, h1, rfl⟩ := (ih (fun q hq => hp q (by simp [hq])) t' hno').1 h
      exact ⟨u :: xs, by simp [h1], by simp⟩
    · rintro ⟨xs, h1, rfl⟩
      rcases xs with _ | ⟨u, xs⟩
      · cases h1
      · exact ⟨u, p ++ (List.zipWith (· ++ ·) xs ps).flatten, by simp, _, rfl,
          (ih (fun q hq => hp q (by simp [hq])) _ hno').2 ⟨xs, by simpa using h1, rfl⟩⟩

/-- A finding: a range in the wrong order followed by `!` matches any character, though the class only holds `!` -/
theorem C85_wrong_range {x y : Char} (h : y < x) (hx : x ≠ '!') (hy : y ≠ ']') (c : Char) :
    fnmatchcase [c] ['[', x, '-', y, '!', ']'] = true := by
  have he : classEnd [x, '-', y, '!', ']'] = some ([x, '-', y, '!'], []) := by
    refine classEnd_stuff (stuff := [x, '-', y, '!']) [] (Or.inl ⟨⟨x, ['-', y, '!'], rfl, ?_⟩, by simpa using hx⟩)
    simp [Ne.symm hy]
  have hi : classItem [x, '-', y, '!'] = .any := by
    rw [classItem_eq, if_neg (by simpa using hx)]
    rw [rangeChunks_range]
    have : rangeChunks 1 ['!'] = [['!']] := by decide +kernel
    rw [this]
    simp [consHead, mergeChunks, joinChunks, h]
  simp [fnmatchcase, globItems, he, hi, matchFixed, GlobItem.accepts, matchStars]

/-! ## Selected files -/

/-- Files selected by the command -/
theorem C85_selected (hashes : Dict Int Str) {args : WadArgs} (h : ∀ pat ∈ args.patterns, Ordered pat) (r : WadRecord) :
    Selected fnmatchcase hashes args r ↔ SelectedBy hashes args r := by
  constructor
  · rintro ⟨h1, h2, h3⟩
    refine ⟨h1, h2, fun hne => ?_⟩
    obtain ⟨p, hp, pat, hpat, hm⟩ := h3 hne
    exact ⟨p, hp, pat, hpat, (C85_matches (h pat hpat) p).1 hm⟩
  · rintro ⟨h1, h2, h3⟩
    refine ⟨h1, h2, fun hne => ?_⟩
    obtain ⟨p, hp, pat, hpat, hm⟩ := h3 hne
    exact ⟨p, hp, pat, hpat, (C85_matches (h pat hpat) p).2 hm⟩

/-- Extraction with patterns: every file whose path is matched is written, complete, at its own path, and nothing else changes (except directories
created for these files). -/
theorem C85_extract {cx : Codecs} {dir : Str} {fs : FS} {args : WadArgs} {hashes : Dict Int Str} {file : Bytes} {f : WadFormat}
    {version : Nat × Nat} {rs : List WadRecord} {toc : Option Bytes} {out : Str} (hpat : ∀ pat ∈ args.patterns, Ordered pat)
    (h : Spec.Opens cx dir fs args.wad args.hashes hashes file f version rs toc) (hlazy : args.lazy = false)
    (hout : Spec.OutputOf args out) (houtdir : ∀ b, fs out ≠ some (.file b))
    (hread : ∀ r ∈ rs, SelectedBy hashes args r → ∃ c, Spec.Contains cx file toc f r c)
    (hext : ∀ r ∈ rs, ∀ p e, Spec.KnownAs hashes r p → Spec.HasExt p e → e.length ≤ 232)
    (hsep : rs.Pairwise fun r r' => SelectedBy hashes args r → SelectedBy hashes args r' →
      ∀ d d' x x', Spec.Target cx hashes file toc f out r d x → Spec.Target cx hashes file toc f out r' d' x' →
        x ≠ x' ∧ ¬ Spec.DirOf x x' ∧ ¬ Spec.DirOf x' x)
    (hfree : ∀ r ∈ rs, SelectedBy hashes args r → ∀ d x, Spec.Target cx hashes file toc f out r d x →
      fs x ≠ some .dir ∧ ∀ q, Spec.DirOf q x → ∀ b, fs q ≠ some (.file b)) :
    ∃ fs', commandWadExtract cx fnmatchcase dir (fun _ => {}) fs args = (fs', .ok ()) ∧
      (∀ r ∈ rs, SelectedBy hashes args r → ∀ d, Spec.Contains cx file toc f r (some d) →
        ∃ x, Spec.Target cx hashes file toc f out r d x ∧ fs' x = some (.file d)) ∧
      (∀ q, (∀ r ∈ rs, SelectedBy hashes args r → ∀ d, ¬ Spec.Target cx hashes file toc f out r d q) →
        fs' q = fs q ∨ (fs q = none ∧ fs' q = some .dir ∧
          ∃ r ∈ rs, SelectedBy hashes args r ∧ ∃ d x, Spec.Target cx hashes file toc f out r d x ∧ Spec.DirOf q x)) := by
  simp only [← C85_selected hashes hpat] at hread hsep hfree ⊢
  exact C62_extract fnmatchcase h hlazy hout houtdir hread hext hsep hfree

/-- Whatever happens, files whose paths are not matched are not extracted. -/
theorem C85_frame {cx : Codecs} {dir : Str} {fs : FS} {args : WadArgs} {hashes : Dict Int Str} {file : Bytes} {f : WadFormat}
    {version : Nat × Nat} {rs : List WadRecord} {toc : Option Bytes} {out : Str} (hpat : ∀ pat ∈ args.patterns, Ordered pat)
    (faults : Nat → WriteFaults)
    (h : Spec.Opens cx dir fs args.wad args.hashes hashes file f version rs toc) (hout : Spec.OutputOf args out)
    (hext : ∀ r ∈ rs, ∀ p e, Spec.KnownAs hashes r p → Spec.HasExt p e → e.length ≤ 232) (q : Str)
    (hq : ∀ r ∈ rs, SelectedBy hashes args r → ∀ d, ¬ Spec.Target cx hashes file toc f out r d q) :
    (commandWadExtract cx fnmatchcase dir faults fs args).1 q = fs q ∨
    (fs q = none ∧ (commandWadExtract cx fnmatchcase dir faults fs args).1 q = some .dir ∧
      ∃ r ∈ rs, SelectedBy hashes args r ∧ ∃ d x, Spec.Target cx hashes file toc f out r d x ∧ Spec.DirOf q x) := by
  simp only [← C85_selected hashes hpat] at hq ⊢
  exact C62_frame fnmatchcase faults h hout hext q hq

/-! ## Concrete cases -/

namespace C85ex

/-- Special characters, and a class with a range -/
example : fnmatchcase "data/ch3/ahri.bin".toList "data/ch[0-9]/*.bi?".toList = true ∧
    fnmatchcase "data/chx/ahri.bin".toList "data/ch[0-9]/*.bi?".toList = false ∧
    fnmatchcase "data/chx/ahri.bin".toList "data/ch[!0-9]/*.bi?".toList = true := by decide +kernel

/-- A check of `Ordered` -/
theorem ordered_of {pat : Str} (h : (pat.tails.all fun t => match t with
    | x :: '-' :: y :: '!' :: _ => decide (x ≤ y)
    | _ => true) = true) : Ordered pat := by
  rintro a x y b rfl -
  rw [List.all_eq_true] at h
  have := h (x :: '-' :: y :: '!' :: b) (by rw [List.mem_tails]; exact List.suffix_append _ _)
  simpa using this

example : Ordered "data/ch[!0-9]/*.bi?".toList := ordered_of (by decide +kernel)

/-- Brackets that open no class are themselves. -/
example : fnmatchcase "a[b".toList "a[b".toList = true ∧ fnmatchcase "[]".toList "[]".toList = true ∧ fnmatchcase "[!]".toList "[!]".toList = true ∧
    fnmatchcase "]".toList "[]]".toList = true := by decide +kernel

/-- The first place of a text is not always the good one for the whole pattern -/
example : fnmatchcase "abcab.bin".toList "*ab*ab*".toList = true ∧ fnmatchcase "abc.bin".toList "*ab*ab*".toList = false := by decide +kernel

/-- The finding -/
example : fnmatchcase "k".toList "[z-a!]".toList = true ∧ ¬ InClass "z-a!".toList 'k' := by
  refine ⟨by decide +kernel, ?_⟩
  rw [textItems_mem]
  decide +kernel

/-- A pattern, with the WAD of C62 -/
def args : WadArgs := { C62ex.args with patterns := ["a/*.bin".toList] }

theorem knows {r : WadRecord} (hr : r ∈ [C62ex.r1, C62ex.r2]) {p : Str} (h : Spec.KnownAs C62ex.hashes r p) :
    r = C62ex.r1 ∧ p = "a/x.bin".toList := by
  simp only [List.mem_cons, List.not_mem_nil, or_false] at hr
  rcases hr with rfl | rfl
  · have h1 : (some "a/x.bin".toList : Option Str) = some p := h
    cases h1
    exact ⟨rfl, rfl⟩
  · cases h

/-- Only the file whose path is matched is extracted. -/
example : ∃ fs', commandWadExtract C62ex.cx fnmatchcase "h".toList (fun _ => {}) C62ex.fs args = (fs', .ok ()) ∧
    fs' "dir/w/a/x.bin".toList = some (.file [1, 2]) ∧
    fs' "dir/w/unknown/00000000000000cd.ogg".toList = none := by
  have hsel : ∀ r ∈ [C62ex.r1, C62ex.r2], SelectedBy C62ex.hashes args r → r = C62ex.r1 := by
    intro r hr h
    obtain ⟨p, hp, -⟩ := h.pattern (by simp [args])
    exact (knows hr hp).1
  have hsel1 : SelectedBy C62ex.hashes args C62ex.r1 := by
    refine ⟨by rintro ⟨⟩, by rintro ⟨⟩, fun _ => ⟨"a/x.bin".toList, rfl, "a/*.bin".toList, by simp [args], ?_⟩⟩
    exact (C85_matches (ordered_of (by decide +kernel)) _).1 (by decide +kernel)
  obtain ⟨fs', h1, h2, h3⟩ := C85_extract (args := args) (hashes := C62ex.hashes) (by
      intro pat hp
      simp only [args, List.mem_singleton] at hp
      subst hp
      exact ordered_of (by decide +kernel)) C62ex.opens rfl
    (out := "dir/w".toList) C62ex.output
    (by
      intro b hb
      have : C62ex.fs "dir/w".toList = none := by decide +kernel
      rw [this] at hb
      cases hb)
    (by
      intro r hr h
      rw [hsel r hr h]
      exact ⟨_, C62ex.contains.1⟩)
    (by
      intro r hr p e hp he
      obtain ⟨-, rfl⟩ := knows hr hp
      have h1 := hasExt_iff.1 he
      have h2 : (splitext "a/x.bin".toList).2 = '.' :: "bin".toList := by decide
      rw [h2] at h1
      cases h1
      decide)
    (by
      rw [List.pairwise_cons]
      refine ⟨?_, List.pairwise_singleton _ _⟩
      intro r hr _ hs
      have := hsel r (by simp at hr; simp [hr]) hs
      simp only [List.mem_cons, List.not_mem_nil, or_false] at hr
      rw [hr] at this
      exact absurd (congrArg WadRecord.hash this) (by decide))
    (by
      intro r hr hs d x ht
      have key : ∀ q b, C62ex.fs q = some (.file b) → q = "dir/w.wad".toList ∨ q = "h/hashes.lcu.txt".toList := by
        intro q b hq
        unfold C62ex.fs at hq
        split at hq
        · exact Or.inl ‹_›
        · split at hq
          · exact Or.inr ‹_›
          · cases hq
      rcases C62ex.target hr ht with ⟨-, -, rfl⟩ | ⟨-, -, rfl⟩
      · refine ⟨by decide +kernel, fun q hq b hb => ?_⟩
        rcases key q b hb with rfl | rfl <;> exact C62ex.not_dirOf (by decide) (by decide) hq
      · refine ⟨by decide +kernel, fun q hq b hb => ?_⟩
        rcases key q b hb with rfl | rfl <;> exact C62ex.not_dirOf (by decide) (by decide) hq)
  refine ⟨fs', h1, ?_, ?_⟩
  · obtain ⟨x, hx, hf⟩ := h2 C62ex.r1 (by simp) hsel1 _ C62ex.contains.1
    rcases C62ex.target (by simp) hx with ⟨-, -, rfl⟩ | ⟨h, -, -⟩
    · exact hf
    · exact absurd (congrArg WadRecord.hash h) (by decide)
  · rcases h3 "dir/w/unknown/00000000000000cd.ogg".toList (by
      intro r hr hs d ht
      have := hsel r hr hs
      rcases C62ex.target hr ht with ⟨-, -, h⟩ | ⟨h, -, -⟩
      · exact absurd h (by decide)
      · rw [this] at h
        exact absurd (congrArg WadRecord.hash h) (by decide)) with h | ⟨-, -, r, hr, hs, d, x, ht, hd⟩
    · rw [h]; decide +kernel
    · have := hsel r hr hs
      rcases C62ex.target hr ht with ⟨-, -, rfl⟩ | ⟨h, -, -⟩
      · exact absurd hd (C62ex.not_dirOf (by decide) (by decide))
      · rw [this] at h
        exact absurd (congrArg WadRecord.hash h) (by decide)

end C85ex

end Cdtb
