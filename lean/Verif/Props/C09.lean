import Verif.Spec.Patches
import Verif.Lemmas.Str
import Mathlib.Data.List.Induction
/-!
# C09  Component strings are accepted exactly per the documented grammar

The grammar is `Spec.ComponentName`, `Spec.VersionText`.
-/
namespace Cdtb
set_option autoImplicit false
open Py Spec

theorem isDigit_iff (c : Char) : isDigit c = true ↔ c ∈ "0123456789".toList := by
  have h : ∀ n, 48 ≤ n → n ≤ 57 → Char.ofNat n ∈ "0123456789".toList := by
    intro n h1 h2
    have : n = 48 ∨ n = 49 ∨ n = 50 ∨ n = 51 ∨ n = 52 ∨ n = 53 ∨ n = 54 ∨ n = 55 ∨ n = 56 ∨ n = 57 := by omega
    rcases this with rfl | rfl | rfl | rfl | rfl | rfl | rfl | rfl | rfl | rfl <;> decide
  constructor
  · intro hc
    simp only [isDigit, Bool.and_eq_true, decide_eq_true_eq] at hc
    have := h c.toNat hc.1 hc.2
    rwa [Char.ofNat_toNat] at this
  · intro hc
    have : ∀ c ∈ "0123456789".toList, isDigit c = true := by decide
    exact this c hc

/-- Digits without the nonempty condition -/
def AllDigits (s : Str) : Prop := ∀ c ∈ s, isDigit c = true

theorem digits_iff (s : Str) : Digits s ↔ s ≠ [] ∧ AllDigits s := by
  simp only [Digits, AllDigits, isDigit_iff]

/-- A sequence of groups -/
def Groups (s : Str) : Prop := ∃ gs : List (Str × Bool), (∀ g ∈ gs, Digits g.1) ∧ s = (gs.map groupText).flatten

theorem Groups.nil : Groups [] := ⟨[], by simp, rfl⟩

/-- The language of each state of the matcher. -/
def Lang : VerSt → Str → Prop
  | .begin, s => ∃ d r, Digits d ∧ Groups r ∧ s = d ++ r
  | .first, s => ∃ d r, AllDigits d ∧ Groups r ∧ s = d ++ r
  | .dot, s => ∃ (d : Str) (t : Bool) (r : Str), Digits d ∧ Groups r ∧ s = d ++ (if t then ['.'] else []) ++ r
  | .group, s => ∃ (d : Str) (t : Bool) (r : Str), AllDigits d ∧ Groups r ∧ s = d ++ (if t then ['.'] else []) ++ r
  | .maybe, s => Groups s ∨ ∃ (d : Str) (t : Bool) (r : Str), Digits d ∧ Groups r ∧ s = d ++ (if t then ['.'] else []) ++ r

theorem Groups.cons_iff (s : Str) : Groups s ↔ s = [] ∨ ∃ s', s = '.' :: s' ∧ Lang .dot s' := by
  constructor
  · rintro ⟨gs, h1, rfl⟩
    cases gs with
    | nil => left; rfl
    | cons g gs =>
      right
      refine ⟨g.1 ++ (if g.2 then ['.'] else []) ++ (gs.map groupText).flatten, ?_, ?_⟩
      · simp [groupText]
      · exact ⟨g.1, g.2, _, h1 g (by simp), ⟨gs, fun x hx => h1 x (by simp [hx]), rfl⟩, rfl⟩
  · rintro (rfl | ⟨s', rfl, d, t, r, hd, ⟨gs, h1, rfl⟩, rfl⟩)
    · exact Groups.nil
    · refine ⟨(d, t) :: gs, ?_, by simp [groupText]⟩
      intro g hg
      rcases List.mem_cons.1 hg with rfl | hg
      · exact hd
      · exact h1 g hg

theorem not_isDigit_dot : isDigit '.' = false := by decide

theorem verMatch_lang : ∀ (s : Str) (q : VerSt), verMatch q s = true ↔ Lang q s := by
  intro s
  induction s with
  | nil =>
    intro q
    cases q
    · simp only [verMatch, Lang]
      constructor
      · intro h; simp at h
      · rintro ⟨d, r, hd, _, h⟩
        exact absurd (List.append_eq_nil_iff.1 h.symm).1 hd.1
    · simp only [verMatch, Lang]
      exact ⟨fun _ => ⟨[], [], by simp [AllDigits], Groups.nil, rfl⟩, fun _ => by simp⟩
    · simp only [verMatch, Lang]
      constructor
      · intro h; simp at h
      · rintro ⟨d, t, r, hd, _, h⟩
        have := (List.append_eq_nil_iff.1 h.symm).1
        exact absurd (List.append_eq_nil_iff.1 this).1 hd.1
    · simp only [verMatch, Lang]
      exact ⟨fun _ => ⟨[], false, [], by simp [AllDigits], Groups.nil, rfl⟩, fun _ => by simp⟩
    · simp only [verMatch, Lang]
      exact ⟨fun _ => Or.inl Groups.nil, fun _ => by simp⟩
  | cons c s ih =>
    -- facts on the first character
    have hgr : Groups (c :: s) ↔ c = '.' ∧ Lang .dot s := by
      rw [Groups.cons_iff]; simp
    have hall : ∀ d, AllDigits (c :: d) ↔ isDigit c = true ∧ AllDigits d := by
      intro d; simp [AllDigits]
    have hdig : ∀ d, Digits (c :: d) ↔ isDigit c = true ∧ AllDigits d := by
      intro d; rw [digits_iff, hall]; simp
    have hfirst : Lang .first (c :: s) ↔ (isDigit c = true ∧ Lang .first s) ∨ (c = '.' ∧ Lang .dot s) := by
      constructor
      · rintro ⟨d, r, hd, hr, h⟩
        cases d with
        | nil => right; simp at h; rw [← h] at hr; exact hgr.1 hr
        | cons x d =>
          simp at h; obtain ⟨rfl, rfl⟩ := h
          rw [hall] at hd
          exact Or.inl ⟨hd.1, d, r, hd.2, hr, rfl⟩
      · rintro (⟨h1, d, r, hd, hr, rfl⟩ | h)
        · exact ⟨c :: d, r, (hall d).2 ⟨h1, hd⟩, hr, rfl⟩
        · exact ⟨[], c :: s, by simp [AllDigits], hgr.2 h, rfl⟩
    have hdot : Lang .dot (c :: s) ↔ isDigit c = true ∧ Lang .group s := by
      constructor
      · rintro ⟨d, t, r, hd, hr, h⟩
        cases d with
        | nil => exact absurd rfl hd.1
        | cons x d =>
          simp at h; obtain ⟨rfl, rfl⟩ := h
          rw [hdig] at hd
          exact ⟨hd.1, d, t, r, hd.2, hr, by simp⟩
      · rintro ⟨h1, d, t, r, hd, hr, rfl⟩
        exact ⟨c :: d, t, r, (hdig d).2 ⟨h1, hd⟩, hr, rfl⟩
    have hgroup : Lang .group (c :: s) ↔ (isDigit c = true ∧ Lang .group s) ∨ (c = '.' ∧ (Groups s ∨ Lang .dot s)) := by
      constructor
      · rintro ⟨d, t, r, hd, hr, h⟩
        cases d with
        | cons x d =>
          simp at h; obtain ⟨rfl, rfl⟩ := h
          rw [hall] at hd
          exact Or.inl ⟨hd.1, d, t, r, hd.2, hr, by simp⟩
        | nil =>
          right
          cases t with
          | true => simp at h; exact ⟨h.1, Or.inl (h.2 ▸ hr)⟩
          | false => simp at h; rw [← h] at hr; exact ⟨(hgr.1 hr).1, Or.inr (hgr.1 hr).2⟩
      · rintro (⟨h1, d, t, r, hd, hr, rfl⟩ | ⟨rfl, h | h⟩)
        · exact ⟨c :: d, t, r, (hall d).2 ⟨h1, hd⟩, hr, rfl⟩
        · exact ⟨[], true, s, by simp [AllDigits], h, by simp⟩
        · exact ⟨[], false, '.' :: s, by simp [AllDigits], hgr.2 ⟨rfl, h⟩, by simp⟩
    have hnd : ∀ {c : Char}, isDigit c = true → c ≠ '.' := by
      rintro c h rfl; rw [not_isDigit_dot] at h; cases h
    intro q
    cases q
    · simp only [verMatch, Bool.and_eq_true, ih]
      constructor
      · rintro ⟨h1, d, r, hd, hr, rfl⟩
        exact ⟨c :: d, r, (hdig d).2 ⟨h1, hd⟩, hr, rfl⟩
      · rintro ⟨d, r, hd, hr, h⟩
        cases d with
        | nil => exact absurd rfl hd.1
        | cons x d =>
          simp at h; obtain ⟨rfl, rfl⟩ := h
          rw [hdig] at hd
          exact ⟨hd.1, d, r, hd.2, hr, rfl⟩
    · rw [hfirst]
      simp only [verMatch]
      by_cases hc : isDigit c = true
      · simp [hc, ih, hnd hc]
      · simp [hc, ih]
    · rw [hdot]; simp [verMatch, ih]
    · rw [hgroup]
      simp only [verMatch]
      by_cases hc : isDigit c = true
      · simp [hc, ih, hnd hc]
      · simp [hc, ih, Lang]
    · have hm : Lang .maybe (c :: s) ↔ Groups (c :: s) ∨ Lang .dot (c :: s) := Iff.rfl
      rw [hm, hgr, hdot]
      simp only [verMatch]
      by_cases hc : isDigit c = true
      · simp [hc, ih, hnd hc]
      · simp [hc, ih]

theorem versionMatch_iff (v : Str) : versionMatch v = true ↔ VersionText v := by
  unfold versionMatch VersionText
  simp only [Bool.or_eq_true, decide_eq_true_eq, verMatch_lang, Lang, Groups]
  constructor
  · rintro ((h | ⟨d, r, hd, ⟨gs, hgs, rfl⟩, rfl⟩) | h)
    · exact Or.inl h
    · exact Or.inr (Or.inr ⟨d, gs, hd, hgs, rfl⟩)
    · exact Or.inr (Or.inl h)
  · rintro (h | h | ⟨d, gs, hd, hgs, rfl⟩)
    · exact Or.inl (Or.inl h)
    · exact Or.inr h
    · exact Or.inl (Or.inr ⟨d, _, hd, ⟨gs, hgs, rfl⟩, rfl⟩)

/-- Characters of version texts -/
theorem versionText_chars {v : Str} (h : VersionText v) : ∀ c ∈ v, c ≠ '=' ∧ c ≠ '\n' := by
  have hd : ∀ {d : Str}, Digits d → ∀ c ∈ d, c ≠ '=' ∧ c ≠ '\n' := by
    intro d hd c hc
    have : ∀ c ∈ "0123456789".toList, c ≠ '=' ∧ c ≠ '\n' := by decide
    exact this c (hd.2 c hc)
  rcases h with rfl | rfl | ⟨d, gs, h1, h2, rfl⟩
  · simp
  · decide
  · intro c hc
    rcases List.mem_append.1 hc with hc | hc
    · exact hd h1 c hc
    · obtain ⟨x, hx, hc⟩ := List.mem_flatten.1 hc
      obtain ⟨g, hg, rfl⟩ := List.mem_map.1 hx
      simp only [groupText, List.cons_append, List.mem_cons, List.mem_append] at hc
      rcases hc with rfl | hc | hc
      · decide
      · exact hd (h2 g hg) c hc
      · split at hc
        · simp at hc; subst hc; decide
        · simp at hc

/-- The regular expression accepts exactly the grammar, and its groups are the name and version. -/
theorem C09_match (c name v : Str) :
    matchComponent c = some (name, v) ↔
      ComponentName name ∧ VersionText v ∧ (c = name ++ '=' :: v ∨ c = name ++ '=' :: v ++ ['\n']) := by
  have hname : ∀ {n : Str}, ComponentName n → '=' ∉ n := by
    rintro n (rfl | rfl | rfl) <;> decide
  constructor
  · intro h
    unfold matchComponent at h
    cases hs : split1 '=' c with
    | none => rw [hs] at h; simp at h
    | some nr =>
      obtain ⟨n, rest⟩ := nr
      rw [hs] at h
      simp only at h
      split at h
      · rename_i hc
        simp only [Option.some.injEq, Prod.mk.injEq] at h
        obtain ⟨rfl, rfl⟩ := h
        obtain ⟨rfl, hne⟩ := split1_eq_some.1 hs
        refine ⟨hc.1, (versionMatch_iff _).1 hc.2, ?_⟩
        unfold dropFinalNewline
        split
        · rename_i hl
          right
          obtain ⟨hne, hl⟩ := List.getLast?_eq_some_iff.1 hl
          rw [hl]; simp
        · left; rfl
      · simp at h
  · rintro ⟨hn, hv, hc⟩
    have hdrop : ∀ rest, (rest = v ∨ rest = v ++ ['\n']) → dropFinalNewline rest = v := by
      rintro rest (rfl | rfl)
      · unfold dropFinalNewline
        rw [if_neg]
        intro hl
        exact (versionText_chars hv _ (List.mem_of_getLast? hl)).2 rfl
      · simp [dropFinalNewline]
    obtain ⟨rest, hrest, rfl⟩ : ∃ rest, (rest = v ∨ rest = v ++ ['\n']) ∧ c = name ++ '=' :: rest := by
      rcases hc with rfl | rfl
      · exact ⟨v, Or.inl rfl, rfl⟩
      · exact ⟨v ++ ['\n'], Or.inr rfl, by simp⟩
    unfold matchComponent
    rw [split1_eq_some.2 ⟨rfl, hname hn⟩]
    simp only [hdrop rest hrest]
    rw [if_pos ⟨hn, (versionMatch_iff v).2 hv⟩]

/-- Anything outside the grammar raises `ValueError`. -/
theorem C09_reject (patch : Option VOther → Res (Option Patch)) (element : Str → Option VOther → Bool → Res (Option Elem))
    (c : Str) (h : ∀ name v, ComponentName name → VersionText v → c ≠ name ++ '=' :: v ∧ c ≠ name ++ '=' :: v ++ ['\n']) :
    parseStorageComponent patch element c = .error .value := by
  unfold parseStorageComponent
  cases hm : matchComponent c with
  | none => rfl
  | some nv =>
    obtain ⟨name, v⟩ := nv
    obtain ⟨h1, h2, h3⟩ := (C09_match c name v).1 hm
    have := h name v h1 h2
    tauto

/-- What a component asks for: the version text without a final dot, nothing for the latest. -/
def Spec.askedVersion (v : Str) : Option Str :=
  if v = [] then none else some (if v.getLast? = some '.' then v.dropLast else v)

/-- Groups don't end with two dots. -/
theorem groups_no_double_dot (gs : List (Str × Bool)) (hgs : ∀ g ∈ gs, Digits g.1) (d : Str) (hd : Digits d) (x : Str) :
    d ++ (gs.map groupText).flatten ≠ x ++ ['.', '.'] := by
  induction gs using List.reverseRecOn with
  | nil =>
    intro h
    have : '.' ∈ d := by simp at h; rw [h]; simp
    have := (isDigit_iff _).2 (hd.2 _ this)
    simp [not_isDigit_dot] at this
  | append_singleton gs g _ =>
    intro h
    have hg := hgs g (by simp)
    have hnd : '.' ∉ g.1 := fun hm => by
      have := (isDigit_iff _).2 (hg.2 _ hm)
      simp [not_isDigit_dot] at this
    obtain ⟨ds, c, hdc⟩ : ∃ ds c, g.1 = ds ++ [c] := ⟨g.1.dropLast, g.1.getLast hg.1, (List.dropLast_append_getLast hg.1).symm⟩
    have hc : c ≠ '.' := by rintro rfl; exact hnd (by rw [hdc]; simp)
    have h' := congrArg List.reverse h
    simp only [List.map_append, List.map_cons, List.map_nil, List.flatten_append, List.flatten_cons, List.flatten_nil,
      List.append_nil, groupText, List.reverse_append, hdc] at h'
    by_cases ht : g.2 = true
    · simp [ht] at h'; exact hc h'.1
    · simp [ht] at h'; exact hc h'.1

theorem rstrip_version {v : Str} (h : VersionText v) (he : v.getLast? = some '.') : rstripChar '.' v = v.dropLast := by
  rcases h with rfl | rfl | ⟨d, gs, h1, h2, rfl⟩
  · simp at he
  · simp at he
  · obtain ⟨w, hw⟩ := List.getLast?_eq_some_iff.1 he
    have hlast : w.getLast? ≠ some '.' := by
      intro hl
      obtain ⟨x, rfl⟩ := List.getLast?_eq_some_iff.1 hl
      exact groups_no_double_dot gs h2 d h1 x (by rw [hw]; simp)
    rw [hw]
    simp only [rstripChar, List.reverse_append, List.reverse_cons, List.reverse_nil, List.nil_append, List.cons_append,
      List.dropLast_concat, List.dropWhile_cons, decide_true, if_true]
    cases hr : w.reverse with
    | nil => simp at hr; simp [hr]
    | cons c cs =>
      have : c ≠ '.' := by
        rintro rfl
        apply hlast
        have := congrArg List.reverse hr
        simp at this
        simp [this]
      simp only [List.dropWhile_cons, this, decide_false, if_false]
      rw [← hr]; simp

/-- An accepted component asks the storage for exactly the named thing with the given version text,
without its optional final dot, or for the latest when the version is empty. A stored element is
asked for exactly when a version is given; the latest elements of the patch are used when the version
is empty or ends with a dot. -/
theorem C09_request (patch : Option VOther → Res (Option Patch)) (element : Str → Option VOther → Bool → Res (Option Elem))
    (c name v : Str) (hn : ComponentName name) (hv : VersionText v)
    (hc : c = name ++ '=' :: v ∨ c = name ++ '=' :: v ++ ['\n']) :
    parseStorageComponent patch element c =
      if name = "patch".toList then
        (match patch ((askedVersion v).map .str) with
          | .error e => .error e
          | .ok none => .ok .none
          | .ok (some p) =>
            if v = [] ∨ v.getLast? = some '.' then p.latest.map .patch else .ok (.patch p))
      else
        (match element name ((askedVersion v).map .str) (decide (v ≠ [])) with
          | .error e => .error e
          | .ok none => .ok .none
          | .ok (some e) => .ok (.element e)) := by
  have hm := (C09_match c name v).2 ⟨hn, hv, hc⟩
  unfold parseStorageComponent
  rw [hm]
  by_cases h0 : v = []
  · subst h0
    have hd : decide (([] : Str) ≠ []) = false := by decide
    simp only [if_true, askedVersion, Option.map_none, Option.isSome_none, true_or, hd]
    by_cases hp : name = "patch".toList
    · simp only [hp, if_true, bind, Except.bind]
      rcases patch none with e | _ | p
      · rfl
      · rfl
      · cases p.latest <;> rfl
    · simp only [hp, if_false, bind, Except.bind]
      rcases element name none false with e | _ | p <;> rfl
  · have hends : endsWith v ['.'] = true ↔ v.getLast? = some '.' := by
      rw [endsWith_iff, List.getLast?_eq_some_iff]
    by_cases hl : v.getLast? = some '.'
    · simp only [h0, if_false, hends.2 hl, if_true, askedVersion, hl, rstrip_version hv hl, Option.map_some,
        Option.isSome_some, or_true, ne_eq, not_false_eq_true, decide_true]
      by_cases hp : name = "patch".toList
      · simp only [hp, if_true, bind, Except.bind]
        rcases patch (some (.str v.dropLast)) with e | _ | p
        · rfl
        · rfl
        · cases p.latest <;> rfl
      · simp only [hp, if_false, bind, Except.bind]
        rcases element name (some (.str v.dropLast)) true with e | _ | p <;> rfl
    · have hne : endsWith v ['.'] = false := by
        rw [← Bool.not_eq_true, hends]; exact hl
      simp only [h0, if_false, hne, askedVersion, hl, Option.map_some,
        Option.isSome_some, or_false, ne_eq, not_false_eq_true, decide_true, Bool.false_eq_true]
      by_cases hp : name = "patch".toList
      · simp only [hp, if_true, bind, Except.bind]
        rcases patch (some (.str v)) with e | _ | p <;> rfl
      · simp only [hp, if_false, bind, Except.bind]
        rcases element name (some (.str v)) true with e | _ | p <;> rfl

/-- Non-vacuity: accepted and rejected texts. -/
example : matchComponent "patch=".toList = some ("patch".toList, []) ∧
    matchComponent "game=9.12.".toList = some ("game".toList, "9.12.".toList) ∧
    matchComponent "client=main\n".toList = some ("client".toList, "main".toList) ∧
    matchComponent "game=9.1..2".toList = some ("game".toList, "9.1..2".toList) ∧
    matchComponent "game=9.".toList = none ∧ matchComponent "patch=9.1\n\n".toList = none ∧
    matchComponent "lol=9.1".toList = none ∧ matchComponent "xpatch=9.1".toList = none := by decide +kernel

example : VersionText "9.12.".toList :=
  Or.inr (Or.inr ⟨"9".toList, [("12".toList, true)], by simp [Digits], by simp [Digits], by simp [groupText]⟩)

end Cdtb
