import Verif.Lemmas.ExportSelect
import Verif.Props.C12
import Verif.Props.C29
import Verif.Lemmas.Version
/-!
# Entries of exported WADs
-/
namespace Cdtb
set_option autoImplicit false
open Py Spec

/-! ## Directory of unknown files -/

theorem lower_chopNl (s : Str) : lower (chopNl s) = chopNl (lower s) := by
  unfold chopNl
  have h : endsWith (lower s) ['\n'] = true ↔ endsWith s ['\n'] = true := by
    rw [endsWith_iff, endsWith_iff]
    constructor
    · rintro ⟨t, ht⟩
      have := congrArg List.getLast? ht
      rw [List.getLast?_concat] at this
      unfold lower at this
      rw [List.getLast?_map] at this
      obtain ⟨c, hc, he⟩ := Option.map_eq_some_iff.1 this
      rw [lowerChar_eq_iff (by decide) (by decide)] at he
      subst he
      exact ⟨s.dropLast, (List.dropLast_append_getLast? _ hc).symm⟩
    · rintro ⟨t, rfl⟩
      exact ⟨lower t, by rw [lower_append]; rfl⟩
  by_cases hs : endsWith s ['\n'] = true
  · rw [if_pos hs, if_pos (h.2 hs)]
    simp [lower, List.map_dropLast]
  · rw [if_neg hs, if_neg fun h' => hs (h.1 h')]

theorem chopNl_eol (s : Str) : ∃ post, s = chopNl s ++ post ∧ Eol post := by
  unfold chopNl
  split
  · rename_i h
    obtain ⟨t, rfl⟩ := endsWith_iff.1 h
    exact ⟨['\n'], by rw [List.dropLast_concat], Or.inr rfl⟩
  · exact ⟨[], by simp, Or.inl rfl⟩

theorem chopNl_unique {name post : Str} {c : Char} (hp : Eol post) (hc : name.getLast? = some c) (hn : c ≠ '\n') : chopNl (name ++ post) = name := by
  unfold chopNl
  rcases hp with rfl | rfl
  · rw [List.append_nil, if_neg]
    intro h
    obtain ⟨t, rfl⟩ := endsWith_iff.1 h
    rw [List.getLast?_concat, Option.some.injEq] at hc
    exact hn hc.symm
  · rw [if_pos (endsWith_iff.2 ⟨name, rfl⟩), List.dropLast_concat]

/-- Numbered archives of assets -/
def AssetsName (b : Str) : Prop :=
  ∃ stem digits, b = stem ++ "assets".toList ++ digits ++ ".wad".toList ∧ ∀ c ∈ digits, '0'.toNat ≤ c.toNat ∧ c.toNat ≤ '9'.toNat

theorem assetsName_iff {b : Str} : (endsWith b ".wad".toList && endsWith ((b.take (b.length - 4)).reverse.dropWhile
    (fun c => decide ('0'.toNat ≤ c.toNat ∧ c.toNat ≤ '9'.toNat))).reverse "assets".toList) = true ↔ AssetsName b := by
  rw [Bool.and_eq_true, endsWith_iff, endsWith_iff]
  have hl : ".wad".toList.length = 4 := by decide +kernel
  have ha : "assets".toList.reverse = 's' :: "tessa".toList := by decide +kernel
  unfold AssetsName
  generalize ".wad".toList = wad at *
  generalize "tessa".toList = tessa at *
  generalize "assets".toList = assets at *
  constructor
  · rintro ⟨⟨t, rfl⟩, stem, h⟩
    rw [List.length_append, hl, Nat.add_sub_cancel, List.take_left] at h
    refine ⟨stem, (t.reverse.takeWhile fun c => decide ('0'.toNat ≤ c.toNat ∧ c.toNat ≤ '9'.toNat)).reverse, ?_, ?_⟩
    · rw [← h, ← List.reverse_append, List.takeWhile_append_dropWhile, List.reverse_reverse]
    · intro c hc
      rw [List.mem_reverse] at hc
      have := List.mem_takeWhile_imp hc
      exact of_decide_eq_true this
  · rintro ⟨stem, digits, rfl, hd⟩
    refine ⟨⟨_, rfl⟩, stem, ?_⟩
    rw [List.length_append, hl, Nat.add_sub_cancel, List.take_left, List.reverse_append, List.dropWhile_append_of_pos]
    · rw [List.reverse_append, ha, List.cons_append, List.dropWhile_cons_of_neg (by decide), ← List.cons_append, ← ha, ← List.reverse_append,
        List.reverse_reverse]
    · intro c hc
      exact decide_eq_true (hd c (List.mem_reverse.1 hc))

theorem assetsName_last {b : Str} (h : AssetsName b) : b.getLast? = some 'd' := by
  obtain ⟨stem, digits, rfl, -⟩ := h
  rw [List.getLast?_append]
  have : ".wad".toList.getLast? = some 'd' := by decide +kernel
  rw [this]; rfl

theorem pluginDir_iff {wp dir : Str} : pluginDir wp = some dir ↔ PluginDir wp dir := by
  have key : ∀ d base, '/' ∉ base → wp = d ++ '/' :: base → (pluginDir wp = some dir ↔
      dir = lower d ∧ (∃ x, x ≠ [] ∧ dir = "plugins/rcp-".toList ++ x) ∧ '\n' ∉ d ∧ AssetsName (chopNl (lower base))) := by
    intro d base hb hw
    have hr : rsplit1 '/' wp = some (d, base) := rsplit1_eq_some.2 ⟨hw, hb⟩
    unfold pluginDir
    simp only [hr]
    rw [Bool.and_assoc _ _ (endsWith _ "assets".toList)]
    rw [← assetsName_iff]
    generalize (endsWith (chopNl (lower base)) ".wad".toList && _) = z
    have h12 : "plugins/rcp-".toList.length = 12 := by decide +kernel
    generalize "plugins/rcp-".toList = pre at *
    have h1 : (startsWith (lower d) pre && decide (12 < (lower d).length)) = true ↔ ∃ x, x ≠ [] ∧ lower d = pre ++ x := by
      rw [Bool.and_eq_true, startsWith_iff, decide_eq_true_eq]
      constructor
      · rintro ⟨⟨x, hx⟩, hl⟩
        refine ⟨x, ?_, hx⟩
        rintro rfl
        rw [hx, List.append_nil, h12] at hl
        omega
      · rintro ⟨x, hne, hx⟩
        refine ⟨⟨x, hx⟩, ?_⟩
        rw [hx, List.length_append, h12]
        have := List.length_pos_of_ne_nil hne
        omega
    have h2 : (lower d).all (· ≠ '\n') = true ↔ '\n' ∉ d := all_ne_nl.trans (not_congr (mem_lower_iff (by decide) (by decide)))
    constructor
    · intro h
      split at h
      · rename_i hc
        rw [Bool.and_eq_true, Bool.and_eq_true, h1, h2] at hc
        cases h
        exact ⟨rfl, hc.1.1, hc.1.2, hc.2⟩
      · exact nomatch h
    · rintro ⟨rfl, h3, h4, h5⟩
      rw [if_pos]
      rw [Bool.and_eq_true, Bool.and_eq_true, h1, h2]
      exact ⟨⟨h3, h4⟩, h5⟩
  constructor
  · intro h
    cases hr : rsplit1 '/' wp with
    | none => unfold pluginDir at h; rw [hr] at h; exact nomatch h
    | some p =>
      obtain ⟨d, base⟩ := p
      obtain ⟨hw, hb⟩ := rsplit1_eq_some.1 hr
      obtain ⟨h1, h2, h3, stem, digits, h4, h5⟩ := (key d base hb hw).1 h
      obtain ⟨post, hp, hp'⟩ := chopNl_eol base
      rw [← lower_chopNl] at h4
      exact ⟨d, base, chopNl base, stem, digits, post, hw, hb, h3, h1, h2, hp, hp', h4, h5⟩
  · rintro ⟨d, base, name, stem, digits, post, hw, hb, h3, h1, h2, hp, hp', h4, h5⟩
    refine (key d base hb hw).2 ⟨h1, h2, h3, ?_⟩
    have hA : AssetsName (lower name) := ⟨stem, digits, h4, h5⟩
    have hl := assetsName_last hA
    rw [hp, lower_append]
    have : lower post = post := by rcases hp' with rfl | rfl <;> rfl
    rw [this, chopNl_unique hp' hl (by decide)]
    exact hA

theorem unknownDir_iff {wp dir : Str} : UnknownDir wp dir ↔ dir = unknownDir wp := by
  unfold unknownDir UnknownDir
  simp only [← pluginDir_iff]
  cases pluginDir wp with
  | none => exact ⟨fun h => h.elim (fun ⟨d, h, _⟩ => nomatch h) And.right, fun h => Or.inr ⟨fun d h => (nomatch h), h⟩⟩
  | some d =>
    constructor
    · rintro (⟨d', h, rfl⟩ | ⟨h, -⟩)
      · cases h; rfl
      · exact absurd rfl (h d)
    · exact fun h => Or.inl ⟨d, rfl, h⟩

/-! ## Entries -/

theorem entryName_iff {wp p : Str} {f : WadEntry} (hh : f.pathHash < 2 ^ 64) :
    EntryName wp f p ↔ (setUnknownPath (unknownDir wp) f).path = some p := by
  constructor
  · intro h
    cases h with
    | known h hne =>
      rw [(C12_keeps (unknownDir wp) f).1 (by rintro (h' | h') <;> rw [h] at h' <;> cases h'; exact hne rfl)]
      exact h
    | unknown h hd hx he =>
      obtain ⟨hex, hx', e⟩ := C12_name (unknownDir wp) f h hh
      rw [e, hx.unique hx', unknownDir_iff.1 hd]
      rcases he with ⟨he | he, rfl⟩ | ⟨x, he, hne, rfl⟩
      · simp only [he]
      · simp only [he]
      · cases x with
        | nil => exact absurd rfl hne
        | cons a x => simp only [he]
  · intro h
    by_cases hu : Unresolved f
    · obtain ⟨hex, hx, e⟩ := C12_name (unknownDir wp) f hu hh
      rw [e, Option.some.injEq] at h
      rw [← h]
      refine .unknown hu (unknownDir_iff.2 rfl) hx ?_
      rcases he : f.ext with _ | _ | ⟨a, x⟩
      · exact Or.inl ⟨Or.inl rfl, rfl⟩
      · exact Or.inl ⟨Or.inr rfl, rfl⟩
      · exact Or.inr ⟨a :: x, rfl, by simp, rfl⟩
    · rw [(C12_keeps (unknownDir wp) f).1 hu] at h
      exact .known h fun h0 => hu (Or.inr (h0 ▸ h))

theorem notExecutable_iff {p : Str} : notExecutable (some p) = true ↔ p ≠ [] ∧ ¬ Executable p := by
  unfold notExecutable Executable
  simp only
  rw [← endsWith_iff, ← endsWith_iff]
  generalize endsWith p ".exe".toList = a
  generalize endsWith p ".dll".toList = b
  cases p <;> cases a <;> cases b <;> simp

theorem gameWad_iff {wp : Str} : endsWith wp ".wad.client".toList = true ↔ GameWad wp := endsWith_iff

theorem wadLang_iff {wp l : Str} (h : GameWad wp) : wadLang wp = some l ↔ LangWad wp l := by
  obtain ⟨s, rfl⟩ := h
  have hl : ".wad.client".toList.length = 11 := by decide +kernel
  unfold wadLang LangWad
  generalize ".wad.client".toList = w at *
  rw [List.length_append, hl, Nat.add_sub_cancel, List.take_left]
  simp only
  constructor
  · intro h
    split at h
    · rename_i a b c d heq
      split at h
      · rename_i hn
        cases h
        refine ⟨s.take (s.length - 6), a, b, c, d, ?_, all_ne_nl.1 hn, rfl⟩
        rw [← heq, List.take_append_drop]
      · exact nomatch h
    · exact nomatch h
  · rintro ⟨t, a, b, c, d, hs, hn, rfl⟩
    have hs' := List.append_cancel_right hs
    subst hs'
    have : (t ++ ['.', a, b, '_', c, d]).drop ((t ++ ['.', a, b, '_', c, d]).length - 6) = ['.', a, b, '_', c, d] := by
      rw [List.length_append]
      exact List.drop_left' (by simp)
    rw [this]
    simp only
    rw [if_pos (all_ne_nl.2 hn)]

theorem gameDir_iff {langs : Prop} {b : Bool} (hb : b = true ↔ langs) {wp dir : Str} (h : GameWad wp) : GameDir langs wp dir ↔ dir = gameSubdir b wp := by
  unfold GameDir gameSubdir
  simp only [← wadLang_iff h, ← hb]
  cases b with
  | false => simp
  | true =>
    cases wadLang wp with
    | none => simp
    | some l => simp

theorem langSubdirs_iff {v : Version} (hv : v.s = "main".toList ∨ ∃ t, v.t = .nums t) : ∃ b, langSubdirs v = .ok b ∧ (b = true ↔ LangDirs v) := by
  unfold langSubdirs LangDirs
  by_cases hm : v.s = "main".toList
  · rw [if_pos (by unfold Version.eq; exact decide_eq_true hm)]
    exact ⟨true, rfl, iff_of_true rfl (Or.inl hm)⟩
  · rw [if_neg (by unfold Version.eq; exact fun h => hm (of_decide_eq_true h))]
    obtain ⟨t, ht⟩ := hv.resolve_left hm
    refine ⟨_, by unfold Version.cmp; rw [ht], ?_⟩
    rw [tupleCmp_ge, tupleCmp_lt, Bool.not_eq_true', decide_eq_false_iff_not, List.not_lt]
    constructor
    · exact fun h => Or.inr ⟨t, ht, h⟩
    · rintro (h | ⟨u, hu, h⟩)
      · exact absurd h hm
      · rw [ht] at hu; cases hu; exact h

theorem entryT_iff {langs : Prop} {b : Bool} (hb : b = true ↔ langs) {wp : Str} {f f' : WadEntry} (hh : f.pathHash < 2 ^ 64) :
    entryT patchConverters b wp f = some f' ↔ ∃ path, f' = { f with path := some path } ∧ EntryExported langs wp f path := by
  obtain ⟨-, p, hp, hpn⟩ := C12_keeps (unknownDir wp) f
  have hname : ∀ n, EntryName wp f n ↔ n = p := by
    intro n
    rw [entryName_iff hh, hp, Option.some.injEq, eq_comm]
  have hex : (∃ path, f' = { f with path := some path } ∧ EntryExported langs wp f path) ↔ ¬ Executable p ∧
      (¬ GameWad wp ∧ f' = { f with path := some p } ∨ GameWad wp ∧ KeptInGame (gameSubdir b wp ++ '/' :: p) ∧
        f' = { f with path := some (gameSubdir b wp ++ '/' :: p) }) := by
    unfold EntryExported
    constructor
    · rintro ⟨path, rfl, n, hn, hx, h⟩
      rw [hname] at hn
      subst hn
      refine ⟨hx, ?_⟩
      rcases h with ⟨hg, rfl⟩ | ⟨hg, hk, dir, hd, rfl⟩
      · exact Or.inl ⟨hg, rfl⟩
      · rw [gameDir_iff hb hg] at hd
        subst hd
        exact Or.inr ⟨hg, hk, rfl⟩
    · rintro ⟨hx, ⟨hg, rfl⟩ | ⟨hg, hk, rfl⟩⟩
      · exact ⟨p, rfl, p, (hname p).2 rfl, hx, Or.inl ⟨hg, rfl⟩⟩
      · exact ⟨_, rfl, p, (hname p).2 rfl, hx, Or.inr ⟨hg, hk, _, (gameDir_iff hb hg).2 rfl, rfl⟩⟩
  rw [hex]
  unfold entryT
  simp only [hp, Option.getD_some]
  have happ : gameSubdir b wp ++ ['/'] ++ p = gameSubdir b wp ++ '/' :: p := by simp
  rw [happ]
  by_cases hx : Executable p
  · rw [if_neg (by rw [notExecutable_iff]; exact fun h => h.2 hx)]
    simp [hx]
  · rw [if_pos (notExecutable_iff.2 ⟨hpn, hx⟩)]
    by_cases hg : GameWad wp
    · rw [if_pos (gameWad_iff.2 hg)]
      by_cases hk : KeptInGame (gameSubdir b wp ++ '/' :: p)
      · rw [if_pos (filterPath_iff.2 hk)]
        simp only [Option.some.injEq, hx, hg, hk, not_false_eq_true, not_true, false_and, true_and, false_or]
        exact eq_comm
      · rw [if_neg fun h => hk (filterPath_iff.1 h)]
        simp [hg, hk]
    · rw [if_neg fun h => hg (gameWad_iff.1 h)]
      simp only [Option.some.injEq, hx, hg, not_false_eq_true, false_and, true_and, or_false]
      exact eq_comm

end Cdtb
