import Verif.Model.Grep
import Verif.Lemmas.Subst
import Verif.Props.C56
import Mathlib.Data.List.Rotate
import Mathlib.Data.List.Infix
/-!
# C58  Paths found in the content of game files

`Spec.Guesses H g g' cands` (see C55): checking exactly the candidates `cands` changes the guesser `g` to `g'`.
The content of a file is given as characters, one per byte (`latin1`).
-/
namespace Cdtb
set_option autoImplicit false
open Py

/-! ## Specification -/

/-- `Spec.Scan P pre s (a, w, b)`: reading `s`, found after `pre`, from left to right without overlapping, `w` is one of the parts
that satisfy `P`; `a` and `b` are what is before and after. -/
inductive Spec.Scan (P : Str → Str → Prop) : Str → Str → Str × Str × Str → Prop
  | here (pre w r : Str) (h : P w r) : Spec.Scan P pre (w ++ r) (pre, w, r)
  | later (pre w r : Str) (x : Str × Str × Str) (h : P w r) (hx : Spec.Scan P (pre ++ w) r x) : Spec.Scan P pre (w ++ r) x
  | skip (pre : Str) (c : Char) (s : Str) (x : Str × Str × Str) (h : ∀ w r, c :: s = w ++ r → ¬ P w r) (hx : Spec.Scan P (pre ++ [c]) s x) :
      Spec.Scan P pre (c :: s) x

/-- Only ASCII characters -/
def Spec.AsciiText (s : Str) : Prop := ∀ c ∈ s, c.toNat < 128

/-- First directories of paths in bin files -/
def Spec.binRoots : List Str := ["ASSETS", "DATA", "Characters", "Shaders", "Maps", "Gameplay", "ClientStates", "Patching", "Loadouts"].map String.toList

/-- Path without its last component; a path without slash is unchanged -/
inductive Spec.Parent : Str → Str → Prop
  | dir (a b : Str) (h : '/' ∉ b) : Spec.Parent (a ++ '/' :: b) a
  | none (p : Str) (h : '/' ∉ p) : Spec.Parent p p

/-- Names of the formats of compiled shaders -/
def Spec.shaderExts : List Str := [".ps_2_0", ".ps_3_0", ".vs_2_0", ".vs_3_0", ".ps", ".vs"].map String.toList

/-- Suffixes of compiled shaders, for each platform -/
def Spec.shaderVariants : List Str := [".dx11", ".dx9", ".dx9sm3", ".glsl", ".metal", "-dx11", "-metal"].map String.toList

/-- A script, and its compiled forms -/
def Spec.LuaVariant (p q : Str) : Prop := ∃ s, p = s ++ ".lua".toList ∧
  (q = p ∨ q = s ++ ".luabin".toList ∨ q = s ++ ".luabin64".toList ∨ q = s ++ ".preload".toList)

open Classical in
/-- Paths checked for a path of a bin file -/
def Spec.BinVariant (p q : Str) : Prop :=
  if ∃ t, p = "characters".toList ++ t then q = p ∨ q = "assets/".toList ++ p ∨ q = "data/".toList ++ p
  else if ∃ t, p = t ++ ".lua".toList then Spec.LuaVariant p q
  else if ∃ t, p = "shaders".toList ++ t then
    ∃ e ∈ Spec.shaderExts, q = "assets/shaders/generated/".toList ++ p ++ e ∨
      ∃ v ∈ Spec.shaderVariants, q = "assets/shaders/generated/".toList ++ p ++ e ++ v
  else if ∃ t, p = "maps/mapgeometry/".toList ++ t then q = "data/".toList ++ p ++ ".mapgeo".toList ∨ q = "data/".toList ++ p ++ ".materials.bin".toList
  else if ∃ d ∈ ["clientstates".toList, "patching".toList, "loadouts".toList, "maps".toList], ∃ t, p = d ++ t then
    q = p ∨ Spec.Parent p q ∨ ∃ r, Spec.Parent p r ∧ Spec.Parent r q
  else q = p ∨ ∃ s, p = s ++ ".png".toList ∧ q = s ++ ".dds".toList

/-- Candidates of a bin file: for each known root followed by a slash, the length of the path is in the two bytes before. (At the start of
the content these are, strangely, the last bytes.) -/
def Spec.BinCand (text q : Str) : Prop := ∃ a b u lo hi root t, text = a ++ b ∧ root ∈ Spec.binRoots ∧ b = root ++ '/' :: t ∧
  b ++ a = u ++ [lo, hi] ∧ Spec.AsciiText (b.take (lo.toNat + 256 * hi.toNat)) ∧ Spec.BinVariant (lower (b.take (lo.toNat + 256 * hi.toNat))) q

/-- `tag`, and a text between quotes -/
def Spec.Quoted (tag w : Str) : Prop := ∃ x, w = tag ++ '"' :: x ++ ['"'] ∧ x ≠ [] ∧ '"' ∉ x

/-- A text between quotes, after `tag`, in a text -/
def Spec.QuotedIn (tag text x : Str) : Prop := ∃ a b, Spec.Scan (fun w _ => Spec.Quoted tag w) [] text (a, tag ++ '"' :: x ++ ['"'], b)

open Classical in
/-- Candidates of a preload file -/
def Spec.PreloadCand (path : Option Str) (text q : Str) : Prop := ∃ x, Spec.QuotedIn "Name=".toList text x ∧
  if ∃ s, lower x = s ++ ".lua".toList then
    q = lower x ∨ ∃ s, lower x = s ++ ".lua".toList ∧ (q = s ++ ".luabin".toList ∨ q = s ++ ".luabin64".toList)
  else if ∃ s, lower x = s ++ ".troy".toList then ∃ s, lower x = s ++ ".troy".toList ∧ q = "data/shared/particles/".toList ++ s ++ ".troybin".toList
  else ∃ p, path = some p ∧ p ≠ [] ∧ q = dirname p ++ '/' :: lower x ++ ".preload".toList

/-- Candidates of a shader -/
def Spec.ShaderCand (path : Option Str) (text q : Str) : Prop := ∃ p x, path = some p ∧ p ≠ [] ∧ Spec.QuotedIn "#include ".toList text x ∧
  q = (normpath (dirname p ++ '/' :: lower x)).map fun c => if c = '\\' then '/' else c

/-- Candidates of an atlas: its ASCII lines -/
def Spec.AtlasCand (path : Option Str) (text q : Str) : Prop := ∃ p l, path = some p ∧ p ≠ [] ∧ Spec.AsciiText l ∧ '\n' ∉ l ∧
  (∃ a b, text = a ++ l ++ b ∧ (a = [] ∨ ∃ a', a = a' ++ ['\n']) ∧ (b = [] ∨ ∃ b', b = '\n' :: b')) ∧ q = dirname p ++ '/' :: lower l

/-- First directories of paths in other files -/
def Spec.fileRoots : List Str := ["ASSETS", "Common", "DATA", "DATA_SOON", "DATA_Soon", "Gameplay", "Global", "LEVELS", "Loadouts", "UX",
  "UIAutoAtlas"].map String.toList

/-- Characters of paths in other files -/
def Spec.PathChar (c : Char) : Prop := c ∈ "0123456789abcdefghijklmnopqrstuvwxyzABCDEFGHIJKLMNOPQRSTUVWXYZ_. /-".toList

/-- A path-like text: a known root, a slash, and all the characters of paths that follow -/
def Spec.PathLike (w r : Str) : Prop := (∃ root ∈ Spec.fileRoots, ∃ t, w = root ++ '/' :: t ∧ t ≠ [] ∧ ∀ c ∈ t, Spec.PathChar c) ∧
  ∀ c ∈ r.head?, ¬ Spec.PathChar c

/-- The length in front of a path: two bytes or, if they are zero, four -/
def Spec.LengthBefore (a : Str) (n : Nat) : Prop :=
  (∃ u x y, a = u ++ [x, y] ∧ n = x.toNat + 256 * y.toNat ∧ (n ≠ 0 ∨ a.length < 4)) ∨
  ∃ u x y z t, a = u ++ [x, y, z, t] ∧ z.toNat = 0 ∧ t.toNat = 0 ∧ n = x.toNat + 256 * y.toNat

/-- Replacement of all the occurrences of `data_soon/` -/
def Spec.DataSoon (p q : Str) : Prop := ∃ n, Spec.Replaced (fun w _ => w = "data_soon/".toList) p (List.replicate n "data/".toList) q

open Classical in
/-- Paths checked for a path of another file -/
def Spec.FileVariant (p q : Str) : Prop := if ∃ t, p = t ++ ".lua".toList then Spec.LuaVariant p q else q = p

/-- Candidates of other files: path-like texts, whole and cut at the length in front of them -/
def Spec.FileCand (text q : Str) : Prop := ∃ a w b p, Spec.Scan Spec.PathLike [] text (a, w, b) ∧
  (Spec.DataSoon (lower w) p ∨ ∃ n, Spec.LengthBefore a n ∧ n < w.length ∧ Spec.DataSoon ((lower w).take n) p) ∧
  Spec.FileVariant p q

/-- Extensions of files without paths -/
def Spec.skippedExts : List Str := ["dds", "jpg", "png", "tga", "ttf", "otf", "ogg", "webm", "anm", "skl", "skn", "scb", "sco", "troybin", "bnk",
  "wpk", "tex"].map String.toList

/-- Candidates in the content of a file, by extension -/
def Spec.ContentCand (ext path : Option Str) (text q : Str) : Prop := match ext with
  | none => Spec.FileCand text q
  | some ext => ext ∉ Spec.skippedExts ∧
    if ext ∈ ["bin".toList, "inibin".toList] then Spec.BinCand text q
    else if ext = "preload".toList then Spec.PreloadCand path text q
    else if ext ∈ ["hls".toList, "ps_2_0".toList, "ps_3_0".toList, "vs_2_0".toList, "vs_3_0".toList] then Spec.ShaderCand path text q
    else if ext = "atlas".toList then Spec.AtlasCand path text q
    else Spec.FileCand text q

/-- Candidates of a file of a wad: links and files of the skipped types have none. -/
def Spec.GrepCand (f : GrepEntry) (q : Str) : Prop := f.type ≠ 2 ∧ ∃ data, f.data = some data ∧ Spec.ContentCand f.ext f.path (latin1 data) q

/-- The names quoted in preload files and shaders are in ASCII, and the directories of preload files have no percent sign. -/
def Spec.Greppable (f : GrepEntry) : Prop := ∀ data, f.data = some data →
  (f.ext = some "preload".toList → (∀ x, Spec.QuotedIn "Name=".toList (latin1 data) x → Spec.AsciiText x) ∧ ∀ p, f.path = some p → '%' ∉ dirname p) ∧
  (f.ext ∈ ["hls", "ps_2_0", "ps_3_0", "vs_2_0", "vs_3_0"].map (fun e => some e.toList) →
    ∀ x, Spec.QuotedIn "#include ".toList (latin1 data) x → Spec.AsciiText x)

/-! ## Scanning -/

theorem finditer_scan {m : Str → Option Nat} {P : Str → Str → Prop} (hm : MatchesOf m P) (pre s : Str) (x : Str × Str × Str) :
    x ∈ finditer m pre 0 s ↔ Spec.Scan P pre s x := by
  have hhit : ∀ pre w r, P w r → finditer m pre 0 (w ++ r) = (pre, w, r) :: finditer m (pre ++ w) 0 r := by
    intro pre w r hw
    obtain ⟨h1, h2⟩ := hm.2 w r hw
    exact finditer_match m pre w r h1 h2
  have hskip : ∀ pre c s, (∀ w r, c :: s = w ++ r → ¬ P w r) → finditer m pre 0 (c :: s) = finditer m (pre ++ [c]) 0 s := by
    intro pre c s h
    rw [finditer, (hm.none _).2 h]
  constructor
  · intro h
    induction hn : s.length using Nat.strong_induction_on generalizing s pre with
    | _ n ih =>
      cases s with
      | nil => simp [finditer] at h
      | cons c s =>
        by_cases hc : ∃ w r, c :: s = w ++ r ∧ P w r
        · obtain ⟨w, r, h1, h2⟩ := hc
          rw [h1, hhit pre w r h2, List.mem_cons] at h
          rw [h1]
          rcases h with rfl | h
          · exact .here _ _ _ h2
          · refine .later _ _ _ _ h2 (ih r.length ?_ _ _ h rfl)
            have := congrArg List.length h1
            rw [List.length_append] at this
            have : 0 < w.length := List.length_pos_iff.2 (hm.2 w r h2).1
            omega
        · have hc' : ∀ w r, c :: s = w ++ r → ¬ P w r := fun w r h1 h2 => hc ⟨w, r, h1, h2⟩
          rw [hskip pre c s hc'] at h
          exact .skip _ _ _ _ hc' (ih s.length (by rw [← hn]; simp) _ _ h rfl)
  · intro h
    induction h with
    | here pre w r h => rw [hhit pre w r h]; exact List.mem_cons_self
    | later pre w r x h hx ih => rw [hhit pre w r h]; exact List.mem_cons_of_mem _ ih
    | skip pre c s x h hx ih => rw [hskip pre c s h]; exact ih

theorem Spec.Scan.eq {P : Str → Str → Prop} {pre s : Str} {x : Str × Str × Str} (h : Spec.Scan P pre s x) :
    pre ++ s = x.1 ++ x.2.1 ++ x.2.2 ∧ P x.2.1 x.2.2 := by
  induction h with
  | here pre w r h => exact ⟨by rw [List.append_assoc], h⟩
  | later pre w r x h hx ih => exact ⟨by rw [← ih.1, List.append_assoc], ih.2⟩
  | skip pre c s x h hx ih => exact ⟨by rw [← ih.1, List.append_assoc]; rfl, ih.2⟩

/-- If matches cannot overlap then everything that matches is found. -/
theorem scan_all {m : Str → Option Nat} {P : Str → Str → Prop} (hm : MatchesOf m P)
    (hno : ∀ u v r w' r', u ≠ [] → v ≠ [] → P (u ++ v) r → v ++ r = w' ++ r' → ¬ P w' r') (pre a w b : Str) (hw : P w b) :
    Spec.Scan P pre (a ++ w ++ b) (pre ++ a, w, b) := by
  induction hn : a.length using Nat.strong_induction_on generalizing a pre with
  | _ n ih =>
    cases a with
    | nil => rw [List.nil_append, List.append_nil]; exact .here _ _ _ hw
    | cons c a =>
      by_cases hc : ∃ w1 r1, c :: a ++ w ++ b = w1 ++ r1 ∧ P w1 r1
      · obtain ⟨w1, r1, h1, h2⟩ := hc
        rw [List.append_assoc] at h1
        rcases List.append_eq_append_iff.1 h1 with ⟨v, h3, h4⟩ | ⟨v, h3, h4⟩
        · by_cases hv : v = []
          · subst hv
            rw [List.append_nil] at h3
            subst h3
            rw [List.nil_append] at h4
            rw [List.append_assoc, h4]
            refine .later _ _ _ _ h2 ?_
            rw [← h4]
            have := ih 0 (by rw [← hn]; simp) (pre ++ c :: a) [] rfl
            simpa using this
          · exact absurd hw (hno (c :: a) v r1 w b (by simp) hv (h3 ▸ h2) h4.symm)
        · rw [h3, List.append_assoc, List.append_assoc, ← List.append_assoc v]
          rw [h4, ← List.append_assoc] at h2
          rw [← List.append_assoc pre]
          refine .later _ _ _ _ h2 (ih v.length ?_ (pre ++ w1) v rfl)
          have := congrArg List.length h3
          rw [List.length_append, hn] at this
          have : 0 < w1.length := List.length_pos_iff.2 (hm.2 _ _ h2).1
          omega
      · have hc' : ∀ w1 r1, c :: (a ++ w ++ b) = w1 ++ r1 → ¬ P w1 r1 := fun w1 r1 h1 h2 => hc ⟨w1, r1, h1, h2⟩
        have := ih a.length (by rw [← hn]; simp) (pre ++ [c]) a rfl
        rw [show pre ++ [c] ++ a = pre ++ c :: a by simp] at this
        exact .skip _ _ _ _ hc' this

theorem isAscii_iff (s : Str) : isAscii s = true ↔ Spec.AsciiText s := by
  unfold isAscii Spec.AsciiText
  simp

theorem matchRoot_iff (roots : List Str) (hr : ∀ r ∈ roots, '/' ∉ r) (s : Str) (k : Nat) :
    matchRoot roots s = some k ↔ ∃ r ∈ roots, ∃ t, s = r ++ '/' :: t ∧ k = r.length + 1 := by
  unfold matchRoot
  rw [Option.map_eq_some_iff]
  constructor
  · rintro ⟨r, hf, rfl⟩
    have hs := List.find?_some hf
    obtain ⟨t, ht⟩ := startsWith_iff.1 hs
    exact ⟨r, List.mem_of_find?_eq_some hf, t, by rw [ht, List.append_assoc]; rfl, rfl⟩
  · rintro ⟨r, hmem, t, rfl, rfl⟩
    rcases hf : roots.find? (fun r' => startsWith (r ++ '/' :: t) (r' ++ ['/'])) with _ | r'
    · rw [List.find?_eq_none] at hf
      refine absurd ?_ (hf r hmem)
      rw [startsWith_iff]
      exact ⟨t, by rw [List.append_assoc]; rfl⟩
    · refine ⟨r', rfl, ?_⟩
      have hs := List.find?_some hf
      obtain ⟨t', ht⟩ := startsWith_iff.1 hs
      rw [List.append_assoc, List.singleton_append] at ht
      have h1 := (split1_eq_some (c := '/') (s := r ++ '/' :: t)).2 ⟨rfl, hr r hmem⟩
      rw [(split1_eq_some (c := '/')).2 ⟨ht, hr r' (List.mem_of_find?_eq_some hf)⟩] at h1
      cases h1
      rfl

theorem matchRoot_matches (roots : List Str) (hr : ∀ r ∈ roots, '/' ∉ r) :
    MatchesOf (matchRoot roots) (fun w _ => ∃ r ∈ roots, w = r ++ ['/']) := by
  refine ⟨fun s n h => ?_, ?_⟩
  · obtain ⟨r, h1, t, rfl, rfl⟩ := (matchRoot_iff roots hr s n).1 h
    exact ⟨r ++ ['/'], t, by rw [List.append_assoc]; rfl, by simp, r, h1, rfl⟩
  · rintro w t ⟨r, h1, rfl⟩
    refine ⟨by simp, (matchRoot_iff roots hr _ _).2 ⟨r, h1, t, by rw [List.append_assoc]; rfl, by simp⟩⟩

theorem binRoots_found (s : Str) (x : Str × Str × Str) : x ∈ finditer (matchRoot binRoots) [] 0 s ↔
    s = x.1 ++ x.2.1 ++ x.2.2 ∧ ∃ r ∈ Spec.binRoots, x.2.1 = r ++ ['/'] := by
  have hr : ∀ r ∈ binRoots, '/' ∉ r := by decide +kernel
  have hsuf : ∀ r ∈ binRoots, ∀ u ∈ r.tails.tail, u ∉ binRoots := by decide +kernel
  have hm := matchRoot_matches binRoots hr
  rw [finditer_scan hm]
  constructor
  · intro h
    exact ⟨by simpa using h.eq.1, h.eq.2⟩
  · rintro ⟨h1, h2⟩
    have := scan_all hm ?_ [] x.1 x.2.1 x.2.2 h2
    · rw [h1]
      simpa using this
    · rintro u v r w' r' hu hv ⟨r1, hr1, h3⟩ h4 ⟨r2, hr2, rfl⟩
      rcases List.eq_nil_or_concat v with rfl | ⟨v', c, rfl⟩
      · exact hv rfl
      · rw [List.concat_eq_append, ← List.append_assoc] at h3
        obtain ⟨h5, h6⟩ := List.append_inj' h3 rfl
        cases h6
        rw [List.concat_eq_append, List.append_assoc, List.append_assoc, List.singleton_append] at h4
        have hv' : '/' ∉ v' := fun h => hr r1 hr1 (h5 ▸ List.mem_append_right _ h)
        have e1 := (split1_eq_some (c := '/') (s := v' ++ '/' :: r)).2 ⟨rfl, hv'⟩
        rw [(split1_eq_some (c := '/')).2 ⟨h4, hr r2 hr2⟩] at e1
        cases e1
        refine hsuf r1 hr1 r2 ?_ hr2
        rw [← h5]
        cases u with
        | nil => exact absurd rfl hu
        | cons d u =>
          rw [List.cons_append, List.tails, List.tail_cons, List.mem_tails]
          exact List.suffix_append _ _

theorem lengthBefore_eq (a b u : Str) (lo hi : Char) (h : b ++ a = u ++ [lo, hi]) :
    lengthBefore (a ++ b) a.length = lo.toNat + 256 * hi.toNat := by
  have hrot : (a ++ b).rotate a.length = u ++ [lo, hi] := by rw [List.rotate_append_length_eq, h]
  have hlen : (a ++ b).length = u.length + 2 := by
    have := congrArg List.length hrot
    rw [List.length_rotate] at this
    simpa using this
  have key : ∀ k c, k < u.length + 2 → (u ++ [lo, hi])[k]? = some c → (a ++ b).getD ((k + a.length) % (a ++ b).length) '\x00' = c := by
    intro k c hk hc
    rw [← hrot, List.getElem?_eq_getElem (by rw [List.length_rotate, hlen]; exact hk), List.getElem_rotate] at hc
    rw [List.getD_eq_getElem?_getD, List.getElem?_eq_getElem (Nat.mod_lt _ (by rw [hlen]; omega))]
    simpa using hc
  unfold lengthBefore
  rw [show a.length + (a ++ b).length - 2 = u.length + a.length by rw [hlen]; omega,
    show a.length + (a ++ b).length - 1 = (u.length + 1) + a.length by rw [hlen]; omega,
    key u.length lo (by omega) (by simp), key (u.length + 1) hi (by omega) (by simp)]
  omega

theorem rsplitParent_iff (p q : Str) : Spec.Parent p q ↔ rsplitParent p = q := by
  unfold rsplitParent
  constructor
  · rintro (⟨a, b, h⟩ | ⟨_, h⟩)
    · rw [rsplit1_eq_some.2 ⟨rfl, h⟩]
    · rw [rsplit1_eq_none.2 h]
  · intro h
    rcases hs : rsplit1 '/' p with _ | ⟨a, b⟩
    · rw [hs] at h
      simp only at h
      subst h
      exact .none _ (rsplit1_eq_none.1 hs)
    · rw [hs] at h
      simp only at h
      subst h
      obtain ⟨rfl, hb⟩ := rsplit1_eq_some.1 hs
      exact .dir _ _ hb

theorem dropSuffix_append (s t : Str) (n : Nat) (h : t.length = n) : dropSuffix n (s ++ t) = s := by
  unfold dropSuffix
  rw [List.length_append, h, Nat.add_sub_cancel, List.take_left]

theorem ends_iff (p s : Str) : (endsWith p s = true) = ∃ t, p = t ++ s := propext endsWith_iff

theorem starts_iff (p s : Str) : (startsWith p s = true) = ∃ t, p = s ++ t := propext startsWith_iff

theorem luaVariants (p q : Str) (h : ∃ t, p = t ++ ".lua".toList) :
    q ∈ [p, dropSuffix 4 p ++ ".luabin".toList, dropSuffix 4 p ++ ".luabin64".toList, dropSuffix 4 p ++ ".preload".toList] ↔ Spec.LuaVariant p q := by
  obtain ⟨s, rfl⟩ := h
  unfold Spec.LuaVariant
  rw [dropSuffix_append s _ 4 (by decide)]
  simp only [List.mem_cons, List.not_mem_nil, or_false]
  constructor
  · intro h; exact ⟨s, rfl, h⟩
  · rintro ⟨s', hs, h⟩
    cases List.append_cancel_right hs
    exact h

theorem binVariants_iff (p q : Str) : q ∈ binVariants p ↔ Spec.BinVariant p q := by
  unfold binVariants Spec.BinVariant
  by_cases h1 : ∃ t, p = "characters".toList ++ t
  · rw [if_pos (startsWith_iff.2 h1), if_pos h1]; simp only [List.mem_cons, List.not_mem_nil, or_false]
  rw [if_neg (mt startsWith_iff.1 h1), if_neg h1]
  by_cases h2 : ∃ t, p = t ++ ".lua".toList
  · rw [if_pos (endsWith_iff.2 h2), if_pos h2]; exact luaVariants p q h2
  rw [if_neg (mt endsWith_iff.1 h2), if_neg h2]
  by_cases h3 : ∃ t, p = "shaders".toList ++ t
  · rw [if_pos (startsWith_iff.2 h3), if_pos h3]
    simp only [List.mem_append, List.mem_map, List.mem_flatMap]
    constructor
    · rintro (⟨e, he, rfl⟩ | ⟨e, he, v, hv, rfl⟩)
      · exact ⟨e, he, .inl rfl⟩
      · exact ⟨e, he, .inr ⟨v, hv, rfl⟩⟩
    · rintro ⟨e, he, rfl | ⟨v, hv, rfl⟩⟩
      · exact .inl ⟨e, he, rfl⟩
      · exact .inr ⟨e, he, v, hv, rfl⟩
  rw [if_neg (mt startsWith_iff.1 h3), if_neg h3]
  by_cases h4 : ∃ t, p = "maps/mapgeometry/".toList ++ t
  · rw [if_pos (startsWith_iff.2 h4), if_pos h4]; simp only [List.mem_cons, List.not_mem_nil, or_false]
  rw [if_neg (mt startsWith_iff.1 h4), if_neg h4]
  have h5 : (startsWith p "clientstates".toList || startsWith p "patching".toList || startsWith p "loadouts".toList ||
      startsWith p "maps".toList) = true ↔
      ∃ d ∈ ["clientstates".toList, "patching".toList, "loadouts".toList, "maps".toList], ∃ t, p = d ++ t := by
    rw [Bool.or_eq_true, Bool.or_eq_true, Bool.or_eq_true, startsWith_iff, startsWith_iff, startsWith_iff, startsWith_iff]
    simp only [List.mem_cons, List.not_mem_nil, or_false, exists_eq_or_imp, exists_eq_left, or_assoc]
  by_cases h6 : ∃ d ∈ ["clientstates".toList, "patching".toList, "loadouts".toList, "maps".toList], ∃ t, p = d ++ t
  · rw [if_pos (h5.2 h6), if_pos h6]
    simp only [List.mem_cons, List.not_mem_nil, or_false, rsplitParent_iff]
    refine or_congr_right (or_congr eq_comm ?_)
    constructor
    · intro h; exact ⟨_, rfl, h.symm⟩
    · rintro ⟨_, rfl, h⟩; exact h.symm
  rw [if_neg (mt h5.1 h6), if_neg h6, List.mem_cons]
  refine or_congr_right ?_
  by_cases h7 : ∃ t, p = t ++ ".png".toList
  · rw [if_pos (endsWith_iff.2 h7)]
    obtain ⟨s, rfl⟩ := h7
    rw [dropSuffix_append s _ 4 (by decide), List.mem_singleton]
    constructor
    · intro h; exact ⟨s, rfl, h⟩
    · rintro ⟨s', hs, h⟩
      cases List.append_cancel_right hs
      exact h
  · rw [if_neg (mt endsWith_iff.1 h7)]
    simp only [List.not_mem_nil, false_iff]
    rintro ⟨s, hs, -⟩
    exact h7 ⟨s, hs⟩

/-! ## Bin files -/

theorem foldl_optional (H : Str → Int) {α : Type} (f : α → Option Str) (k : Str → List Str) (l : List α) (g : Guesser) :
    l.foldl (fun g m => match f m with
      | none => g
      | some p => g.checkIter H (k p)) g = g.checkIter H ((l.filterMap f).flatMap k) := by
  induction l generalizing g with
  | nil => rfl
  | cons a l ih =>
    rw [List.foldl_cons, ih]
    rcases h : f a with _ | p
    · rw [List.filterMap_cons_none h]
    · rw [List.filterMap_cons_some h, List.flatMap_cons, (C46_calls H g _ _).1]

/-- The paths checked for a bin file -/
def binCandidates (s : Str) : List Str :=
  ((finditer (matchRoot binRoots) [] 0 s).filterMap fun m => binPathAt s m.1.length).flatMap binVariants

theorem grepBin_eq (H : Str → Int) (g : Guesser) (data : Bytes) : g.grepBin H data = g.checkIter H (binCandidates (latin1 data)) :=
  foldl_optional H (fun m : Str × Str × Str => binPathAt (latin1 data) m.1.length) binVariants _ g

theorem binCandidates_mem (s q : Str) : q ∈ binCandidates s ↔ Spec.BinCand s q := by
  unfold binCandidates Spec.BinCand
  have hlast : ∀ (x : Str) (c d e f g : Char), ∃ u lo hi, x ++ [c, d, e, f, g] = u ++ [lo, hi] := fun x c d e f g => ⟨x ++ [c, d, e], f, g, by simp⟩
  simp only [List.mem_flatMap, List.mem_filterMap, binVariants_iff]
  have hat : ∀ a b u lo hi, b ++ a = u ++ [lo, hi] → ∀ p, binPathAt (a ++ b) a.length = some p ↔
      Spec.AsciiText (b.take (lo.toNat + 256 * hi.toNat)) ∧ p = lower (b.take (lo.toNat + 256 * hi.toNat)) := by
    intro a b u lo hi h p
    unfold binPathAt
    rw [lengthBefore_eq a b u lo hi h, List.drop_left]
    simp only
    by_cases hA : Spec.AsciiText (b.take (lo.toNat + 256 * hi.toNat))
    · rw [if_pos ((isAscii_iff _).2 hA), Option.some.injEq]
      exact ⟨fun h => ⟨hA, h.symm⟩, fun h => h.2.symm⟩
    · rw [if_neg (fun h => hA ((isAscii_iff _).1 h))]
      simp only [reduceCtorEq, false_iff]
      exact fun h => hA h.1
  constructor
  · rintro ⟨p, ⟨⟨a, w, t⟩, hm, hp⟩, hq⟩
    obtain ⟨h1, r, hr, h2⟩ := (binRoots_found _ _).1 hm
    simp only at h1 h2 hp
    subst h2
    have hb : ∃ u lo hi, (r ++ ['/'] ++ t) ++ a = u ++ [lo, hi] := by
      have hlen : 2 ≤ ((r ++ ['/'] ++ t) ++ a).length := by
        have : ∀ r ∈ Spec.binRoots, 2 ≤ r.length := by decide +kernel
        have := this r hr
        simp; omega
      generalize (r ++ ['/'] ++ t) ++ a = z at hlen
      rcases List.eq_nil_or_concat z with rfl | ⟨z', hi, rfl⟩
      · simp at hlen
      · rcases List.eq_nil_or_concat z' with rfl | ⟨z'', lo, rfl⟩
        · simp at hlen
        · exact ⟨z'', lo, hi, by simp⟩
    obtain ⟨u, lo, hi, hu⟩ := hb
    rw [h1, List.append_assoc] at hp
    obtain ⟨h3, rfl⟩ := (hat a _ u lo hi hu p).1 hp
    exact ⟨a, r ++ ['/'] ++ t, u, lo, hi, r, t, by rw [h1, List.append_assoc], hr, by simp, hu, h3, hq⟩
  · rintro ⟨a, b, u, lo, hi, r, t, rfl, hr, rfl, hu, hA, hq⟩
    refine ⟨_, ⟨(a, r ++ ['/'], t), (binRoots_found _ _).2 ⟨by simp, r, hr, rfl⟩, (hat a _ u lo hi hu _).2 ⟨hA, rfl⟩⟩, hq⟩

/-- Bin files: all the paths with a known first directory are tried, with the length stored in front of them. -/
theorem C58_bin (H : Str → Int) (g : Guesser) (hg : Reached H g) (data : Bytes) :
    Spec.Guesses H g (g.grepBin H data) (Spec.BinCand (latin1 data)) := by
  rw [grepBin_eq]
  exact checkIter_guesses H g hg.inv.1 _ _ (binCandidates_mem _)

/-- A path stored in a bin file is found: `p` is in the content after its length, wherever it is. -/
theorem C58_bin_stored (H : Str → Int) (g : Guesser) (hg : Reached H g) (data : Bytes) (a p b root t : Str) (lo hi : Char)
    (hd : latin1 data = a ++ [lo, hi] ++ p ++ b) (hl : p.length = lo.toNat + 256 * hi.toNat) (hr : root ∈ Spec.binRoots)
    (hp : p = root ++ '/' :: t) (hA : Spec.AsciiText p) (q : Str) (hq : Spec.BinVariant (lower p) q) (hu : H q ∈ g.unknown) :
    H q ∉ (g.grepBin H data).unknown ∧ ∃ q', H q' = H q ∧ (g.grepBin H data).known.get? (H q) = some q' := by
  have hc : Spec.BinCand (latin1 data) q := by
    refine ⟨a ++ [lo, hi], p ++ b, p ++ b ++ a, lo, hi, root, t ++ b, by rw [hd]; simp, hr, by rw [hp]; simp, by simp, ?_⟩
    rw [← hl, List.take_left]
    exact ⟨hA, hq⟩
  have hs := C58_bin H g hg data
  refine ⟨fun h => ((hs.unknown _).1 h).2 ⟨q, hc, rfl⟩, ?_⟩
  obtain ⟨q', -, h2, h3⟩ := hs.found (H q) hu ⟨q, hc, rfl⟩
  exact ⟨q', h2, h3⟩

/-! ## Quoted names -/

theorem takeWhile_ne (x r : Str) (c : Char) (hx : c ∉ x) : (x ++ c :: r).takeWhile (· ≠ c) = x := by
  induction x with
  | nil => simp
  | cons d x ih =>
    simp only [List.mem_cons, not_or] at hx
    rw [List.cons_append, List.takeWhile_cons_of_pos (by simpa using Ne.symm hx.1), ih hx.2]

theorem matchQuoted_matches (tag : Str) : MatchesOf (matchQuoted tag) (fun w _ => Spec.Quoted tag w) := by
  refine ⟨fun s n h => ?_, ?_⟩
  · unfold matchQuoted at h
    rcases ha : afterPrefix (tag ++ ['"']) s with _ | r
    · rw [ha] at h; cases h
    · rw [ha] at h
      simp only at h
      split at h
      · rename_i hc
        rw [Bool.and_eq_true] at hc
        obtain ⟨h1, h2⟩ := hc
        have h1' : r.takeWhile (· ≠ '"') ≠ [] := by
          intro h0
          rw [h0] at h1
          simp at h1
        have h2' := of_decide_eq_true h2
        have hs := (afterPrefix_iff _ _ _).1 ha
        have hr : r = r.takeWhile (· ≠ '"') ++ r.drop (r.takeWhile (· ≠ '"')).length := by
          exact (List.prefix_iff_eq_append.1 (List.takeWhile_prefix _)).symm
        rcases hd : r.drop (r.takeWhile (· ≠ '"')).length with _ | ⟨d, r'⟩
        · rw [hd] at h2'; cases h2'
        · rw [hd] at h2'
          cases h2'
          rw [hd] at hr
          cases h
          refine ⟨tag ++ '"' :: r.takeWhile (· ≠ '"') ++ ['"'], r', ?_, by simp; omega, _, rfl, h1', ?_⟩
          · rw [hs]
            conv_lhs => rw [hr]
            simp
          · intro hm
            have := List.all_eq_true.1 (takeWhile_all _ _) _ hm
            simp at this
      · cases h
  · rintro w r ⟨x, rfl, h1, h2⟩
    refine ⟨by simp, ?_⟩
    unfold matchQuoted
    have e : tag ++ '"' :: x ++ ['"'] ++ r = (tag ++ ['"']) ++ (x ++ '"' :: r) := by simp
    rw [(afterPrefix_iff _ _ _).2 e]
    simp only
    rw [takeWhile_ne x r '"' h2, List.drop_left, if_pos]
    · simp; omega
    · have : x.length ≠ 0 := fun h => h1 (List.eq_nil_of_length_eq_zero h)
      simp [h1]

theorem quotedTexts_mem (tag text x : Str) : x ∈ quotedTexts tag text ↔ Spec.QuotedIn tag text x := by
  unfold quotedTexts Spec.QuotedIn
  have hd : ∀ x : Str, ((tag ++ '"' :: x ++ ['"']).drop (tag.length + 1)).dropLast = x := by
    intro x
    rw [show tag ++ '"' :: x ++ ['"'] = (tag ++ ['"']) ++ (x ++ ['"']) by simp,
      show tag.length + 1 = (tag ++ ['"']).length by simp, List.drop_left, List.dropLast_concat]
  rw [List.mem_map]
  constructor
  · rintro ⟨⟨a, w, b⟩, hm, rfl⟩
    have hs := (finditer_scan (matchQuoted_matches tag) _ _ _).1 hm
    obtain ⟨x, hw, -, -⟩ := hs.eq.2
    simp only at hw
    subst hw
    simp only [hd]
    exact ⟨a, b, hs⟩
  · rintro ⟨a, b, h⟩
    exact ⟨_, (finditer_scan (matchQuoted_matches tag) _ _ _).2 h, hd x⟩

/-! ## Preload files -/

/-- Paths checked for a name of a preload file -/
def preloadVariants (path : Option Str) (name : Str) : List Str :=
  if endsWith (lower name) ".lua".toList then
    [lower name, dropSuffix 4 (lower name) ++ ".luabin".toList, dropSuffix 4 (lower name) ++ ".luabin64".toList]
  else if endsWith (lower name) ".troy".toList then ["data/shared/particles/".toList ++ dropSuffix 5 (lower name) ++ ".troybin".toList]
  else match path with
    | none => []
    | some [] => []
    | some (c :: wp) => [dirname (c :: wp) ++ '/' :: lower name ++ ".preload".toList]

theorem checkIter_nil (H : Str → Int) (g : Guesser) : g.checkIter H [] = g := by rw [checkIter_eq]; rfl

theorem checkPreload_ok (H : Str → Int) (g : Guesser) (path : Option Str) (name : Str) (hA : Spec.AsciiText name)
    (hp : ∀ p, path = some p → '%' ∉ dirname p) : g.checkPreload H path name = (g.checkIter H (preloadVariants path name), .ok ()) := by
  unfold Guesser.checkPreload preloadVariants
  rw [if_neg (by rw [(isAscii_iff name).2 hA]; decide)]
  simp only
  split
  · rfl
  · split
    · rfl
    · rcases path with _ | ⟨_ | ⟨c, wp⟩⟩
      · rw [checkIter_nil]
      · rw [checkIter_nil]
      · have : pyFormat (dirname (c :: wp) ++ "/%s.preload".toList) [.str (lower name)] =
            .ok (dirname (c :: wp) ++ '/' :: lower name ++ ".preload".toList) := by
          unfold pyFormat
          have h1 := hp (c :: wp) rfl
          rw [show dirname (c :: wp) ++ "/%s.preload".toList = (dirname (c :: wp) ++ ['/']) ++ '%' :: 's' :: ".preload".toList by
              rw [List.append_assoc]; rfl,
            fmtGo_lit _ _ _ (by simp only [List.mem_append, List.mem_singleton, not_or]; exact ⟨h1, by decide⟩), fmtGo_s,
            fmtGo_nil _ (by decide)]
          simp only [Except.map, List.append_assoc]
          rfl
        simp only [this]

theorem grepPreload_ok (H : Str → Int) (path : Option Str) (hp : ∀ p, path = some p → '%' ∉ dirname p) (names : List Str)
    (hA : ∀ x ∈ names, Spec.AsciiText x) (g : Guesser) :
    g.grepPreload H path names = (g.checkIter H (names.flatMap (preloadVariants path)), .ok ()) := by
  induction names generalizing g with
  | nil => rw [Guesser.grepPreload, List.flatMap_nil, checkIter_nil]
  | cons n ns ih =>
    rw [Guesser.grepPreload, checkPreload_ok H g path n (hA n List.mem_cons_self) hp]
    simp only
    rw [ih (fun x hx => hA x (List.mem_cons_of_mem _ hx)), List.flatMap_cons, (C46_calls H g _ _).1]

theorem preload_mem (path : Option Str) (text q : Str) :
    q ∈ (quotedTexts "Name=".toList text).flatMap (preloadVariants path) ↔ Spec.PreloadCand path text q := by
  unfold Spec.PreloadCand
  rw [List.mem_flatMap]
  refine exists_congr fun x => and_congr (quotedTexts_mem _ _ _) ?_
  unfold preloadVariants
  by_cases h1 : ∃ s, lower x = s ++ ".lua".toList
  · rw [if_pos (endsWith_iff.2 h1), if_pos h1]
    obtain ⟨s, hs⟩ := h1
    rw [hs, dropSuffix_append s _ 4 (by decide)]
    simp only [List.mem_cons, List.not_mem_nil, or_false]
    refine or_congr_right ?_
    constructor
    · intro h; exact ⟨s, rfl, h⟩
    · rintro ⟨s', hs', h⟩
      cases List.append_cancel_right hs'
      exact h
  rw [if_neg (mt endsWith_iff.1 h1), if_neg h1]
  by_cases h2 : ∃ s, lower x = s ++ ".troy".toList
  · rw [if_pos (endsWith_iff.2 h2), if_pos h2]
    obtain ⟨s, hs⟩ := h2
    rw [hs, dropSuffix_append s _ 5 (by decide), List.mem_singleton]
    constructor
    · intro h; exact ⟨s, rfl, h⟩
    · rintro ⟨s', hs', h⟩
      cases List.append_cancel_right hs'
      exact h
  rw [if_neg (mt endsWith_iff.1 h2), if_neg h2]
  rcases path with _ | ⟨_ | ⟨c, wp⟩⟩
  · simp only [List.not_mem_nil, false_iff]
    rintro ⟨p, h, -⟩
    cases h
  · simp only [List.not_mem_nil, false_iff]
    rintro ⟨p, h, h', -⟩
    cases h
    exact h' rfl
  · rw [List.mem_singleton]
    constructor
    · intro h; exact ⟨_, rfl, by simp, h⟩
    · rintro ⟨p, h, -, h'⟩
      cases h
      exact h'

/-! ## Shaders and atlases -/

/-- The path checked for an include -/
def includePath (dir name : Str) : Str := (normpath (dir ++ '/' :: lower name)).map fun c => if c = '\\' then '/' else c

theorem grepShader_ok (H : Str → Int) (dir : Str) (names : List Str) (hA : ∀ x ∈ names, Spec.AsciiText x) (g : Guesser) :
    g.grepShader H dir names = (g.checkIter H (names.map (includePath dir)), .ok ()) := by
  induction names generalizing g with
  | nil => rw [Guesser.grepShader, List.map_nil, checkIter_nil]
  | cons n ns ih =>
    rw [Guesser.grepShader, if_neg (by rw [(isAscii_iff n).2 (hA n List.mem_cons_self)]; decide),
      ih (fun x hx => hA x (List.mem_cons_of_mem _ hx)), List.map_cons, ← (C46_calls H g _ _).1, List.singleton_append]
    rfl

theorem splitChar_mem (c : Char) (s l : Str) : l ∈ splitChar c s ↔ c ∉ l ∧
    ∃ a b, s = a ++ l ++ b ∧ (a = [] ∨ ∃ a', a = a' ++ [c]) ∧ (b = [] ∨ ∃ b', b = c :: b') := by
  induction hn : s.length using Nat.strong_induction_on generalizing s with
  | _ n ih =>
    rcases hs : split1 c s with _ | ⟨x, t⟩
    · have hc := split1_eq_none.1 hs
      rw [splitChar_of_not_mem hc, List.mem_singleton]
      constructor
      · rintro rfl
        exact ⟨hc, [], [], by simp, .inl rfl, .inl rfl⟩
      · rintro ⟨-, a, b, rfl, ha, hb⟩
        rcases ha with rfl | ⟨a', rfl⟩
        · rcases hb with rfl | ⟨b', rfl⟩
          · simp
          · exact absurd (by simp) hc
        · exact absurd (by simp) hc
    · obtain ⟨rfl, hx⟩ := split1_eq_some.1 hs
      rw [splitChar_append hx, List.mem_cons, ih t.length (by rw [← hn]; simp; omega) t rfl]
      constructor
      · rintro (rfl | ⟨h1, a, b, rfl, ha, hb⟩)
        · exact ⟨hx, [], c :: t, by simp, .inl rfl, .inr ⟨t, rfl⟩⟩
        · refine ⟨h1, x ++ c :: a, b, by simp, .inr ?_, hb⟩
          rcases ha with rfl | ⟨a', rfl⟩
          · exact ⟨x, rfl⟩
          · exact ⟨x ++ c :: a', by simp⟩
      · rintro ⟨h1, a, b, h2, ha, hb⟩
        rcases ha with rfl | ⟨a', rfl⟩
        · left
          rw [List.nil_append] at h2
          rcases hb with rfl | ⟨b', rfl⟩
          · exact absurd (by rw [← List.append_nil l, ← h2]; simp) h1
          · have e1 := (split1_eq_some (c := c) (s := x ++ c :: t)).2 ⟨rfl, hx⟩
            rw [(split1_eq_some (c := c)).2 ⟨h2, h1⟩] at e1
            cases e1
            rfl
        · right
          refine ⟨h1, ?_⟩
          have h3 : x ++ c :: t = a' ++ c :: (l ++ b) := by rw [h2]; simp
          rcases List.append_eq_append_iff.1 h3 with ⟨v, h4, h5⟩ | ⟨v, h4, h5⟩
          · cases v with
            | nil =>
              rw [List.nil_append, List.cons.injEq] at h5
              exact ⟨[], b, by rw [h5.2]; rfl, .inl rfl, hb⟩
            | cons d v =>
              rw [List.cons_append, List.cons.injEq] at h5
              refine ⟨v ++ [c], b, by rw [h5.2]; simp, .inr ⟨v, rfl⟩, hb⟩
          · cases v with
            | nil =>
              rw [List.nil_append, List.cons.injEq] at h5
              exact ⟨[], b, by rw [← h5.2]; rfl, .inl rfl, hb⟩
            | cons d v =>
              rw [List.cons_append, List.cons.injEq] at h5
              exact absurd (by rw [h4, h5.1]; simp) hx

/-! ## Other files -/

theorem isPathChar_iff (c : Char) : isPathChar c = true ↔ Spec.PathChar c := by
  have h128 : ∀ n < 128, isPathChar (Char.ofNat n) = true ↔ Spec.PathChar (Char.ofNat n) := by
    unfold Spec.PathChar
    decide +kernel
  by_cases h : c.toNat < 128
  · have := h128 c.toNat h
    rwa [Char.ofNat_toNat] at this
  · constructor
    · intro hc
      exfalso
      apply h
      simp only [isPathChar, Char.isAlphanum, Char.isAlpha, Char.isUpper, Char.isLower, Char.isDigit, Bool.or_eq_true, Bool.and_eq_true,
        decide_eq_true_eq] at hc
      rcases hc with (((((h1 | h1) | h1) | h1) | h1) | h1) | h1
      all_goals first
        | (subst h1; decide)
        | skip
      · rcases h1 with h1 | h1
        · have := UInt32.le_iff_toNat_le.1 h1.2
          exact Nat.lt_of_le_of_lt this (by decide)
        · have := UInt32.le_iff_toNat_le.1 h1.2
          exact Nat.lt_of_le_of_lt this (by decide)
      · have := UInt32.le_iff_toNat_le.1 h1.2
        exact Nat.lt_of_le_of_lt this (by decide)
    · intro hc
      have : ∀ c ∈ "0123456789abcdefghijklmnopqrstuvwxyzABCDEFGHIJKLMNOPQRSTUVWXYZ_. /-".toList, c.toNat < 128 := by decide +kernel
      exact absurd (this c hc) h

theorem matchPath_matches : MatchesOf matchPath Spec.PathLike := by
  have hr : ∀ r ∈ fileRoots, '/' ∉ r := by decide +kernel
  refine ⟨fun s n h => ?_, ?_⟩
  · unfold matchPath at h
    rcases hk : matchRoot fileRoots s with _ | k
    · rw [hk] at h; cases h
    · rw [hk] at h
      simp only at h
      split at h
      · rename_i hne
        obtain ⟨root, hroot, t, rfl, rfl⟩ := (matchRoot_iff _ hr _ _).1 hk
        have hd : (root ++ '/' :: t).drop (root.length + 1) = t := by
          rw [show root ++ '/' :: t = (root ++ ['/']) ++ t by simp, show root.length + 1 = (root ++ ['/']).length by simp, List.drop_left]
        rw [hd] at h hne
        cases h
        refine ⟨root ++ '/' :: t.takeWhile isPathChar, t.dropWhile isPathChar, ?_, by simp; omega, ⟨root, hroot, _, rfl, ?_, ?_⟩, ?_⟩
        · rw [List.append_assoc, List.cons_append, List.takeWhile_append_dropWhile]
        · intro h0; rw [h0] at hne; exact hne rfl
        · intro c hc
          exact (isPathChar_iff c).1 (List.all_eq_true.1 (takeWhile_all _ _) _ hc)
        · intro c hc hp
          have := List.head?_dropWhile_not isPathChar t
          rw [Option.mem_def] at hc
          rw [hc] at this
          simp only at this
          rw [(isPathChar_iff c).2 hp] at this
          cases this
      · cases h
  · rintro w r ⟨⟨root, hroot, t, rfl, ht, hall⟩, hhead⟩
    refine ⟨by simp, ?_⟩
    unfold matchPath
    have e : root ++ '/' :: t ++ r = root ++ '/' :: (t ++ r) := by simp
    rw [(matchRoot_iff _ hr _ _).2 ⟨root, hroot, t ++ r, e, rfl⟩]
    simp only
    have hd : (root ++ '/' :: t ++ r).drop (root.length + 1) = t ++ r := by
      rw [show root ++ '/' :: t ++ r = (root ++ ['/']) ++ (t ++ r) by simp, show root.length + 1 = (root ++ ['/']).length by simp, List.drop_left]
    have htw : (t ++ r).takeWhile isPathChar = t := by
      refine (takeWhile_run ?_ ?_).1
      · rw [List.all_eq_true]
        exact fun c hc => (isPathChar_iff c).2 (hall c hc)
      · rw [headNot_iff]
        intro c hc
        rcases hb : isPathChar c with _ | _
        · rfl
        · exact absurd ((isPathChar_iff c).1 hb) (hhead c hc)
    rw [hd, htw, if_pos]
    · simp; omega
    · intro h0; exact ht (List.eq_nil_of_length_eq_zero h0)

theorem subn_replaced {m : Str → Option Nat} {P : Str → Str → Prop} (hm : MatchesOf m P) (new s : Str) (vs : List Str) (t : Str)
    (h : Spec.Replaced P s vs t) (hv : ∀ v ∈ vs, v = new) : (subn m new 0 s).1 = t := by
  induction h with
  | nil => rfl
  | keep c s vs t h hs ih => rw [subn_keep m new c s ((hm.none _).2 h), ih hv]
  | repl w r v vs t h hs ih =>
    rw [subn_hit m new w r (hm.2 w r h).1 (hm.2 w r h).2, ih (fun v hv' => hv v (List.mem_cons_of_mem _ hv')), hv v List.mem_cons_self]

theorem dataSoon_iff (p q : Str) : Spec.DataSoon p q ↔ q = dataSoon p := by
  unfold Spec.DataSoon dataSoon
  have hm := literal_matches "data_soon/".toList (by decide)
  rw [replaceGo_subn]
  constructor
  · rintro ⟨n, h⟩
    exact (subn_replaced hm _ _ _ _ h (fun v hv => List.eq_of_mem_replicate hv)).symm
  · rintro rfl
    refine ⟨(subn (fun s => if "data_soon/".toList.isPrefixOf s then some "data_soon/".toList.length else none) "data/".toList 0 p).2, ?_⟩
    obtain ⟨t, ht⟩ := replaced_exists hm "data/".toList p (List.replicate _ "data/".toList) List.length_replicate
    rw [subn_replaced hm _ _ _ _ ht (fun v hv => List.eq_of_mem_replicate hv)]
    exact ht

theorem last_two (a : Str) (h : 2 ≤ a.length) : ∃ u x y, a = u ++ [x, y] := by
  rcases List.eq_nil_or_concat a with rfl | ⟨z', hi, rfl⟩
  · simp at h
  · rcases List.eq_nil_or_concat z' with rfl | ⟨z'', lo, rfl⟩
    · simp at h
    · exact ⟨z'', lo, hi, by simp⟩

theorem leBefore_two (u : Str) (x y : Char) : leBefore (u ++ [x, y]) 2 = x.toNat + 256 * y.toNat := by
  unfold leBefore
  rw [show (u ++ [x, y]).length - 2 = u.length by simp, List.drop_left]
  rfl

theorem leBefore_four (u : Str) (x y z t : Char) :
    leBefore (u ++ [x, y, z, t]) 4 = x.toNat + 256 * (y.toNat + 256 * (z.toNat + 256 * t.toNat)) := by
  unfold leBefore
  rw [show (u ++ [x, y, z, t]).length - 4 = u.length by simp, List.drop_left]
  rfl

theorem lengthBefore_iff (a : Str) (n : Nat) : Spec.LengthBefore a n ↔
    2 ≤ a.length ∧ n = if leBefore a 2 = 0 && 4 ≤ a.length then leBefore a 4 else leBefore a 2 := by
  unfold Spec.LengthBefore
  constructor
  · rintro (⟨u, x, y, rfl, h1, h2⟩ | ⟨u, x, y, z, t, rfl, hz, ht, h1⟩)
    · refine ⟨by simp, ?_⟩
      rw [leBefore_two, ← h1, if_neg]
      rw [Bool.and_eq_true, decide_eq_true_eq, decide_eq_true_eq]
      omega
    · refine ⟨by simp, ?_⟩
      rw [leBefore_four, hz, ht, show u ++ [x, y, z, t] = (u ++ [x, y]) ++ [z, t] by simp, leBefore_two, hz, ht, if_pos (by simp)]
      omega
  · rintro ⟨h2, rfl⟩
    obtain ⟨u, z, t, rfl⟩ := last_two a h2
    rw [leBefore_two]
    by_cases hc : z.toNat + 256 * t.toNat = 0 ∧ 4 ≤ (u ++ [z, t]).length
    · right
      obtain ⟨u', x, y, rfl⟩ := last_two u (by have := hc.2; simp at this; omega)
      have hz : z.toNat = 0 := by omega
      have ht : t.toNat = 0 := by omega
      rw [if_pos (by simpa using hc), show u' ++ [x, y] ++ [z, t] = u' ++ [x, y, z, t] by simp, leBefore_four]
      exact ⟨u', x, y, z, t, rfl, hz, ht, by rw [hz, ht]; omega⟩
    · left
      rw [if_neg (by rw [Bool.and_eq_true, decide_eq_true_eq, decide_eq_true_eq]; exact hc)]
      exact ⟨u, z, t, rfl, rfl, by omega⟩

theorem length_lower (s : Str) : (lower s).length = s.length := by unfold lower; rw [List.length_map]

/-- The paths checked for other files -/
def fileCandidates (s : Str) : List Str := ((finditer matchPath [] 0 s).flatMap fun m => filePaths m.1 m.2.1).dedup.flatMap fileVariants

theorem grepFile_eq (H : Str → Int) (g : Guesser) (data : Bytes) : g.grepFile H data = g.checkIter H (fileCandidates (latin1 data)) :=
  foldl_checkIter H fileVariants _ g

theorem filePaths_mem (a w p : Str) : p ∈ filePaths a w ↔
    Spec.DataSoon (lower w) p ∨ ∃ n, Spec.LengthBefore a n ∧ n < w.length ∧ Spec.DataSoon ((lower w).take n) p := by
  unfold filePaths
  simp only [List.mem_cons, dataSoon_iff, lengthBefore_iff]
  refine or_congr_right ?_
  by_cases h2 : 2 ≤ a.length
  · rw [if_pos h2, length_lower]
    generalize (if (decide (leBefore a 2 = 0) && decide (4 ≤ a.length)) = true then leBefore a 4 else leBefore a 2) = n
    by_cases hn : n < w.length
    · rw [if_pos hn, List.mem_singleton]
      constructor
      · intro h; exact ⟨n, ⟨h2, rfl⟩, hn, h⟩
      · rintro ⟨_, ⟨-, rfl⟩, -, h⟩; exact h
    · rw [if_neg hn]
      simp only [List.not_mem_nil, false_iff]
      rintro ⟨_, ⟨-, rfl⟩, h, -⟩
      exact hn h
  · rw [if_neg h2]
    simp only [List.not_mem_nil, false_iff]
    rintro ⟨_, ⟨h, -⟩, -⟩
    exact h2 h

theorem fileCandidates_mem (s q : Str) : q ∈ fileCandidates s ↔ Spec.FileCand s q := by
  unfold fileCandidates Spec.FileCand
  have hv : ∀ p, q ∈ fileVariants p ↔ Spec.FileVariant p q := by
    intro p
    unfold fileVariants Spec.FileVariant
    by_cases h : ∃ t, p = t ++ ".lua".toList
    · rw [if_pos (endsWith_iff.2 h), if_pos h]; exact luaVariants p q h
    · rw [if_neg (mt endsWith_iff.1 h), if_neg h, List.mem_singleton]
  simp only [List.mem_flatMap, List.mem_dedup, hv]
  constructor
  · rintro ⟨p, ⟨⟨a, w, b⟩, hm, hp⟩, hq⟩
    exact ⟨a, w, b, p, (finditer_scan matchPath_matches _ _ _).1 hm, (filePaths_mem a w p).1 hp, hq⟩
  · rintro ⟨a, w, b, p, hm, hp, hq⟩
    exact ⟨p, ⟨(a, w, b), (finditer_scan matchPath_matches _ _ _).2 hm, (filePaths_mem a w p).2 hp⟩, hq⟩

/-- Other files: all the path-like texts are tried, whole and cut at the length in front of them. -/
theorem C58_file (H : Str → Int) (g : Guesser) (hg : Reached H g) (data : Bytes) :
    Spec.Guesses H g (g.grepFile H data) (Spec.FileCand (latin1 data)) := by
  rw [grepFile_eq]
  exact checkIter_guesses H g hg.inv.1 _ _ (fileCandidates_mem _)

/-! ## Wads -/

theorem grepEntry_ok (H : Str → Int) (f : GrepEntry) (hf : Spec.Greppable f) :
    ∃ ps, (∀ g : Guesser, g.grepEntry H f = (g.checkIter H ps, .ok ())) ∧ ∀ q, q ∈ ps ↔ Spec.GrepCand f q := by
  obtain ⟨type, ext, path, data⟩ := f
  have none_ : (∀ q, ¬ Spec.GrepCand ⟨type, ext, path, data⟩ q) → (∀ g : Guesser, g.grepEntry H ⟨type, ext, path, data⟩ = (g, .ok ())) →
      ∃ ps, (∀ g : Guesser, g.grepEntry H ⟨type, ext, path, data⟩ = (g.checkIter H ps, .ok ())) ∧
        ∀ q, q ∈ ps ↔ Spec.GrepCand ⟨type, ext, path, data⟩ q := fun h1 h2 =>
    ⟨[], fun g => by rw [checkIter_nil]; exact h2 g, fun q => by simp [h1 q]⟩
  by_cases ht : type = 2
  · exact none_ (fun q h => h.1 ht) (fun g => by unfold Guesser.grepEntry; rw [if_pos ht])
  by_cases hs : ext ∈ skippedExts.map some
  · refine none_ (fun q h => ?_) (fun g => by unfold Guesser.grepEntry; rw [if_neg ht, if_pos hs])
    obtain ⟨e, he, rfl⟩ := List.mem_map.1 hs
    obtain ⟨-, d, -, h2, -⟩ := h
    exact h2 he
  rcases data with _ | data
  · refine none_ (fun q h => ?_) (fun g => by unfold Guesser.grepEntry; rw [if_neg ht, if_neg hs])
    obtain ⟨-, d, h1, -⟩ := h
    cases h1
  have hc : ∀ q, Spec.GrepCand ⟨type, ext, path, some data⟩ q ↔ Spec.ContentCand ext path (latin1 data) q := by
    intro q
    constructor
    · rintro ⟨-, d, h1, h2⟩
      cases h1
      exact h2
    · exact fun h => ⟨ht, data, rfl, h⟩
  simp only [hc]
  have hgo : ∀ g : Guesser, g.grepEntry H ⟨type, ext, path, some data⟩ =
      g.grepContent H ext path data := fun g => by
    unfold Guesser.grepEntry
    rw [if_neg ht, if_neg hs]
  simp only [hgo]
  unfold Guesser.grepContent
  obtain ⟨hf1, hf2⟩ := hf data rfl
  simp only at hf1 hf2
  unfold Spec.ContentCand
  rcases ext with _ | ext
  · exact ⟨fileCandidates (latin1 data), fun g => by simp only [grepFile_eq], fileCandidates_mem _⟩
  have hs' : ext ∉ Spec.skippedExts := fun h => hs (List.mem_map.2 ⟨ext, h, rfl⟩)
  simp only [hs', not_false_eq_true, true_and]
  by_cases h1 : ext ∈ ["bin".toList, "inibin".toList]
  · refine ⟨binCandidates (latin1 data), fun g => ?_, fun q => by rw [if_pos h1]; exact binCandidates_mem _ _⟩
    rw [if_pos (by simpa only [List.mem_cons, List.not_mem_nil, or_false, Bool.or_eq_true, decide_eq_true_eq] using h1), grepBin_eq]
  have h1' : ¬ (decide (ext = "bin".toList) || decide (ext = "inibin".toList)) = true := by
    simpa only [List.mem_cons, List.not_mem_nil, or_false, Bool.or_eq_true, decide_eq_true_eq] using h1
  simp only [if_neg h1, if_neg h1']
  by_cases h2 : ext = "preload".toList
  · simp only [if_pos h2]
    obtain ⟨hA, hp⟩ := hf1 (by rw [h2])
    exact ⟨_, grepPreload_ok H path hp _ (fun x hx => hA x ((quotedTexts_mem _ _ _).1 hx)), preload_mem path _⟩
  simp only [if_neg h2]
  by_cases h3 : ext ∈ ["hls".toList, "ps_2_0".toList, "ps_3_0".toList, "vs_2_0".toList, "vs_3_0".toList]
  · simp only [if_pos h3]
    have hA := hf2 (by
      rw [show (["hls", "ps_2_0", "ps_3_0", "vs_2_0", "vs_3_0"].map fun e => some e.toList) =
        ["hls".toList, "ps_2_0".toList, "ps_3_0".toList, "vs_2_0".toList, "vs_3_0".toList].map some from rfl]
      exact List.mem_map.2 ⟨ext, h3, rfl⟩)
    unfold Spec.ShaderCand
    rcases path with _ | ⟨_ | ⟨c, p⟩⟩
    · refine ⟨[], fun g => by rw [checkIter_nil]; rfl, fun q => ?_⟩
      simp
    · refine ⟨[], fun g => by rw [checkIter_nil]; rfl, fun q => ?_⟩
      simp
    · refine ⟨_, fun g => grepShader_ok H _ _ (fun x hx => hA x ((quotedTexts_mem _ _ _).1 hx)) g, fun q => ?_⟩
      rw [List.mem_map]
      constructor
      · rintro ⟨x, hx, rfl⟩
        exact ⟨_, x, rfl, by simp, (quotedTexts_mem _ _ _).1 hx, rfl⟩
      · rintro ⟨p', x, hp', -, hx, rfl⟩
        cases hp'
        exact ⟨x, (quotedTexts_mem _ _ _).2 hx, rfl⟩
  simp only [if_neg h3]
  by_cases h4 : ext = "atlas".toList
  · simp only [if_pos h4]
    unfold Spec.AtlasCand
    rcases path with _ | ⟨_ | ⟨c, p⟩⟩
    · refine ⟨[], fun g => by rw [checkIter_nil]; rfl, fun q => ?_⟩
      simp
    · refine ⟨[], fun g => by rw [checkIter_nil]; rfl, fun q => ?_⟩
      simp
    · refine ⟨_, fun g => rfl, fun q => ?_⟩
      simp only [List.mem_map, List.mem_filter, splitChar_mem, isAscii_iff]
      constructor
      · rintro ⟨l, ⟨⟨h5, h6⟩, h7⟩, rfl⟩
        exact ⟨_, l, rfl, by simp, h7, h5, h6, rfl⟩
      · rintro ⟨p', l, hp', -, h7, h5, h6, rfl⟩
        cases hp'
        exact ⟨l, ⟨⟨h5, h6⟩, h7⟩, rfl⟩
  simp only [if_neg h4]
  exact ⟨fileCandidates (latin1 data), fun g => by simp only [grepFile_eq], fileCandidates_mem _⟩

/-- All the files of a wad are searched, each according to its type. -/
theorem C58_wad (H : Str → Int) (g : Guesser) (hg : Reached H g) (files : List GrepEntry) (hf : ∀ f ∈ files, Spec.Greppable f) :
    (g.grepWad H files).2 = .ok () ∧ Spec.Guesses H g (g.grepWad H files).1 (fun q => ∃ f ∈ files, Spec.GrepCand f q) := by
  have key : ∃ ps, (∀ g : Guesser, g.grepWad H files = (g.checkIter H ps, .ok ())) ∧ ∀ q, q ∈ ps ↔ ∃ f ∈ files, Spec.GrepCand f q := by
    clear hg g
    induction files with
    | nil => exact ⟨[], fun g => by rw [checkIter_nil]; rfl, by simp⟩
    | cons f fs ih =>
      obtain ⟨ps, h1, h2⟩ := grepEntry_ok H f (hf f List.mem_cons_self)
      obtain ⟨qs, h3, h4⟩ := ih (fun f' hf' => hf f' (List.mem_cons_of_mem _ hf'))
      refine ⟨ps ++ qs, fun g => ?_, fun q => ?_⟩
      · rw [Guesser.grepWad, h1]
        simp only
        rw [h3, (C46_calls H g _ _).1]
      · rw [List.mem_append, h2, h4]
        simp only [List.mem_cons, exists_eq_or_imp]
  obtain ⟨ps, h1, h2⟩ := key
  rw [h1]
  exact ⟨rfl, checkIter_guesses H g hg.inv.1 _ _ h2⟩

/-- A name that is not in ASCII, in a preload file, stops the search of the wad: the next files are not searched. -/
theorem C58_not_ascii (H : Str → Int) (g : Guesser) (pre post : List GrepEntry) (hf : ∀ f ∈ pre, Spec.Greppable f) (type : Nat) (path : Option Str)
    (data : Bytes) (ht : type ≠ 2) (x : Str) (hx : Spec.QuotedIn "Name=".toList (latin1 data) x) (hA : ¬ Spec.AsciiText x)
    (hp : ∀ p, path = some p → '%' ∉ dirname p) :
    (g.grepWad H (pre ++ ⟨type, some "preload".toList, path, some data⟩ :: post)).2 = .error .unicode := by
  induction pre generalizing g with
  | nil =>
    have hp : ∀ (names : List Str) (g : Guesser), x ∈ names → (g.grepPreload H path names).2 = .error .unicode := by
      intro names
      induction names with
      | nil => intro g h; cases h
      | cons n ns ih =>
        intro g h
        rw [Guesser.grepPreload]
        by_cases hn : Spec.AsciiText n
        · rw [checkPreload_ok H g path n hn hp]
          simp only
          rcases List.mem_cons.1 h with rfl | h
          · exact absurd hn hA
          · exact ih _ h
        · have : g.checkPreload H path n = (g, .error .unicode) := by
            unfold Guesser.checkPreload
            rw [if_pos]
            rcases hb : isAscii n with _ | _
            · rfl
            · exact absurd ((isAscii_iff n).1 hb) hn
          rw [this]
    have he : g.grepEntry H ⟨type, some "preload".toList, path, some data⟩ =
        g.grepPreload H path (quotedTexts "Name=".toList (latin1 data)) := by
      unfold Guesser.grepEntry
      rw [if_neg ht, if_neg (by show some "preload".toList ∉ _; decide +kernel)]
      simp only
      unfold Guesser.grepContent
      simp only
      rw [if_neg (by decide), if_pos trivial]
    rw [List.nil_append, Guesser.grepWad, he]
    have := hp _ g ((quotedTexts_mem _ _ _).2 hx)
    generalize g.grepPreload H path (quotedTexts "Name=".toList (latin1 data)) = z at this
    obtain ⟨g', r⟩ := z
    simp only at this
    subst this
    rfl
  | cons f fs ih =>
    obtain ⟨ps, h1, -⟩ := grepEntry_ok H f (hf f List.mem_cons_self)
    rw [List.cons_append, Guesser.grepWad, h1]
    simp only
    exact ih _ (fun f' hf' => hf f' (List.mem_cons_of_mem _ hf'))

/-! ## Examples -/

/-- Bytes of an ASCII text -/
def asciiBytes (s : String) : Bytes := s.toList.map fun c => UInt8.ofNat c.toNat

/-- A path in a bin file, with its length (12) in front of it -/
example : Spec.BinCand (latin1 (9 :: 12 :: 0 :: asciiBytes "ASSETS/a.png" ++ [0, 255])) "assets/a.dds".toList ∧
    Spec.BinVariant "assets/a.png".toList "assets/a.dds".toList := by
  have h : Spec.BinVariant "assets/a.png".toList "assets/a.dds".toList := (binVariants_iff _ _).1 (by decide +kernel)
  exact ⟨(binCandidates_mem _ _).1 (by decide +kernel), h⟩

/-- A path-like text of another file: whole, and cut at the length (10) in front of it -/
example : Spec.FileCand (latin1 (10 :: 0 :: asciiBytes "DATA_SOON/x.lua!")) "data/x.luabin".toList ∧
    Spec.FileCand (latin1 (10 :: 0 :: asciiBytes "DATA_SOON/x.lua!")) "data/".toList ∧
    Spec.FileCand (latin1 (12 :: 0 :: 0 :: 0 :: asciiBytes "LEVELS/x.abcd")) "levels/x.abc".toList :=
  ⟨(fileCandidates_mem _ _).1 (by decide +kernel), (fileCandidates_mem _ _).1 (by decide +kernel), (fileCandidates_mem _ _).1 (by decide +kernel)⟩

/-- A wad that meets the hypothesis, and what is found in it, for hashes being lengths -/
example : let H : Str → Int := fun s => s.length
    let files : List GrepEntry := [⟨0, some "bin".toList, none, some (9 :: 12 :: 0 :: asciiBytes "ASSETS/a.png" ++ [0, 255])⟩,
      ⟨2, some "bin".toList, none, some (9 :: 13 :: 0 :: asciiBytes "ASSETS/bb.png")⟩,
      ⟨0, some "preload".toList, some "a/b.preload".toList, some (asciiBytes "<x Name=\"C.troy\"><x Name=\"ee\">")⟩,
      ⟨0, some "hls".toList, some "s/t/u.hls".toList, some (asciiBytes "#include \"../V.hls\"")⟩,
      ⟨0, some "atlas".toList, some "s/t/u".toList, some (asciiBytes "A.png\n" ++ [255])⟩,
      ⟨0, none, none, some (10 :: 0 :: asciiBytes "DATA_SOON/x.lua!")⟩, ⟨0, some "txt".toList, none, none⟩]
    let g := Guesser.init [] [5, 7, 9, 10, 12, 13, 31]
    (∀ f ∈ files, Spec.Greppable f) ∧ (g.grepWad H files).2 = .ok () ∧ (g.grepWad H files).1.known.get? 12 = some "assets/a.png".toList ∧
    (g.grepWad H files).1.known.get? 13 = some "data/x.luabin".toList ∧ (g.grepWad H files).1.known.get? 31 = some "data/shared/particles/c.troybin".toList ∧
    (g.grepWad H files).1.known.get? 7 = some "s/v.hls".toList ∧ (g.grepWad H files).1.known.get? 9 = some "s/t/a.png".toList ∧
    (g.grepWad H files).1.known.get? 10 = some "data/x.lua".toList := by
  refine ⟨?_, by decide +kernel, by decide +kernel, by decide +kernel, by decide +kernel, by decide +kernel, by decide +kernel, by decide +kernel⟩
  simp only [List.forall_mem_cons, List.not_mem_nil, false_imp_iff, implies_true, and_true]
  refine ⟨?_, ?_, ?_, ?_, ?_, ?_, ?_⟩ <;> rintro data h <;> cases h <;> refine ⟨fun he => ⟨fun x hx => ?_, ?_⟩, fun he x hx => ?_⟩ <;>
    first
    | (exfalso; revert he; decide +kernel)
    | (rw [← quotedTexts_mem] at hx; rw [← isAscii_iff]; revert x; decide +kernel)
    | (rintro p hp; cases hp; decide +kernel)

/-- A preload file with a name that is not in ASCII -/
example : Spec.QuotedIn "Name=".toList (latin1 (asciiBytes "Name=\"a" ++ 255 :: asciiBytes "\"")) ['a', Char.ofNat 255] ∧ ¬ Spec.AsciiText ['a', Char.ofNat 255] :=
  ⟨(quotedTexts_mem _ _ _).1 (by decide +kernel), by unfold Spec.AsciiText; decide +kernel⟩

end Cdtb
