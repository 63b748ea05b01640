import Verif.Lemmas.Guess
import Verif.Props.C47
/-!
# C55  What guessing methods find: basenames, extensions, prefixes, game files

`Spec.Guesses H g g' cands`: checking exactly the candidates `cands` changes the guesser `g` to `g'`. Statements hold for any hash
function and all guessers obtained by any calls.
-/
namespace Cdtb
set_option autoImplicit false
open Py

theorem directoryList_mem (g : Guesser) (hd : g.dirs = none) (d : Str) :
    d ∈ (g.directoryList true).2 ↔ ∃ h p, (h, p) ∈ g.known ∧ Spec.Ancestor p d := by
  have h1 : (g.directoryList true).2 = (g.directoryList false).2 := by
    unfold Guesser.directoryList
    rw [hd]
  rw [h1]
  exact (C47_ancestors g).2 d

/-- `check_basenames`: the names in all the ancestor directories of known paths. -/
theorem C55_basenames (H : Str → Int) (g : Guesser) (hg : Reached H g) (hd : g.dirs = none) (names : List Str) :
    Spec.Guesses H g (g.checkBasenames H names)
      (fun q => ∃ name ∈ names, ∃ h p d, (h, p) ∈ g.known ∧ Spec.Ancestor p d ∧ q = d ++ '/' :: name) := by
  unfold Guesser.checkBasenames
  simp only [Guesser.checkNames]
  rw [foldl_checkIter H (fun name => (g.directoryList true).2.map fun dir => dir ++ '/' :: name)]
  refine (checkIter_guesses H _ ?_ _ _ fun q => ?_).of_eq (directoryList_unknown g true).1 (directoryList_unknown g true).2
  · rw [(directoryList_unknown g true).1]; exact hg.inv.1
  · simp only [List.mem_flatMap, (List.perm_insertionSort _ _).mem_iff, List.mem_map, directoryList_mem g hd]
    constructor
    · rintro ⟨n, hn, d, ⟨h, p, hp, ha⟩, rfl⟩; exact ⟨n, hn, h, p, d, hp, ha, rfl⟩
    · rintro ⟨n, hn, h, p, d, hp, ha, rfl⟩; exact ⟨n, hn, d, ⟨h, p, hp, ha⟩, rfl⟩

/-- `substitute_basenames`: the basenames of known paths in all their ancestor directories. -/
theorem C55_substitute_basenames (H : Str → Int) (g : Guesser) (hg : Reached H g) (hd : g.dirs = none) :
    Spec.Guesses H g (g.substituteBasenames H)
      (fun q => ∃ h p h' p' d, (h, p) ∈ g.known ∧ (h', p') ∈ g.known ∧ Spec.Ancestor p d ∧ q = d ++ '/' :: basename p') := by
  unfold Guesser.substituteBasenames
  simp only [Guesser.checkNames]
  rw [foldl_checkIter H (fun name => (g.directoryList true).2.map fun dir => dir ++ '/' :: name)]
  refine (checkIter_guesses H _ ?_ _ _ fun q => ?_).of_eq (directoryList_unknown g true).1 (directoryList_unknown g true).2
  · rw [(directoryList_unknown g true).1]; exact hg.inv.1
  · simp only [List.mem_flatMap, sortedSet, (List.perm_insertionSort _ _).mem_iff, List.mem_dedup, List.mem_map, directoryList_mem g hd,
      mem_values]
    constructor
    · rintro ⟨_, ⟨p', ⟨h', hp'⟩, rfl⟩, d, ⟨h, p, hp, ha⟩, rfl⟩; exact ⟨h, p, h', p', d, hp, hp', ha, rfl⟩
    · rintro ⟨h, p, h', p', d, hp, hp', ha, rfl⟩; exact ⟨_, ⟨p', ⟨h', hp'⟩, rfl⟩, d, ⟨h, p, hp, ha⟩, rfl⟩

theorem Spec.Guesses.sound {H : Str → Int} {g g' : Guesser} {cands : Str → Prop} (h : Spec.Guesses H g g' cands) (hg : Reached H g)
    (k : Int) (hk : k ∈ g.unknown) (q : Str) (hq : g'.known.get? k = some q) : cands q ∧ H q = k := by
  by_cases hex : ∃ p, cands p ∧ H p = k
  · obtain ⟨p, h1, h2, h3⟩ := h.found k hk hex
    rw [hq] at h3
    cases h3
    exact ⟨h1, h2⟩
  · rw [h.kept k (.inr hex), hg.inv.2 k hk] at hq
    simp at hq

/-- Files of the root directory are never found this way: what is found contains a slash. -/
theorem C55_root (H : Str → Int) (g : Guesser) (hg : Reached H g) (hd : g.dirs = none) (names : List Str) (k : Int) (hk : k ∈ g.unknown)
    (q : Str) :
    ((g.checkBasenames H names).known.get? k = some q → '/' ∈ q) ∧ ((g.substituteBasenames H).known.get? k = some q → '/' ∈ q) := by
  constructor
  · intro h
    obtain ⟨⟨_, _, _, _, _, _, _, rfl⟩, -⟩ := (C55_basenames H g hg hd names).sound hg k hk q h
    simp
  · intro h
    obtain ⟨⟨_, _, _, _, _, _, _, _, rfl⟩, -⟩ := (C55_substitute_basenames H g hg hd).sound hg k hk q h
    simp

/-- `substitute_extensions`: all known paths with all known extensions, except extensions ending with `00`. -/
theorem C55_extensions (H : Str → Int) (g : Guesser) (hg : Reached H g) :
    Spec.Guesses H g (g.substituteExtensions H)
      (fun q => ∃ h p h' p', (h, p) ∈ g.known ∧ (h', p') ∈ g.known ∧ (∀ e, (splitext p').2 ≠ e ++ ['0', '0']) ∧
        q = (splitext p).1 ++ (splitext p').2) := by
  unfold Guesser.substituteExtensions
  simp only
  rw [foldl_checkIter H (fun prefix_ => ((((g.known.values.map splitext).map (·.2)).filter
    fun e => !endsWith e "00".toList).dedup).map fun ext => prefix_ ++ ext)]
  refine checkIter_guesses H _ hg.inv.1 _ _ fun q => ?_
  have h00 : ∀ e : Str, (!endsWith e "00".toList) = true ↔ ∀ a, e ≠ a ++ ['0', '0'] := by
    intro e
    rw [Bool.not_eq_true', ← Bool.not_eq_true, endsWith_iff]
    simp only [not_exists]
    rfl
  simp only [List.mem_flatMap, sortedSet, (List.perm_insertionSort _ _).mem_iff, List.mem_dedup, List.mem_map, List.mem_filter,
    mem_values, h00]
  constructor
  · rintro ⟨_, ⟨_, ⟨p, ⟨h, hp⟩, rfl⟩, rfl⟩, _, ⟨⟨_, ⟨p', ⟨h', hp'⟩, rfl⟩, rfl⟩, he⟩, rfl⟩
    exact ⟨h, p, h', p', hp, hp', he, rfl⟩
  · rintro ⟨h, p, h', p', hp, hp', he, rfl⟩
    exact ⟨_, ⟨_, ⟨p, ⟨h, hp⟩, rfl⟩, rfl⟩, _, ⟨⟨_, ⟨p', ⟨h', hp'⟩, rfl⟩, rfl⟩, he⟩, rfl⟩

/-- `check_basename_prefixes`: known paths with a prefix added to their basename (by default for images of other sizes). -/
theorem C55_prefixes (H : Str → Int) (g : Guesser) (hg : Reached H g) (prefixes : List Str) :
    Spec.Guesses H g (g.checkPrefixes H (some prefixes))
      (fun q => ∃ h p x, (h, p) ∈ g.known ∧ x ∈ prefixes ∧ q = (if dirname p = [] then [] else dirname p ++ ['/']) ++ x ++ basename p) ∧
    g.checkPrefixes H none = g.checkPrefixes H (some ["2x_".toList, "2x_sd_".toList, "4x_".toList, "4x_sd_".toList, "sd_".toList]) := by
  refine ⟨?_, rfl⟩
  refine checkIter_guesses H _ hg.inv.1 _ _ fun q => ?_
  simp only [prefixedPaths, List.mem_dedup, List.mem_flatMap, List.mem_map, mem_values, Option.getD_some]
  constructor
  · rintro ⟨p, ⟨h, hp⟩, x, hx, rfl⟩
    refine ⟨h, p, x, hp, hx, ?_⟩
    by_cases hd : (psplit p).1 = [] <;> simp [dirname, basename, hd]
  · rintro ⟨h, p, x, hp, hx, rfl⟩
    refine ⟨p, ⟨h, hp⟩, x, hx, ?_⟩
    by_cases hd : (psplit p).1 = [] <;> simp [dirname, basename, hd]

/-- Base of the paths of game files in the client -/
def gameDataBase : Str := "plugins/rcp-be-lol-game-data/global/default/".toList

/-- Candidates for a game file -/
def gameCandidates (p : Str) : List Str :=
  if (splitext p).2 = ".dds".toList then [gameDataBase ++ (splitext p).1 ++ ".png".toList, gameDataBase ++ (splitext p).1 ++ ".jpg".toList]
  else if (splitext p).2 = ".json".toList then [gameDataBase ++ p] else []

theorem gameDataBase_eq (x : Str) : "plugins/rcp-be-lol-game-data/global/default".toList ++ '/' :: x = gameDataBase ++ x := by
  have : gameDataBase = "plugins/rcp-be-lol-game-data/global/default".toList ++ ['/'] := by decide +kernel
  rw [this, List.append_assoc]; rfl

theorem gameCandidates_mem (p q : Str) : q ∈ gameCandidates p ↔ ((splitext p).2 = ".dds".toList ∧
      (q = gameDataBase ++ (splitext p).1 ++ ".png".toList ∨ q = gameDataBase ++ (splitext p).1 ++ ".jpg".toList)) ∨
    ((splitext p).2 = ".json".toList ∧ q = gameDataBase ++ p) := by
  unfold gameCandidates
  have hne : ¬ ".json".toList = ".dds".toList := by decide +kernel
  by_cases h1 : (splitext p).2 = ".dds".toList
  · have h2 : ¬ (splitext p).2 = ".json".toList := fun h => hne (h.symm.trans h1)
    rw [if_pos h1]
    simp only [h1, List.mem_cons, List.not_mem_nil, or_false, true_and]
    constructor
    · exact .inl
    · rintro (h | h)
      · exact h
      · exact absurd h.1.symm hne
  · rw [if_neg h1]
    by_cases h2 : (splitext p).2 = ".json".toList
    · rw [if_pos h2]
      simp only [List.mem_singleton]
      exact ⟨fun h => .inr ⟨h2, h⟩, fun h => h.elim (fun h => absurd h.1 h1) (·.2)⟩
    · rw [if_neg h2]
      exact ⟨fun h => absurd h List.not_mem_nil, fun h => h.elim (fun h => absurd h.1 h1) (fun h => absurd h.1 h2)⟩

theorem guessFromGame_eq (H : Str → Int) (g : Guesser) (paths : List Str) :
    g.guessFromGame H paths = paths.foldl (fun g p => g.checkIter H (gameCandidates p)) g := by
  unfold Guesser.guessFromGame
  congr 1
  funext g p
  simp only [gameDataBase_eq, gameCandidates]
  by_cases h1 : (splitext p).2 = ".dds".toList
  · rw [if_pos h1, if_pos h1, checkIter_eq]
    simp only [List.foldl_cons, List.foldl_nil, List.append_assoc]
  · rw [if_neg h1, if_neg h1]
    by_cases h2 : (splitext p).2 = ".json".toList
    · rw [if_pos h2, if_pos h2, checkIter_single]
    · rw [if_neg h2, if_neg h2, checkIter_eq]; rfl

/-- `guess_from_game_hashes`: images (as `png` and `jpg`) and JSON files of the game. -/
theorem C55_from_game (H : Str → Int) (g : Guesser) (hg : Reached H g) (paths : List Str) :
    Spec.Guesses H g (g.guessFromGame H paths)
      (fun q => ∃ p ∈ paths, ((splitext p).2 = ".dds".toList ∧
          (q = gameDataBase ++ (splitext p).1 ++ ".png".toList ∨ q = gameDataBase ++ (splitext p).1 ++ ".jpg".toList)) ∨
        ((splitext p).2 = ".json".toList ∧ q = gameDataBase ++ p)) := by
  rw [guessFromGame_eq, foldl_checkIter]
  refine checkIter_guesses H _ hg.inv.1 _ _ fun q => ?_
  simp only [List.mem_flatMap, gameCandidates_mem]

theorem check_length (H : Str → Int) (g : Guesser) (hi : ∀ k ∈ g.unknown, g.known.get? k = none) (p : Str) :
    (g.check H p).known.length = g.known.length ↔ H p ∉ g.unknown := by
  unfold Guesser.check
  simp only
  split
  · rename_i hu
    have hn := hi _ hu
    have : (g.known.set (H p) p).length = g.known.length + 1 := by
      clear hi hu
      generalize g.known = d at hn
      induction d with
      | nil => rfl
      | cons kv d ih =>
        have hne : kv.1 ≠ H p := by
          intro he
          simp [Dict.get?, he] at hn
        have hn' : Dict.get? d (H p) = none := by
          simpa [Dict.get?, hne] using hn
        simp [Dict.set, hne, ih hn']
    simp only [Guesser.addKnown, this, hu, not_true_eq_false, iff_false]
    omega
  · rename_i hu
    simp [hu]

theorem check_inv (H : Str → Int) (g : Guesser) {p : Str} (hu : H p ∉ g.unknown) : g.check H p = g := by
  unfold Guesser.check; simp [hu]

/-- The last step of `guess_patterns`, on loot icons: it succeeds only when it finds nothing; as soon as a hash is found the loop
raises `RuntimeError` and the next icons are not checked. -/
theorem C55_loot (H : Str → Int) (g : Guesser) (hg : Reached H g) :
    (∀ g', g.guessLoot H = (g', .ok ()) → g' = g) ∧
    ((∃ h p c, (h, p) ∈ g.known ∧ lootCandidate p = some c ∧ H c ∈ g.unknown) →
      ∃ p c g', (∃ h, (h, p) ∈ g.known) ∧ lootCandidate p = some c ∧ H c ∈ g.unknown ∧ g.guessLoot H = (g', .error .runtime) ∧
        g' = g.check H c) := by
  have hi := hg.inv.2
  have key : ∀ ps : List Str,
      (∀ g', g.liveIter H lootCandidate ps = (g', .ok ()) → g' = g) ∧
      ((∃ p ∈ ps, ∃ c, lootCandidate p = some c ∧ H c ∈ g.unknown) →
        ∃ p c g', p ∈ ps ∧ lootCandidate p = some c ∧ H c ∈ g.unknown ∧ g.liveIter H lootCandidate ps = (g', .error .runtime) ∧
          g' = g.check H c) := by
    intro ps
    induction ps with
    | nil => exact ⟨fun g' h => by simpa [Guesser.liveIter] using h.symm, by simp⟩
    | cons p ps ih =>
      cases hc : lootCandidate p with
      | none =>
        have e : g.liveIter H lootCandidate (p :: ps) = g.liveIter H lootCandidate ps := by rw [Guesser.liveIter, hc]
        rw [e]
        refine ⟨ih.1, ?_⟩
        rintro ⟨q, hq, c, h1, h2⟩
        rcases List.mem_cons.1 hq with rfl | hq
        · rw [hc] at h1; simp at h1
        · obtain ⟨p', c', g', a, b⟩ := ih.2 ⟨q, hq, c, h1, h2⟩
          exact ⟨p', c', g', List.mem_cons_of_mem _ a, b⟩
      | some c =>
        by_cases hu : H c ∈ g.unknown
        · have hl : ¬ (g.check H c).known.length = g.known.length := fun h => (check_length H g hi c).1 h hu
          have e : g.liveIter H lootCandidate (p :: ps) = (g.check H c, .error .runtime) := by
            rw [Guesser.liveIter, hc]
            simp only [if_neg hl]
          rw [e]
          exact ⟨fun g' h => by simp at h, fun _ => ⟨p, c, _, List.mem_cons_self, hc, hu, rfl, rfl⟩⟩
        · have e : g.liveIter H lootCandidate (p :: ps) = g.liveIter H lootCandidate ps := by
            rw [Guesser.liveIter, hc]
            simp only [check_inv H g hu]
            rw [if_pos trivial]
          rw [e]
          refine ⟨ih.1, ?_⟩
          rintro ⟨q, hq, c', h1, h2⟩
          rcases List.mem_cons.1 hq with rfl | hq
          · rw [hc] at h1; simp only [Option.some.injEq] at h1; subst h1; exact absurd h2 hu
          · obtain ⟨p', c', g', a, b⟩ := ih.2 ⟨q, hq, c', h1, h2⟩
            exact ⟨p', c', g', List.mem_cons_of_mem _ a, b⟩
  obtain ⟨k1, k2⟩ := key g.known.values
  refine ⟨k1, ?_⟩
  rintro ⟨h, p, c, hp, hc, hu⟩
  obtain ⟨p', c', g', a, b⟩ := k2 ⟨p, mem_values.2 ⟨h, hp⟩, c, hc, hu⟩
  exact ⟨p', c', g', mem_values.1 a, b⟩

/-- The icons concerned: those of the loot plugin, with `.png` replaced everywhere. -/
example : lootCandidate "plugins/rcp-fe-lol-loot/global/default/assets/loot_item_icons/chest_1.png".toList =
    some "plugins/rcp-fe-lol-loot/global/default/assets/loot_item_icons/chest_1_splash.png".toList ∧
    lootCandidate "plugins/rcp-fe-lol-loot/global/default/x.png".toList = none := by decide +kernel

/-- The hypotheses are met: a guesser that knows two paths, and what the methods find for hashes being lengths. -/
example : let H : Str → Int := fun s => s.length
    let g := Guesser.init [(1, "a/b.txt".toList), (2, "c.js".toList)] [1, 6, 8, 10, 100]
    (g.substituteBasenames H).known.get? 6 = some "/b.txt".toList ∧ (g.substituteBasenames H).unknown = [8, 10, 100] ∧
    (g.substituteExtensions H).known.get? 6 = some "a/b.js".toList ∧
    (g.checkBasenames H ["x.html".toList]).known.get? 8 = some "a/x.html".toList ∧
    (g.checkPrefixes H (some ["sd_".toList])).known.get? 10 = some "a/sd_b.txt".toList := by decide +kernel

end Cdtb
