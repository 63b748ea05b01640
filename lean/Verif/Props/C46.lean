import Verif.Props.C45
/-!
# C46  Hash guessing finds the same hashes in any candidate order

Statements hold for all guessers obtained from any table and any hashes, after any calls (`Reached`).
-/
namespace Cdtb
set_option autoImplicit false
open Py

/-- A guesser in use -/
def Reached (H : Str → Int) (g : Guesser) : Prop := ∃ known hashes ops, g = (Guesser.init known hashes).run H ops

theorem Reached.inv {H : Str → Int} {g : Guesser} (h : Reached H g) : g.unknown.Nodup ∧ ∀ k ∈ g.unknown, g.known.get? k = none := by
  obtain ⟨known, hashes, ops, rfl⟩ := h
  have hi := (Guesser.Inv.init H known hashes).run ops
  exact ⟨hi.nodup, hi.disjoint⟩

theorem Reached.step {H : Str → Int} {g : Guesser} (h : Reached H g) (op : GuessOp) : Reached H (g.step H op) := by
  obtain ⟨known, hashes, ops, rfl⟩ := h
  exact ⟨known, hashes, ops ++ [op], by simp [Guesser.run]⟩

theorem check_spec (H : Str → Int) (g : Guesser) (hn : g.unknown.Nodup) (p : Str) :
    (∀ h, h ∈ (g.check H p).unknown ↔ h ∈ g.unknown ∧ H p ≠ h) ∧
    (∀ h, (g.check H p).known.get? h = if h ∈ g.unknown ∧ H p = h then some p else g.known.get? h) ∧ (g.check H p).unknown.Nodup := by
  unfold Guesser.check
  simp only
  split
  · rename_i hu
    refine ⟨fun h => ?_, fun h => ?_, hn.erase _⟩
    · simp only [Guesser.addKnown, hn.mem_erase_iff]
      exact ⟨fun ⟨a, b⟩ => ⟨b, Ne.symm a⟩, fun ⟨a, b⟩ => ⟨Ne.symm b, a⟩⟩
    · simp only [Guesser.addKnown, Dict.get?_set]
      by_cases he : h = H p
      · subst he; simp [hu]
      · simp [he, Ne.symm he]
  · rename_i hu
    refine ⟨fun h => ?_, fun h => ?_, hn⟩
    · refine ⟨fun hh => ⟨hh, ?_⟩, fun hh => hh.1⟩
      rintro rfl; exact hu hh
    · rw [if_neg]
      rintro ⟨h1, rfl⟩; exact hu h1

theorem checkIter_spec (H : Str → Int) (g : Guesser) (hn : g.unknown.Nodup) (ps : List Str) :
    (∀ h, h ∈ (g.checkIter H ps).unknown ↔ h ∈ g.unknown ∧ ∀ p ∈ ps, H p ≠ h) ∧
    (∀ h, (g.checkIter H ps).known.get? h = if h ∈ g.unknown then (ps.find? fun p => H p = h).or (g.known.get? h) else g.known.get? h) ∧
    (g.checkIter H ps).unknown.Nodup := by
  rw [checkIter_eq]
  induction ps generalizing g with
  | nil => exact ⟨by simp, by simp, hn⟩
  | cons p ps ih =>
    obtain ⟨c1, c2, c3⟩ := check_spec H g hn p
    obtain ⟨i1, i2, i3⟩ := ih (g.check H p) c3
    refine ⟨?_, ?_, i3⟩
    · intro h
      rw [List.foldl_cons, i1, c1]
      simp [and_assoc]
    · intro h
      rw [List.foldl_cons, i2, c2]
      by_cases hu : h ∈ g.unknown
      · by_cases he : H p = h
        · have : h ∉ (g.check H p).unknown := fun hh => ((c1 h).1 hh).2 he
          simp [hu, he, this]
        · have : h ∈ (g.check H p).unknown := (c1 h).2 ⟨hu, he⟩
          simp [hu, he, this]
      · have : h ∉ (g.check H p).unknown := fun hh => hu ((c1 h).1 hh).1
        simp [hu, this]

/-- Checking some candidates resolves the unknown hashes that some candidate has, and only these; the first candidate with the
hash is recorded. -/
theorem C46_resolved (H : Str → Int) (g : Guesser) (hg : Reached H g) (ps : List Str) (h : Int) :
    (h ∈ (g.checkIter H ps).unknown ↔ h ∈ g.unknown ∧ ¬ ∃ p ∈ ps, H p = h) ∧
    (∀ before p after, ps = before ++ p :: after → (∀ q ∈ before, H q ≠ h) → H p = h → h ∈ g.unknown →
      (g.checkIter H ps).known.get? h = some p) ∧
    (h ∉ g.unknown ∨ (∀ p ∈ ps, H p ≠ h) → (g.checkIter H ps).known.get? h = g.known.get? h) := by
  obtain ⟨s1, s2, _⟩ := checkIter_spec H g hg.inv.1 ps
  refine ⟨?_, ?_, ?_⟩
  · rw [s1]; simp
  · rintro before p after rfl h1 h2 h3
    rw [s2, if_pos h3, List.find?_append, List.find?_eq_none.2 (by simpa using h1)]
    simp [h2]
  · rintro (h1 | h1)
    · rw [s2, if_neg h1]
    · rw [s2, List.find?_eq_none.2 (by simpa using h1)]
      simp

/-- The order and the repetitions of candidates do not matter: the same hashes are resolved. If no two candidates have the same
hash, the same table is obtained. -/
theorem C46_order (H : Str → Int) (g : Guesser) (hg : Reached H g) (ps qs : List Str) (hpq : ∀ p, p ∈ ps ↔ p ∈ qs) :
    (∀ h, h ∈ (g.checkIter H ps).unknown ↔ h ∈ (g.checkIter H qs).unknown) ∧
    (∀ h, (g.checkIter H ps).known.get? h = none ↔ (g.checkIter H qs).known.get? h = none) ∧
    ((∀ p ∈ ps, ∀ q ∈ ps, H p = H q → p = q) → ∀ h, (g.checkIter H ps).known.get? h = (g.checkIter H qs).known.get? h) := by
  obtain ⟨s1, s2, _⟩ := checkIter_spec H g hg.inv.1 ps
  obtain ⟨t1, t2, _⟩ := checkIter_spec H g hg.inv.1 qs
  have hnone : ∀ h, (ps.find? fun p => H p = h) = none ↔ (qs.find? fun p => H p = h) = none := by
    intro h
    simp only [List.find?_eq_none, decide_eq_true_eq, hpq]
  refine ⟨fun h => ?_, fun h => ?_, fun hinj h => ?_⟩
  · rw [s1, t1]; simp [hpq]
  · rw [s2, t2]
    split
    · simp [hnone]
    · rfl
  · rw [s2, t2]
    split
    · congr 1
      rcases hf : ps.find? fun p => H p = h with _ | p
      · exact ((hnone h).1 hf).symm
      · rcases hf' : qs.find? fun p => H p = h with _ | q
        · rw [(hnone h).2 hf'] at hf; simp at hf
        · have h1 := List.find?_some hf
          have h2 := List.find?_some hf'
          have h1' : H p = h := of_decide_eq_true h1
          have h2' : H q = h := of_decide_eq_true h2
          rw [hinj p (List.mem_of_find?_eq_some hf) q ((hpq q).2 (List.mem_of_find?_eq_some hf')) (h1'.trans h2'.symm)]
    · rfl

/-- Checking candidates in several calls, one by one or all at once is the same. -/
theorem C46_calls (H : Str → Int) (g : Guesser) (ps qs : List Str) :
    g.checkIter H (ps ++ qs) = (g.checkIter H ps).checkIter H qs ∧
    g.checkIter H ps = g.run H (ps.map .check) ∧ g.checkIter H ps = g.run H (ps.map .isKnown) := by
  refine ⟨by simp [checkIter_eq], ?_, ?_⟩
  · rw [checkIter_eq, Guesser.run, List.foldl_map]; rfl
  · rw [checkIter_eq, Guesser.run, List.foldl_map]
    congr 1
    funext g p
    exact (isKnown_fst H g p).symm

/-- A text is the same as the list of its words, in order; a string instead of a list is refused and has no effect. -/
theorem C46_text (H : Str → Int) (g : Guesser) :
    (∀ ws : List (Str × Str), ∀ last, (∀ w ∈ ws, w.1 ≠ [] ∧ (∀ c ∈ w.1, isSpace c = false) ∧ w.2 ≠ [] ∧ ∀ c ∈ w.2, isSpace c = true) →
      (∀ c ∈ last, isSpace c = false) →
      g.checkTextList H ((ws.map fun w => w.1 ++ w.2).flatten ++ last) = g.checkIter H (ws.map (·.1) ++ if last = [] then [] else [last])) ∧
    (∀ s, g.checkIterArg H (.str s) = (g, .error .type)) := by
  refine ⟨?_, fun s => rfl⟩
  intro ws last hws hlast
  have hsplit : splitWs ((ws.map fun w => w.1 ++ w.2).flatten ++ last) = ws.map (·.1) ++ if last = [] then [] else [last] := by
    induction ws with
    | nil =>
      by_cases h : last = []
      · simp [h, splitWs]
      · have := splitWs_word last [] h hlast (by simp)
        rw [List.append_nil] at this
        simp [h, this, splitWs]
    | cons w ws ih =>
      obtain ⟨h1, h2, h3, h4⟩ := hws w (by simp)
      have e : ((w :: ws).map fun w => w.1 ++ w.2).flatten ++ last = w.1 ++ (w.2 ++ ((ws.map fun w => w.1 ++ w.2).flatten ++ last)) := by simp
      rw [e, splitWs_word w.1 _ h1 h2, splitWs_spaces _ _ h4, ih (fun x hx => hws x (by simp [hx]))]
      · simp
      · intro d hd
        cases hw : w.2 with
        | nil => exact absurd hw h3
        | cons c r =>
          rw [hw] at hd h4
          simp only [List.cons_append, List.head?_cons, Option.some.injEq] at hd
          subst hd
          exact h4 c (by simp)
  unfold Guesser.checkTextList
  rw [hsplit]
  congr 1
  rw [List.filter_eq_self]
  intro a ha
  rcases List.mem_append.1 ha with ha | ha
  · obtain ⟨w, hw, rfl⟩ := List.mem_map.1 ha
    simpa using (hws w hw).1
  · split at ha
    · simp at ha
    · simp only [List.mem_singleton] at ha
      subst ha
      simpa

/-- A concrete case: two candidates with the hash 2, in both orders -/
example : Reached exH (Guesser.init [(3, "abc".toList)] [1, 2, 3]) ∧
    ((Guesser.init [(3, "abc".toList)] [1, 2, 3]).checkIter exH ["ab".toList, "cd".toList, "xyz".toList]).known = [(3, "abc".toList), (2, "ab".toList)] ∧
    ((Guesser.init [(3, "abc".toList)] [1, 2, 3]).checkIter exH ["xyz".toList, "cd".toList, "ab".toList]).known = [(3, "abc".toList), (2, "cd".toList)] :=
  ⟨⟨[(3, "abc".toList)], [1, 2, 3], [], rfl⟩, by decide +kernel, by decide +kernel⟩

end Cdtb
