import Verif.Model.Hashes
import Verif.Lemmas.Dict
/-!
# C45  Hash guessing never corrupts the hash table

A guesser is created from the table of a hash file and the hashes of some files (`Guesser.init`); then candidates are
checked, with any sequence of `check`, `is_known`, `check_iter` and `check_text_list`. `H` is the hash function; nothing is
assumed on it.
-/
namespace Cdtb
set_option autoImplicit false
open Py

/-! ## Specification -/

/-- A call on the guesser -/
inductive GuessOp where
  | check (p : Str)
  | isKnown (p : Str)
  | checkIter (ps : List Str)
  | checkText (text : Str)
  | directoryList (cached : Bool)

/-- A word of a text: a maximal sequence of characters that are not spaces -/
def Spec.IsWord (text w : Str) : Prop := ∃ a b, text = a ++ w ++ b ∧ w ≠ [] ∧ (∀ c ∈ w, isSpace c = false) ∧
  (∀ c, a.getLast? = some c → isSpace c = true) ∧ (∀ c, b.head? = some c → isSpace c = true)

/-- The candidates checked by a call -/
def GuessOp.Candidate : GuessOp → Str → Prop
  | .check p, q => q = p
  | .isKnown p, q => q = p
  | .checkIter ps, q => q ∈ ps
  | .checkText text, q => Spec.IsWord text q
  | .directoryList _, _ => False

/-- State after a call -/
def Guesser.step (H : Str → Int) (g : Guesser) : GuessOp → Guesser
  | .check p => g.check H p
  | .isKnown p => (g.isKnown H p).1
  | .checkIter ps => g.checkIter H ps
  | .checkText text => g.checkTextList H text
  | .directoryList cached => (g.directoryList cached).1

/-- State after some calls -/
def Guesser.run (H : Str → Int) (g : Guesser) (ops : List GuessOp) : Guesser := ops.foldl (Guesser.step H) g

/-! ## Words -/

theorem splitWs_cons_space {c : Char} (h : isSpace c = true) (r : Str) : splitWs (c :: r) = splitWs r := by
  rw [splitWs, if_pos h]

theorem splitWs_cons_last {c : Char} (h : isSpace c = false) (r : Str) (hr : ∀ d, r.head? = some d → isSpace d = true) :
    splitWs (c :: r) = [c] :: splitWs r := by
  cases r with
  | nil => simp [splitWs, h]
  | cons d r =>
    have := hr d rfl
    rw [splitWs]
    simp only [h, List.head?_cons, Option.map_some, Option.getD_some, this, if_true, Bool.false_eq_true, if_false]

theorem splitWs_cons_word {c d : Char} (h : isSpace c = false) (hd : isSpace d = false) (r : Str) :
    ∃ w ws, splitWs (d :: r) = w :: ws ∧ splitWs (c :: d :: r) = (c :: w) :: ws := by
  have hne : ∀ (r : Str) (d : Char), isSpace d = false → ∃ w ws, splitWs (d :: r) = w :: ws := by
    intro r
    induction r with
    | nil => intro d hd; exact ⟨[d], [], by simp [splitWs, hd]⟩
    | cons e r ih =>
      intro d hd
      by_cases he : isSpace e = true
      · exact ⟨[d], splitWs (e :: r), splitWs_cons_last hd _ (by simpa using he)⟩
      · obtain ⟨w, ws, hw⟩ := ih e (by simpa using he)
        refine ⟨d :: w, ws, ?_⟩
        rw [splitWs]
        simp only [hd, List.head?_cons, Option.map_some, Option.getD_some, he, Bool.false_eq_true, if_false, hw]
  obtain ⟨w, ws, hw⟩ := hne r d hd
  refine ⟨w, ws, hw, ?_⟩
  rw [splitWs]
  simp only [h, List.head?_cons, Option.map_some, Option.getD_some, hd, Bool.false_eq_true, if_false, hw]

/-- The first word, when the text starts with one -/
theorem splitWs_word (w r : Str) (hw : w ≠ []) (hs : ∀ c ∈ w, isSpace c = false) (hr : ∀ d, r.head? = some d → isSpace d = true) :
    splitWs (w ++ r) = w :: splitWs r := by
  induction w with
  | nil => exact absurd rfl hw
  | cons c w ih =>
    cases w with
    | nil => exact splitWs_cons_last (hs c (by simp)) r hr
    | cons d w =>
      obtain ⟨x, xs, h1, h2⟩ := splitWs_cons_word (hs c (by simp)) (hs d (by simp)) (w ++ r)
      have := ih (by simp) (fun x hx => hs x (by simp [hx]))
      rw [List.cons_append] at this
      rw [h1] at this
      cases this
      exact h2

/-- A text is spaces, or spaces, then a word, then a text that does not continue the word. -/
theorem text_cases (t : Str) : (∀ c ∈ t, isSpace c = true) ∨
    ∃ s w r, t = s ++ w ++ r ∧ (∀ c ∈ s, isSpace c = true) ∧ w ≠ [] ∧ (∀ c ∈ w, isSpace c = false) ∧ (∀ d, r.head? = some d → isSpace d = true) := by
  induction t with
  | nil => left; simp
  | cons c t ih =>
    by_cases hc : isSpace c = true
    · rcases ih with h | ⟨s, w, r, rfl, h2, h3, h4, h5⟩
      · left; simpa [hc] using h
      · right; exact ⟨c :: s, w, r, by simp, by simpa [hc] using h2, h3, h4, h5⟩
    · have hc' : isSpace c = false := by simpa using hc
      right
      cases t with
      | nil => exact ⟨[], [c], [], by simp, by simp, by simp, by simpa using hc', by simp⟩
      | cons d t =>
        by_cases hd : isSpace d = true
        · exact ⟨[], [c], d :: t, by simp, by simp, by simp, by simpa using hc', by simpa using hd⟩
        · rcases ih with h | ⟨s, w, r, h1, h2, h3, h4, h5⟩
          · exact absurd (h d (by simp)) hd
          · cases s with
            | nil => exact ⟨[], c :: w, r, by simp [h1], by simp, by simp, by simpa [hc'] using h4, h5⟩
            | cons e s =>
              simp only [List.cons_append, List.cons.injEq] at h1
              exact absurd (h1.1 ▸ h2 e (by simp)) hd

theorem splitWs_spaces (s r : Str) (h : ∀ c ∈ s, isSpace c = true) : splitWs (s ++ r) = splitWs r := by
  induction s with
  | nil => rfl
  | cons c s ih => rw [List.cons_append, splitWs_cons_space (h c (by simp)), ih (fun x hx => h x (by simp [hx]))]

theorem splitWs_iff (t w : Str) : w ∈ splitWs t ↔ Spec.IsWord t w := by
  induction hn : t.length using Nat.strong_induction_on generalizing t with
  | _ n ih =>
    subst hn
    rcases text_cases t with h | ⟨s, u, r, rfl, h2, h3, h4, h5⟩
    · have : splitWs t = [] := by
        have := splitWs_spaces t [] h
        simpa [splitWs] using this
      rw [this]
      simp only [List.not_mem_nil, false_iff]
      rintro ⟨a, b, rfl, hne, hs, _, _⟩
      obtain ⟨c, hc⟩ := List.exists_mem_of_ne_nil _ hne
      have := h c (by simp [hc])
      rw [hs c hc] at this
      simp at this
    · rw [List.append_assoc, splitWs_spaces s _ h2, splitWs_word u r h3 h4 h5]
      have hlen : 0 < u.length := List.length_pos_iff.2 h3
      have hr := ih r.length (by simp; omega) r rfl
      rw [List.mem_cons, hr]
      constructor
      · rintro (rfl | ⟨a, b, rfl, k1, k2, k3, k4⟩)
        · refine ⟨s, r, by simp, h3, h4, ?_, h5⟩
          intro c hc
          exact h2 c (List.mem_of_getLast? hc)
        · refine ⟨s ++ u ++ a, b, by simp, k1, k2, ?_, k4⟩
          intro c hc
          cases a with
          | nil =>
            exfalso
            cases w with
            | nil => exact k1 rfl
            | cons x w =>
              have h6 := h5 x (by simp)
              rw [k2 x (by simp)] at h6
              simp at h6
          | cons x a =>
            apply k3
            rw [List.getLast?_append] at hc
            simpa using hc
      · rintro ⟨a, b, he, k1, k2, k3, k4⟩
        -- where does `w` start?
        rw [← List.append_assoc] at he
        rcases Nat.lt_or_ge a.length s.length with hlt | hge
        · -- in the spaces
          exfalso
          have hx : (a ++ w ++ b)[a.length]? = some (w.head k1) := by
            rw [List.append_assoc, List.getElem?_append_right (by omega), Nat.sub_self, List.getElem?_append_left (List.length_pos_iff.2 k1)]
            rw [← List.head?_eq_getElem?, List.head?_eq_some_head]
          rw [← he, List.append_assoc, List.getElem?_append_left hlt] at hx
          have h6 := h2 _ (List.mem_of_getElem? hx)
          rw [k2 _ (List.head_mem k1)] at h6
          simp at h6
        · obtain ⟨a', rfl⟩ : ∃ a', a = s ++ a' := by
            have hp : s <+: a ++ w ++ b := ⟨u ++ r, by rw [← he]; simp⟩
            rw [List.append_assoc] at hp
            obtain ⟨a', ha'⟩ := List.prefix_of_prefix_length_le hp (List.prefix_append a _) hge
            exact ⟨a', ha'.symm⟩
          have he' : u ++ r = a' ++ w ++ b := by
            have : s ++ (u ++ r) = s ++ (a' ++ w ++ b) := by rw [← List.append_assoc, he]; simp
            exact List.append_cancel_left this
          rcases Nat.lt_or_ge a'.length u.length with hlt | hge'
          · -- in the first word
            left
            obtain ⟨v, rfl⟩ : ∃ v, u = a' ++ v := by
              have hp : a' <+: u ++ r := ⟨w ++ b, by rw [he']; simp⟩
              obtain ⟨v, hv⟩ := List.prefix_of_prefix_length_le hp (List.prefix_append u r) hlt.le
              exact ⟨v, hv.symm⟩
            have ha' : a' = [] := by
              rcases List.eq_nil_or_concat a' with rfl | ⟨a'', c, rfl⟩
              · rfl
              · rw [List.concat_eq_append] at *
                have h6 := k3 c (by rw [← List.append_assoc]; simp)
                rw [h4 c (by simp)] at h6
                simp at h6
            subst ha'
            simp only [List.nil_append] at he' h4 h3 hlt ⊢
            -- both are the longest prefix without spaces
            rcases List.append_eq_append_iff.1 he' with ⟨z, h7, h8⟩ | ⟨z, h7, h8⟩
            · cases z with
              | nil => simpa using h7
              | cons x z =>
                exfalso
                have h6 := h5 x (by rw [h8]; simp)
                rw [k2 x (by rw [h7]; simp)] at h6
                simp at h6
            · cases z with
              | nil => simpa using h7.symm
              | cons x z =>
                exfalso
                have h6 := k4 x (by rw [h8]; simp)
                rw [h4 x (by rw [h7]; simp)] at h6
                simp at h6
          · right
            obtain ⟨a'', rfl⟩ : ∃ a'', a' = u ++ a'' := by
              have hp : u <+: a' ++ w ++ b := ⟨r, he'⟩
              rw [List.append_assoc] at hp
              obtain ⟨a'', ha''⟩ := List.prefix_of_prefix_length_le hp (List.prefix_append a' _) hge'
              exact ⟨a'', ha''.symm⟩
            have he'' : r = a'' ++ w ++ b := by
              have : u ++ r = u ++ (a'' ++ w ++ b) := by rw [he']; simp
              exact List.append_cancel_left this
            refine ⟨a'', b, he'', k1, k2, ?_, k4⟩
            intro c hc
            apply k3
            rw [List.getLast?_append, List.getLast?_append]
            simp [hc]

/-! ## Invariant -/

/-- What is known after some candidates have been checked, starting from `g0` -/
structure Guesser.Inv (H : Str → Int) (g g0 : Guesser) (cands : Str → Prop) : Prop where
  nodup : g.unknown.Nodup
  disjoint : ∀ h ∈ g.unknown, g.known.get? h = none
  keep : ∀ h s, g0.known.get? h = some s → g.known.get? h = some s
  sound : ∀ h s, g.known.get? h = some s → g0.known.get? h = none → h ∈ g0.unknown ∧ cands s ∧ H s = h
  union : ∀ h, (h ∈ g.unknown ∨ g.known.get? h ≠ none) ↔ (h ∈ g0.unknown ∨ g0.known.get? h ≠ none)
  complete : ∀ p, cands p → H p ∉ g.unknown
  printed : ∀ h s, (h, s) ∈ g.printed ↔ g.known.get? h = some s ∧ g0.known.get? h = none
  once : (g.printed.map (·.1)).Nodup

theorem Guesser.Inv.mono {H : Str → Int} {g0 g : Guesser} {c c' : Str → Prop} (h : g.Inv H g0 c) (hc : ∀ p, c p ↔ c' p) : g.Inv H g0 c' where
  nodup := h.nodup
  disjoint := h.disjoint
  keep := h.keep
  sound k s h1 h2 := by obtain ⟨a, b, c⟩ := h.sound k s h1 h2; exact ⟨a, (hc s).1 b, c⟩
  union := h.union
  complete p hp := h.complete p ((hc p).2 hp)
  printed := h.printed
  once := h.once

theorem Guesser.Inv.check {H : Str → Int} {g0 g : Guesser} {cands : Str → Prop} (h : g.Inv H g0 cands) (p : Str) :
    (g.check H p).Inv H g0 fun q => cands q ∨ q = p := by
  unfold Guesser.check
  simp only
  split
  · rename_i hu
    have hnone : g.known.get? (H p) = none := h.disjoint _ hu
    have h0none : g0.known.get? (H p) = none := by
      rcases hg : g0.known.get? (H p) with _ | s
      · rfl
      · rw [h.keep _ s hg] at hnone; simp at hnone
    have hu0 : H p ∈ g0.unknown := by
      rcases (h.union (H p)).1 (Or.inl hu) with h' | h'
      · exact h'
      · exact absurd h0none h'
    have hmem : ∀ k, k ∈ g.unknown.erase (H p) ↔ k ≠ H p ∧ k ∈ g.unknown := fun k => h.nodup.mem_erase_iff
    refine ⟨h.nodup.erase _, ?_, ?_, ?_, ?_, ?_, ?_, ?_⟩
    · intro k hk
      obtain ⟨k1, k2⟩ := (hmem k).1 hk
      simp only [Guesser.addKnown, Dict.get?_set, if_neg k1]
      exact h.disjoint k k2
    · intro k s hk
      have : k ≠ H p := fun he => by rw [he, h0none] at hk; simp at hk
      simp only [Guesser.addKnown, Dict.get?_set, if_neg this]
      exact h.keep k s hk
    · intro k s hk h0
      simp only [Guesser.addKnown, Dict.get?_set] at hk
      split at hk
      · rename_i he
        subst he
        cases hk
        exact ⟨hu0, .inr rfl, rfl⟩
      · obtain ⟨a, b, c⟩ := h.sound k s hk h0
        exact ⟨a, .inl b, c⟩
    · intro k
      rw [← h.union k]
      simp only [Guesser.addKnown, Dict.get?_set, hmem]
      by_cases he : k = H p
      · subst he; simp [hu]
      · simp [he]
    · intro q hq
      simp only [Guesser.addKnown, hmem, not_and]
      rcases hq with hq | rfl
      · exact fun _ => h.complete q hq
      · exact fun h' => absurd rfl h'
    · intro k s
      simp only [Guesser.addKnown, Dict.get?_set, List.mem_append, h.printed, List.mem_singleton, Prod.mk.injEq]
      by_cases he : k = H p
      · subst he
        simp [hnone, h0none, eq_comm]
      · simp [he]
    · simp only [Guesser.addKnown, List.map_append, List.map_cons, List.map_nil]
      rw [List.nodup_append]
      refine ⟨h.once, by simp, ?_⟩
      intro a ha b hb
      simp only [List.mem_singleton] at hb
      subst hb
      rintro rfl
      obtain ⟨⟨k, s⟩, hx, hk⟩ := List.mem_map.1 ha
      simp only at hk
      rw [← hk, ((h.printed k s).1 hx).1] at hnone
      simp at hnone
  · rename_i hu
    refine ⟨h.nodup, h.disjoint, h.keep, ?_, h.union, ?_, h.printed, h.once⟩
    · intro k s h1 h2
      obtain ⟨a, b, c⟩ := h.sound k s h1 h2
      exact ⟨a, .inl b, c⟩
    · rintro q (hq | rfl)
      · exact h.complete q hq
      · exact hu

theorem isKnown_fst (H : Str → Int) (g : Guesser) (p : Str) : (g.isKnown H p).1 = g.check H p := by
  unfold Guesser.isKnown Guesser.check
  simp only
  split <;> rfl

theorem checkIter_eq (H : Str → Int) (g : Guesser) (ps : List Str) : g.checkIter H ps = ps.foldl (Guesser.check H) g := by
  induction ps generalizing g with
  | nil => rfl
  | cons p ps ih => rw [Guesser.checkIter, ih]; rfl

theorem Guesser.Inv.checkIter {H : Str → Int} {g0 g : Guesser} {cands : Str → Prop} (h : g.Inv H g0 cands) (ps : List Str) :
    (g.checkIter H ps).Inv H g0 fun q => cands q ∨ q ∈ ps := by
  rw [checkIter_eq]
  induction ps generalizing g cands with
  | nil => exact h.mono (by simp)
  | cons p ps ih => exact (ih (h.check p)).mono (fun q => by simp [or_assoc])

theorem Guesser.Inv.dirs {H : Str → Int} {g0 g : Guesser} {cands : Str → Prop} (h : g.Inv H g0 cands) (d : Option (List Str)) :
    Guesser.Inv H { g with dirs := d } g0 cands := ⟨h.nodup, h.disjoint, h.keep, h.sound, h.union, h.complete, h.printed, h.once⟩

theorem directoryList_inv {H : Str → Int} {g0 g : Guesser} {cands : Str → Prop} (h : g.Inv H g0 cands) (cached : Bool) :
    (g.directoryList cached).1.Inv H g0 cands := by
  unfold Guesser.directoryList
  split
  · exact h
  · exact h.dirs _

theorem checkTextList_mem (text p : Str) : p ∈ (splitWs text).filter (fun s => s ≠ []) ↔ Spec.IsWord text p := by
  rw [List.mem_filter, splitWs_iff]
  constructor
  · exact fun h => h.1
  · exact fun h => ⟨h, by obtain ⟨_, _, _, h2, _⟩ := h; simpa using h2⟩

theorem Guesser.Inv.step {H : Str → Int} {g0 g : Guesser} {cands : Str → Prop} (h : g.Inv H g0 cands) (op : GuessOp) :
    (g.step H op).Inv H g0 fun q => cands q ∨ op.Candidate q := by
  cases op with
  | check p => exact h.check p
  | isKnown p =>
    have := h.check p
    rw [← isKnown_fst] at this
    exact this
  | checkIter ps => exact h.checkIter ps
  | checkText text => exact (h.checkIter _).mono fun q => by rw [checkTextList_mem]; rfl
  | directoryList cached => exact (directoryList_inv h cached).mono (fun q => by simp [GuessOp.Candidate])

theorem Guesser.Inv.run {H : Str → Int} {g0 g : Guesser} {cands : Str → Prop} (h : g.Inv H g0 cands) (ops : List GuessOp) :
    (g.run H ops).Inv H g0 fun q => cands q ∨ ∃ op ∈ ops, op.Candidate q := by
  unfold Guesser.run
  induction ops generalizing g cands with
  | nil => exact h.mono (by simp)
  | cons op ops ih => exact (ih (h.step op)).mono (fun q => by simp [or_assoc])

theorem Guesser.Inv.init (H : Str → Int) (known : Dict Int Str) (hashes : List Int) :
    (Guesser.init known hashes).Inv H (Guesser.init known hashes) fun _ => False where
  nodup := (List.nodup_dedup _).filter _
  disjoint h hh := by
    simp only [Guesser.init, List.mem_filter, Bool.not_eq_true', Dict.contains_eq_false] at hh
    exact Dict.get?_eq_none.2 hh.2
  keep _ _ h := h
  sound h s h1 h2 := by rw [h1] at h2; simp at h2
  union _ := Iff.rfl
  complete _ h := h.elim
  printed h s := by
    simp only [Guesser.init, List.not_mem_nil, false_iff]
    rintro ⟨h1, h2⟩
    rw [h1] at h2; simp at h2
  once := by simp [Guesser.init]

theorem mem_init_unknown (known : Dict Int Str) (hashes : List Int) (h : Int) :
    h ∈ (Guesser.init known hashes).unknown ↔ h ∈ hashes ∧ known.get? h = none := by
  simp [Guesser.init, Dict.contains, Option.isSome_eq_false_iff]

/-! ## Theorems -/

/-- After any sequence of calls:
- each hash that was known keeps its path,
- each other entry is a hash of the files, with a candidate that has this hash,
- no hash is both known and unknown, and hashes are those of the files and of the table,
- what was printed is the new entries, each one once. -/
theorem C45_safe (H : Str → Int) (known : Dict Int Str) (hashes : List Int) (ops : List GuessOp) :
    let g := (Guesser.init known hashes).run H ops
    (∀ h s, known.get? h = some s → g.known.get? h = some s) ∧
    (∀ h s, g.known.get? h = some s → known.get? h = none → h ∈ hashes ∧ (∃ op ∈ ops, op.Candidate s) ∧ H s = h) ∧
    (∀ h, ¬ (h ∈ g.unknown ∧ g.known.get? h ≠ none)) ∧
    (∀ h, (h ∈ g.unknown ∨ g.known.get? h ≠ none) ↔ (h ∈ hashes ∨ known.get? h ≠ none)) ∧
    (∀ h s, (h, s) ∈ g.printed ↔ g.known.get? h = some s ∧ known.get? h = none) ∧
    (g.printed.map (·.1)).Nodup := by
  have hi := (Guesser.Inv.init H known hashes).run ops
  refine ⟨hi.keep, ?_, ?_, ?_, hi.printed, hi.once⟩
  · intro h s h1 h2
    obtain ⟨a, b, c⟩ := hi.sound h s h1 h2
    exact ⟨((mem_init_unknown known hashes h).1 a).1, b.resolve_left id, c⟩
  · rintro h ⟨h1, h2⟩
    exact h2 (hi.disjoint h h1)
  · intro h
    rw [hi.union h, mem_init_unknown]
    show _ ∨ known.get? h ≠ none ↔ _
    by_cases hk : known.get? h = none <;> simp [hk]

/-- All hashes of candidates are found: after any sequence of calls, the unknown hashes are those of the files that are not
in the table and that no candidate has. -/
theorem C45_unknown (H : Str → Int) (known : Dict Int Str) (hashes : List Int) (ops : List GuessOp) (h : Int) :
    h ∈ ((Guesser.init known hashes).run H ops).unknown ↔
      h ∈ hashes ∧ known.get? h = none ∧ ∀ op ∈ ops, ∀ p, op.Candidate p → H p ≠ h := by
  have hi := (Guesser.Inv.init H known hashes).run ops
  constructor
  · intro hh
    have hn := hi.disjoint h hh
    have h0 : known.get? h = none := by
      rcases hg : known.get? h with _ | s
      · rfl
      · rw [hi.keep h s hg] at hn; simp at hn
    have hu := (hi.union h).1 (Or.inl hh)
    rw [mem_init_unknown] at hu
    refine ⟨?_, h0, ?_⟩
    · rcases hu with hu | hu
      · exact hu.1
      · exact absurd h0 hu
    · rintro op hop p hp rfl
      exact hi.complete p (Or.inr ⟨op, hop, hp⟩) hh
  · rintro ⟨h1, h2, h3⟩
    have hu := (hi.union h).2 (Or.inl ((mem_init_unknown known hashes h).2 ⟨h1, h2⟩))
    rcases hu with hu | hu
    · exact hu
    · rcases hg : ((Guesser.init known hashes).run H ops).known.get? h with _ | s
      · exact absurd hg hu
      · obtain ⟨_, b, c⟩ := hi.sound h s hg h2
        obtain ⟨op, hop, hc⟩ := b.resolve_left id
        exact absurd c (h3 op hop s hc)

/-- `is_known` says whether the hash of the path is one of those of the files or of the table, and after the call this hash is
known. -/
theorem C45_is_known (H : Str → Int) (known : Dict Int Str) (hashes : List Int) (ops : List GuessOp) (p : Str) :
    let r := ((Guesser.init known hashes).run H ops).isKnown H p
    (r.2 = true ↔ H p ∈ hashes ∨ known.get? (H p) ≠ none) ∧ (r.2 = true → r.1.known.get? (H p) ≠ none) := by
  have hi := (Guesser.Inv.init H known hashes).run ops
  have hu := hi.union (H p)
  rw [mem_init_unknown] at hu
  have hu' : (H p ∈ ((Guesser.init known hashes).run H ops).unknown ∨ ((Guesser.init known hashes).run H ops).known.get? (H p) ≠ none) ↔
      (H p ∈ hashes ∨ known.get? (H p) ≠ none) := by
    rw [hu]
    show _ ∨ known.get? (H p) ≠ none ↔ _
    by_cases hk : known.get? (H p) = none <;> simp [hk]
  unfold Guesser.isKnown
  simp only
  rw [← hu']
  split
  · rename_i h
    simp [h, Guesser.addKnown, Dict.get?_set]
  · rename_i h
    simp [h, Dict.contains, Option.isSome_iff_ne_none]

/-! ## A concrete case -/

/-- Lengths as hashes -/
def exH (p : Str) : Int := p.length

example :
    let g := (Guesser.init [(3, "abc".toList), (9, "x".toList)] [1, 2, 3, 4]).run exH
      [.check "zzz".toList, .checkText " de  f gh\tijkl\n".toList, .isKnown "q".toList, .checkIter ["mnopq".toList]]
    g.known = [(3, "abc".toList), (9, "x".toList), (2, "de".toList), (1, "f".toList), (4, "ijkl".toList)] ∧ g.unknown = [] ∧
    g.printed = [(2, "de".toList), (1, "f".toList), (4, "ijkl".toList)] := by
  decide +kernel

example : Spec.IsWord " de  f".toList "de".toList := by
  rw [← splitWs_iff]; decide +kernel

end Cdtb
