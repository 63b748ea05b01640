import Verif.Model.Rads
import Verif.Lemmas.Version
/-!
# C40  RADS patch elements are merged newest first without loss

`mergeElements c g` is what `RadsStorage.patch_elements` yields, and its outcome, when the client solution gives `c`
and the game solution gives `g`. To state the properties, the elements yielded are tagged with the solution they come
from: `false` for the client, `true` for the game.
-/
namespace Cdtb
set_option autoImplicit false
open Py

/-- Elements of the client -/
def clientPart (l : List (Bool × Elem)) : List Elem := (l.filter (fun x => !x.1)).map (·.2)
/-- Elements of the game -/
def gamePart (l : List (Bool × Elem)) : List Elem := (l.filter (fun x => x.1)).map (·.2)

/-- `a` is at least as recent as `b` -/
def Elem.newer (a b : Elem) : Prop := a.version.cmp .ge b.version = .ok true

/-- All versions can be compared (they are all numbers, or all "main") -/
def Comparable (l : List Elem) : Prop := ∀ a ∈ l, ∀ b ∈ l, ∃ r, a.version.cmp .gt b.version = .ok r

/-- What a generator gives before it raises -/
def okPrefix (g : Gen Elem) : List Elem := (g.takeWhile fun x => match x with
  | .ok _ => true
  | .error _ => false).filterMap fun x => match x with
  | .ok a => some a
  | .error _ => none

theorem okPrefix_ok (a : Elem) (g : Gen Elem) : okPrefix (.ok a :: g) = a :: okPrefix g := by
  simp [okPrefix]

theorem tuple_ge_iff (t u : List Int) : tupleCmp .ge t u = true ↔ ¬ t < u := by
  simp [tupleCmp_ge, tupleCmp_lt]

theorem tuple_ge_trans {t u v : List Int} (h1 : tupleCmp .ge t u = true) (h2 : tupleCmp .ge u v = true) :
    tupleCmp .ge t v = true := by
  rw [tuple_ge_iff] at *
  exact fun h => h2 (List.lt_of_le_of_lt (List.not_lt.1 h1) h)

theorem version_ge_trans {a b c : Version} (h1 : a.cmp .ge b = .ok true) (h2 : b.cmp .ge c = .ok true) :
    a.cmp .ge c = .ok true := by
  unfold Version.cmp at *
  cases ha : a.t <;> cases hb : b.t <;> cases hc : c.t <;> rw [ha, hb] at h1 <;> rw [hb, hc] at h2 <;> simp at h1 h2 ⊢
  · exact tuple_ge_trans h1 h2
  · simp [CmpOp.eval]

theorem version_gt_ge {a b : Version} (h : a.cmp .gt b = .ok true) : a.cmp .ge b = .ok true := by
  unfold Version.cmp at *
  cases ha : a.t <;> cases hb : b.t <;> rw [ha, hb] at h <;> simp at h ⊢
  · rw [tupleCmp_gt, tupleCmp_lt, decide_eq_true_eq] at h
    rw [tuple_ge_iff]
    exact fun h' => absurd (List.lt_trans h h') (List.lt_irrefl _)
  · simp [CmpOp.eval]

theorem version_not_gt {a b : Version} (h : a.cmp .gt b = .ok false) : b.cmp .ge a = .ok true := by
  unfold Version.cmp at *
  cases ha : a.t <;> cases hb : b.t <;> rw [ha, hb] at h <;> simp at h ⊢
  · rw [tupleCmp_gt, tupleCmp_lt, decide_eq_false_iff_not] at h
    rw [tuple_ge_iff]
    exact h
  · simp [CmpOp.eval]

theorem version_gt_of_gt_ge {a b c : Version} (h1 : a.cmp .gt b = .ok true) (h2 : b.cmp .ge c = .ok true) :
    a.cmp .gt c = .ok true := by
  unfold Version.cmp at *
  cases ha : a.t <;> cases hb : b.t <;> cases hc : c.t <;> rw [ha, hb] at h1 <;> rw [hb, hc] at h2 <;> simp at h1 h2 ⊢
  · rw [tuple_ge_iff] at h2
    rw [tupleCmp_gt, tupleCmp_lt, decide_eq_true_eq] at *
    exact List.lt_of_le_of_lt (List.not_lt.1 h2) h1
  · simp [CmpOp.eval] at h1

/-- Whatever the generators do (they may fail at any point, and versions may not be comparable): the elements
yielded interleave elements of the client and of the game, each in their order and starting from the first; when
the iteration ends without an exception, no generator failed and nothing is missing. -/
theorem C40_no_loss (c g : Gen Elem) : ∃ tagged : List (Bool × Elem),
    (mergeElements c g).1 = tagged.map (·.2) ∧
    clientPart tagged <+: okPrefix c ∧ gamePart tagged <+: okPrefix g ∧
    ((mergeElements c g).2 = .ok () → (clientPart tagged).map .ok = c ∧ (gamePart tagged).map .ok = g) := by
  induction c, g using mergeElements.induct with
  | case1 => exact ⟨[], by simp [mergeElements, clientPart, gamePart]⟩
  | case2 e cs g => exact ⟨[], by simp [mergeElements, clientPart, gamePart]⟩
  | case3 c e gs hc => exact ⟨[], by rw [mergeElements]; simp [clientPart, gamePart]; exact hc⟩
  | case4 a cs ih =>
    obtain ⟨t, h1, h2, h3, h4⟩ := ih
    refine ⟨(false, a) :: t, ?_, ?_, ?_, ?_⟩
    · simp [mergeElements, h1]
    · simpa [clientPart, okPrefix_ok] using h2
    · simpa [gamePart] using h3
    · intro h
      have := h4 (by simpa [mergeElements] using h)
      exact ⟨by simpa [clientPart] using this.1, by simpa [gamePart] using this.2⟩
  | case5 a gs ih =>
    obtain ⟨t, h1, h2, h3, h4⟩ := ih
    refine ⟨(true, a) :: t, ?_, ?_, ?_, ?_⟩
    · simp [mergeElements, h1]
    · simpa [clientPart] using h2
    · simpa [gamePart, okPrefix_ok] using h3
    · intro h
      have := h4 (by simpa [mergeElements] using h)
      exact ⟨by simpa [clientPart] using this.1, by simpa [gamePart] using this.2⟩
  | case6 c cs g gs e he =>
    exact ⟨[], by rw [mergeElements]; simp [he, clientPart, gamePart]⟩
  | case7 c cs g gs he ih =>
    obtain ⟨t, h1, h2, h3, h4⟩ := ih
    refine ⟨(true, g) :: t, ?_, ?_, ?_, ?_⟩
    · rw [mergeElements]; simp [he, h1]
    · simpa [clientPart] using h2
    · simpa [gamePart, okPrefix_ok] using h3
    · intro h
      rw [mergeElements] at h
      have := h4 (by simpa [he] using h)
      exact ⟨by simpa [clientPart] using this.1, by simpa [gamePart] using this.2⟩
  | case8 c cs g gs he ih =>
    obtain ⟨t, h1, h2, h3, h4⟩ := ih
    refine ⟨(false, c) :: t, ?_, ?_, ?_, ?_⟩
    · rw [mergeElements]; simp [he, h1]
    · simpa [clientPart, okPrefix_ok] using h2
    · simpa [gamePart] using h3
    · intro h
      rw [mergeElements] at h
      have := h4 (by simpa [he] using h)
      exact ⟨by simpa [clientPart] using this.1, by simpa [gamePart] using this.2⟩

theorem mem_parts (t : List (Bool × Elem)) (x : Bool × Elem) (h : x ∈ t) :
    (x.1 = false ∧ x.2 ∈ clientPart t) ∨ (x.1 = true ∧ x.2 ∈ gamePart t) := by
  obtain ⟨b, e⟩ := x
  cases b
  · exact Or.inl ⟨rfl, List.mem_map.2 ⟨_, List.mem_filter.2 ⟨h, rfl⟩, rfl⟩⟩
  · exact Or.inr ⟨rfl, List.mem_map.2 ⟨_, List.mem_filter.2 ⟨h, rfl⟩, rfl⟩⟩

/-- With generators that do not fail and comparable versions, the iteration does not fail and yields exactly the
elements of the client and those of the game, each in their order; if both are sorted from the newest, so is the
result, and a game element precedes a client element only if its version is strictly greater. -/
theorem C40_merge (cs gs : List Elem) (hc : Comparable (cs ++ gs)) : ∃ tagged : List (Bool × Elem),
    mergeElements (cs.map .ok) (gs.map .ok) = (tagged.map (·.2), .ok ()) ∧
    clientPart tagged = cs ∧ gamePart tagged = gs ∧
    (cs.Pairwise Elem.newer → gs.Pairwise Elem.newer → tagged.Pairwise fun a b => a.2.newer b.2 ∧
      (a.1 = true → b.1 = false → a.2.version.cmp .gt b.2.version = .ok true)) := by
  obtain ⟨n, hn⟩ : ∃ n, n = cs.length + gs.length := ⟨_, rfl⟩
  induction n generalizing cs gs with
  | zero =>
    have h1 : cs = [] := List.length_eq_zero_iff.1 (by omega)
    have h2 : gs = [] := List.length_eq_zero_iff.1 (by omega)
    subst h1 h2
    exact ⟨[], by simp [mergeElements], rfl, rfl, fun _ _ => List.Pairwise.nil⟩
  | succ n ih =>
    have sub : ∀ {l l' : List Elem}, l' ⊆ l → Comparable l → Comparable l' := fun h hl a ha b hb => hl a (h ha) b (h hb)
    cases cs with
    | nil =>
      cases gs with
      | nil => simp at hn
      | cons g gs =>
        obtain ⟨t, h1, h2, h3, h4⟩ := ih [] gs (sub (by simp) hc) (by simp at hn ⊢; omega)
        refine ⟨(true, g) :: t, ?_, ?_, ?_, ?_⟩
        · simp only [List.map_nil] at h1
          simp [mergeElements, h1]
        · simpa [clientPart] using h2
        · simpa [gamePart] using h3
        · intro s1 s2
          rw [List.pairwise_cons] at s2 ⊢
          refine ⟨fun b hb => ?_, h4 s1 s2.2⟩
          rcases mem_parts t b hb with ⟨hb1, hb2⟩ | ⟨hb1, hb2⟩
          · rw [h2] at hb2; simp at hb2
          · rw [h3] at hb2
            exact ⟨s2.1 _ hb2, fun _ h => by rw [hb1] at h; simp at h⟩
    | cons c cs =>
      cases gs with
      | nil =>
        obtain ⟨t, h1, h2, h3, h4⟩ := ih cs [] (sub (by simp) hc) (by simp at hn ⊢; omega)
        refine ⟨(false, c) :: t, ?_, ?_, ?_, ?_⟩
        · simp only [List.map_nil] at h1
          simp [mergeElements, h1]
        · simpa [clientPart] using h2
        · simpa [gamePart] using h3
        · intro s1 s2
          rw [List.pairwise_cons] at s1 ⊢
          refine ⟨fun b hb => ?_, h4 s1.2 s2⟩
          rcases mem_parts t b hb with ⟨hb1, hb2⟩ | ⟨hb1, hb2⟩
          · rw [h2] at hb2
            exact ⟨s1.1 _ hb2, fun h => by simp at h⟩
          · rw [h3] at hb2; simp at hb2
      | cons g gs =>
        obtain ⟨r, hr⟩ := hc g (by simp) c (by simp)
        cases r with
        | true =>
          obtain ⟨t, h1, h2, h3, h4⟩ := ih (c :: cs) gs
            (sub (by intro x; simp only [List.mem_append, List.mem_cons]; tauto) hc) (by simp at hn ⊢; omega)
          refine ⟨(true, g) :: t, ?_, ?_, ?_, ?_⟩
          · simp only [List.map_cons] at h1 ⊢
            rw [mergeElements]
            simp [hr, h1]
          · simpa [clientPart] using h2
          · simpa [gamePart] using h3
          · intro s1 s2
            have s2' := List.pairwise_cons.1 s2
            rw [List.pairwise_cons]
            refine ⟨fun b hb => ?_, h4 s1 s2'.2⟩
            rcases mem_parts t b hb with ⟨hb1, hb2⟩ | ⟨hb1, hb2⟩
            · rw [h2, List.mem_cons] at hb2
              have hgt : g.version.cmp .gt b.2.version = .ok true := by
                rcases hb2 with h | h
                · rw [h]; exact hr
                · exact version_gt_of_gt_ge hr ((List.pairwise_cons.1 s1).1 _ h)
              exact ⟨version_gt_ge hgt, fun _ _ => hgt⟩
            · rw [h3] at hb2
              exact ⟨s2'.1 _ hb2, fun _ h => by rw [hb1] at h; simp at h⟩
        | false =>
          obtain ⟨t, h1, h2, h3, h4⟩ := ih cs (g :: gs) (sub (by intro x; simp; tauto) hc) (by simp at hn ⊢; omega)
          refine ⟨(false, c) :: t, ?_, ?_, ?_, ?_⟩
          · simp only [List.map_cons] at h1 ⊢
            rw [mergeElements]
            simp [hr, h1]
          · simpa [clientPart] using h2
          · simpa [gamePart] using h3
          · intro s1 s2
            have s1' := List.pairwise_cons.1 s1
            rw [List.pairwise_cons]
            refine ⟨fun b hb => ⟨?_, fun h => by simp at h⟩, h4 s1'.2 s2⟩
            rcases mem_parts t b hb with ⟨hb1, hb2⟩ | ⟨hb1, hb2⟩
            · rw [h2] at hb2; exact s1'.1 _ hb2
            · rw [h3, List.mem_cons] at hb2
              rcases hb2 with h | h
              · rw [h]; exact version_not_gt hr
              · exact version_ge_trans (version_not_gt hr) ((List.pairwise_cons.1 s2).1 _ h)

/-- The elements of a solution are its versions having a patch, in their order; a failure to find the patch of a
version reaches the caller when its element is to be yielded. -/
theorem C40_elements (name : Str) (svs : List (Nat × Res (Option Version))) :
    solutionElements name svs = (svs.filter fun x => x.2 ≠ .ok none).map fun x =>
      x.2.map fun v => ⟨name, v.getD ⟨[], .main⟩, x.1⟩ := by
  unfold solutionElements
  induction svs with
  | nil => rfl
  | cons x svs ih =>
    obtain ⟨i, r⟩ := x
    rcases r with e | (_ | v)
    · simp only [List.filterMap_cons, solutionElement, ih]; rfl
    · simp only [List.filterMap_cons, solutionElement, ih]; rfl
    · simp only [List.filterMap_cons, solutionElement, ih]; rfl

theorem baseVersion_s {x : Str} {b : Version} (hb : baseVersion (.str x) = .ok b) : b.s = x := by
  simp only [baseVersion] at hb
  split at hb
  · simp at hb
  · simp only [bind, Except.bind] at hb
    split at hb
    · simp at hb
    · simp only [Except.ok.injEq] at hb; rw [← hb]

theorem radsVersion_ok {x : Str} {v : Version} (hx : radsVersion (.str x) = .ok v) :
    v.s = x ∧ ∃ a b c d, v.t = .nums [a, b, c, d] := by
  unfold radsVersion at hx
  rcases hb : baseVersion (.str x) with e | b
  · rw [hb] at hx; simp [bind, Except.bind] at hx
  · rw [hb] at hx
    simp only [bind, Except.bind] at hx
    rcases ht : b.t with t | _
    · rw [ht] at hx
      simp only at hx
      split at hx
      · rename_i h4
        simp only [pure, Except.pure, Except.ok.injEq] at hx
        subst hx
        refine ⟨baseVersion_s hb, ?_⟩
        match t, h4 with
        | [p, q, r, s], _ => exact ⟨p, q, r, s, ht⟩
      · simp [throw, throwThe, MonadExceptOf.throw] at hx
    · rw [ht] at hx; simp [throw, throwThe, MonadExceptOf.throw] at hx

/-- The versions of a solution are exactly the listed ones, from the newest; a listed name which is not made of four
numbers makes the listing fail. -/
theorem C40_versions (listing : List Str) (vs : List Version) (h : solutionVersions listing = .ok vs) :
    (vs.map (·.s)).Perm listing ∧ (∀ v ∈ vs, ∃ a b c d, v.t = .nums [a, b, c, d]) ∧
    vs.Pairwise fun a b => a.cmp .ge b = .ok true := by
  unfold solutionVersions at h
  simp only [bind, Except.bind, pure, Except.pure] at h
  split at h
  · simp at h
  · rename_i ws hws
    cases h
    have key : ∀ {l : List Str} {ws : List Version}, l.mapM (fun l => radsVersion (.str l)) = .ok ws →
        ws.map (·.s) = l ∧ ∀ v ∈ ws, ∃ a b c d, v.t = .nums [a, b, c, d] := by
      intro l
      induction l with
      | nil => intro ws h; simp [pure, Except.pure] at h; subst h; simp
      | cons x l ih =>
        intro ws h
        simp only [List.mapM_cons, bind, Except.bind] at h
        rcases hx : radsVersion (.str x) with e | v
        · rw [hx] at h; simp at h
        · rw [hx] at h; simp only at h
          rcases hl : l.mapM (fun l => radsVersion (.str l)) with e | vs
          · rw [hl] at h; simp at h
          · rw [hl] at h
            simp only [pure, Except.pure, Except.ok.injEq] at h
            subst h
            obtain ⟨h1, h2⟩ := ih hl
            obtain ⟨hs, hq⟩ := radsVersion_ok hx
            refine ⟨by simp [hs, h1], ?_⟩
            intro w hw
            rcases List.mem_cons.1 hw with rfl | hw
            · exact hq
            · exact h2 w hw
    obtain ⟨h1, h2⟩ := key hws
    have hp : (sortVersions ws).Perm ws := List.perm_insertionSort _ _
    refine ⟨?_, fun v hv => h2 v (hp.subset hv), ?_⟩
    · rw [← h1]; exact hp.map _
    · have htot : Std.Total fun a b : Version => tupleCmp .ge a.tuple b.tuple = true :=
        ⟨fun a b => by rw [tuple_ge_iff, tuple_ge_iff]; rcases List.le_total a.tuple b.tuple with h | h
                       · exact Or.inr (List.not_lt.2 h)
                       · exact Or.inl (List.not_lt.2 h)⟩
      have htr : IsTrans Version fun a b => tupleCmp .ge a.tuple b.tuple = true := ⟨fun _ _ _ h h' => tuple_ge_trans h h'⟩
      have hs := List.pairwise_insertionSort (fun a b : Version => tupleCmp .ge a.tuple b.tuple = true) ws
      refine hs.imp_of_mem ?_
      intro a b ha hb hab
      obtain ⟨_, _, _, _, ha⟩ := h2 a (hp.subset ha)
      obtain ⟨_, _, _, _, hb⟩ := h2 b (hp.subset hb)
      simp only [Version.tuple, ha, hb] at hab
      simp only [Version.cmp, ha, hb, hab]

/-- Finding: on a storage where one solution is at "main" and the other at a numbered patch, the iteration raises
`TypeError` at the first pair it has to compare. -/
theorem C40_main (c g : Elem) (cs gs : Gen Elem) (t : List Int)
    (h : c.version.t = .main ∧ g.version.t = .nums t ∨ c.version.t = .nums t ∧ g.version.t = .main) :
    mergeElements (.ok c :: cs) (.ok g :: gs) = ([], .error .type) := by
  have : g.version.cmp .gt c.version = .error .type := by
    unfold Version.cmp
    rcases h with ⟨h1, h2⟩ | ⟨h1, h2⟩ <;> rw [h1, h2]
  rw [mergeElements, this]

/-! Non-vacuity -/
def exElem (n : Nat) (t : List Int) : Elem := ⟨[], ⟨[], .nums t⟩, n⟩
example : Comparable ([exElem 0 [9, 2], exElem 1 [9, 1]] ++ [exElem 2 [9, 2], exElem 3 [8, 24]]) ∧
    [exElem 0 [9, 2], exElem 1 [9, 1]].Pairwise Elem.newer := by
  refine ⟨?_, by unfold Elem.newer; decide +kernel⟩
  intro a ha b hb
  simp only [List.cons_append, List.nil_append, List.mem_cons, List.not_mem_nil, or_false] at ha hb
  rcases ha with rfl | rfl | rfl | rfl <;> rcases hb with rfl | rfl | rfl | rfl <;> exact ⟨_, rfl⟩
example : mergeElements ([exElem 0 [9, 2], exElem 1 [9, 1]].map .ok) ([exElem 2 [9, 2], exElem 3 [8, 24]].map .ok) =
    ([exElem 0 [9, 2], exElem 2 [9, 2], exElem 1 [9, 1], exElem 3 [8, 24]], .ok ()) := by
  simp [mergeElements, exElem, Version.cmp, tupleCmp, CmpOp.eval]
example : solutionVersions ["0.0.0.9".toList, "0.0.1.0".toList, "0.0.0.43".toList] =
    .ok [⟨"0.0.1.0".toList, .nums [0, 0, 1, 0]⟩, ⟨"0.0.0.43".toList, .nums [0, 0, 0, 43]⟩,
      ⟨"0.0.0.9".toList, .nums [0, 0, 0, 9]⟩] := by decide +kernel

end Cdtb
