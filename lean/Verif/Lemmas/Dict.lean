import Verif.Py.Basic
/-!
# Lemmas on dicts
-/
namespace Cdtb
set_option autoImplicit false
namespace Dict
variable {K V : Type} [DecidableEq K]

theorem get?_set_self (d : Dict K V) (k : K) (v : V) : (d.set k v).get? k = some v := by
  induction d with
  | nil => simp [set, get?]
  | cons x r ih =>
    obtain ⟨k', v'⟩ := x
    by_cases h : k' = k <;> simp [set, get?, h, ih]

theorem get?_set_ne (d : Dict K V) {k k' : K} (v : V) (h : k' ≠ k) : (d.set k v).get? k' = d.get? k' := by
  induction d with
  | nil => simp [set, get?, h.symm]
  | cons x r ih =>
    obtain ⟨k₁, v₁⟩ := x
    by_cases h1 : k₁ = k
    · subst h1; simp [set, get?, h.symm]
    · simp only [set, h1, if_false, get?, ih]

theorem get?_set (d : Dict K V) (k k' : K) (v : V) :
    (d.set k v).get? k' = if k' = k then some v else d.get? k' := by
  by_cases h : k' = k
  · subst h; simp [get?_set_self]
  · simp [h, get?_set_ne]

theorem get?_eq_none {d : Dict K V} {k : K} : d.get? k = none ↔ k ∉ d.keys := by
  induction d with
  | nil => simp [get?, keys]
  | cons x r ih =>
    obtain ⟨k', v'⟩ := x
    by_cases h : k' = k
    · simp [get?, keys, h]
    · simp only [get?, h, if_false, keys, List.map_cons, List.mem_cons, not_or]
      rw [ih]
      simp [keys, Ne.symm h]

theorem get?_isSome {d : Dict K V} {k : K} : (d.get? k).isSome = true ↔ k ∈ d.keys := by
  rw [Option.isSome_iff_ne_none, ne_eq, get?_eq_none, Classical.not_not]

theorem contains_iff {d : Dict K V} {k : K} : d.contains k = true ↔ k ∈ d.keys := get?_isSome

theorem contains_eq_false {d : Dict K V} {k : K} : d.contains k = false ↔ k ∉ d.keys := by
  rw [← contains_iff]; simp

theorem mem_of_get? {d : Dict K V} {k : K} {v : V} (h : d.get? k = some v) : (k, v) ∈ d := by
  induction d with
  | nil => simp [get?] at h
  | cons x r ih =>
    obtain ⟨k', v'⟩ := x
    by_cases h1 : k' = k
    · simp [get?, h1] at h; simp [h1, h]
    · simp [get?, h1] at h; exact List.mem_cons_of_mem _ (ih h)

/-- Well formed: no repeated key (every dict built by the code is). -/
def WF (d : Dict K V) : Prop := d.keys.Nodup

theorem get?_of_mem {d : Dict K V} {k : K} {v : V} (hd : WF d) (h : (k, v) ∈ d) : d.get? k = some v := by
  induction d with
  | nil => simp at h
  | cons x r ih =>
    obtain ⟨k', v'⟩ := x
    simp only [WF, keys, List.map_cons, List.nodup_cons] at hd
    rcases List.mem_cons.1 h with h | h
    · cases h; simp [get?]
    · have : k' ≠ k := by
        rintro rfl
        exact hd.1 (List.mem_map.2 ⟨_, h, rfl⟩)
      simp [get?, this, ih hd.2 h]

theorem mem_iff_get? {d : Dict K V} (hd : WF d) {k : K} {v : V} : (k, v) ∈ d ↔ d.get? k = some v :=
  ⟨get?_of_mem hd, mem_of_get?⟩

omit [DecidableEq K] in
theorem keys_cons (x : K × V) (r : Dict K V) : keys (x :: r) = x.1 :: keys r := rfl

theorem keys_set (d : Dict K V) (k : K) (v : V) :
    (d.set k v).keys = if k ∈ d.keys then d.keys else d.keys ++ [k] := by
  induction d with
  | nil => simp [set, keys]
  | cons x r ih =>
    obtain ⟨k', v'⟩ := x
    by_cases h : k' = k
    · simp [set, keys, h]
    · by_cases hk : k ∈ keys r
      · rw [if_pos hk] at ih
        rw [if_pos (by rw [keys_cons]; exact List.mem_cons_of_mem _ hk)]
        simp only [set, h, if_false, keys_cons, ih]
      · rw [if_neg hk] at ih
        rw [if_neg (by rw [keys_cons, List.mem_cons, not_or]; exact ⟨Ne.symm h, hk⟩)]
        simp only [set, h, if_false, keys_cons, ih, List.cons_append]

theorem WF.set {d : Dict K V} (hd : WF d) (k : K) (v : V) : WF (d.set k v) := by
  unfold WF
  rw [keys_set]
  split
  · exact hd
  · rename_i h
    exact List.nodup_append.2 ⟨hd, by simp, by
      intro a ha b hb; simp at hb; subst hb; rintro rfl; exact h ha⟩

omit [DecidableEq K] in
theorem WF.nil : WF ([] : Dict K V) := by simp [WF, keys]

theorem set_of_not_mem {d : Dict K V} {k : K} (h : k ∉ d.keys) (v : V) : d.set k v = d ++ [(k, v)] := by
  induction d with
  | nil => rfl
  | cons x r ih =>
    obtain ⟨k', v'⟩ := x
    simp only [keys, List.map_cons, List.mem_cons, not_or] at h
    simp [set, Ne.symm h.1, ih h.2]

theorem get?_append (d e : Dict K V) (k : K) : get? (d ++ e) k = (d.get? k).or (e.get? k) := by
  induction d with
  | nil => simp [get?]
  | cons x r ih =>
    obtain ⟨k', v'⟩ := x
    by_cases h : k' = k <;> simp [get?, h, ih]

theorem length_set (d : Dict K V) (k : K) (v : V) :
    (d.set k v).length = if k ∈ d.keys then d.length else d.length + 1 := by
  have := congrArg List.length (keys_set d k v)
  by_cases hk : k ∈ d.keys
  · rw [if_pos hk] at this ⊢; simpa [keys] using this
  · rw [if_neg hk] at this ⊢; simpa [keys] using this

/-- Folding `d[k] = v` over a list: the last pair with the key wins. -/
theorem get?_foldl_set (l : List (K × V)) (d : Dict K V) (k : K) :
    (l.foldl (fun d kv => d.set kv.1 kv.2) d).get? k =
      ((l.reverse.find? (fun kv => kv.1 = k)).map (·.2)).or (d.get? k) := by
  induction l generalizing d with
  | nil => simp
  | cons x r ih =>
    obtain ⟨k', v'⟩ := x
    simp only [List.foldl_cons, List.reverse_cons, List.find?_append]
    rw [ih, get?_set]
    cases hf : List.find? (fun kv => decide (kv.1 = k)) r.reverse with
    | some y => simp
    | none =>
      by_cases h : k' = k
      · simp [h]
      · simp [h, Ne.symm h]

theorem get?_ofList (l : List (K × V)) (k : K) :
    (ofList l).get? k = (l.reverse.find? (fun kv => kv.1 = k)).map (·.2) := by
  unfold ofList
  rw [get?_foldl_set]
  simp [get?]

theorem WF.foldl_set {α : Type} {f : α → K} {g : α → V} (l : List α) (d : Dict K V) (hd : WF d) :
    WF (l.foldl (fun d a => d.set (f a) (g a)) d) := by
  induction l generalizing d with
  | nil => exact hd
  | cons x r ih => exact ih _ (hd.set _ _)

theorem WF.ofList (l : List (K × V)) : WF (ofList l) := by
  unfold Dict.ofList
  exact WF.foldl_set (f := (·.1)) (g := (·.2)) l [] .nil

theorem mem_keys_foldl_set (l : List (K × V)) (d : Dict K V) (k : K) :
    k ∈ (l.foldl (fun d kv => d.set kv.1 kv.2) d).keys ↔ k ∈ d.keys ∨ k ∈ l.map (·.1) := by
  induction l generalizing d with
  | nil => simp
  | cons x r ih =>
    rw [List.foldl_cons, ih, keys_set]
    split
    · simp only [List.map_cons, List.mem_cons]
      constructor
      · rintro (h | h) <;> simp_all
      · rintro (h | rfl | h) <;> simp_all
    · simp only [List.mem_append, List.map_cons, List.mem_cons, List.mem_singleton]
      simp [or_assoc]

theorem mem_keys_ofList (l : List (K × V)) (k : K) : k ∈ (ofList l).keys ↔ k ∈ l.map (·.1) := by
  unfold ofList; rw [mem_keys_foldl_set]; simp [keys]

/-- With distinct keys, `dict(l)` is `l`. -/
theorem ofList_of_nodup {l : List (K × V)} (h : (l.map (·.1)).Nodup) : ofList l = l := by
  suffices ∀ (d : Dict K V), (∀ k ∈ l.map (·.1), k ∉ d.keys) →
      l.foldl (fun d kv => d.set kv.1 kv.2) d = d ++ l by
    have := this [] (by simp [keys])
    rwa [List.nil_append] at this
  induction l with
  | nil => simp
  | cons x r ih =>
    intro d hd
    simp only [List.map_cons, List.nodup_cons] at h
    rw [List.foldl_cons, set_of_not_mem (hd _ (by simp)), ih h.2]
    · simp
    · intro k hk
      simp only [keys, List.map_append, List.mem_append, List.map_cons, List.map_nil, List.mem_singleton, not_or]
      exact ⟨hd k (by simp only [List.map_cons, List.mem_cons]; exact Or.inr hk), fun e => h.1 (e ▸ hk)⟩

theorem get?_erase {d : Dict K V} (hd : WF d) (k k' : K) :
    (d.erase k).get? k' = if k' = k then none else d.get? k' := by
  induction d with
  | nil => simp [erase, get?]
  | cons x r ih =>
    obtain ⟨k₁, v₁⟩ := x
    simp only [WF, keys, List.map_cons, List.nodup_cons] at hd
    by_cases h1 : k₁ = k
    · subst h1
      simp only [erase, if_true]
      by_cases h2 : k' = k₁
      · subst h2; simp only [if_true]; exact get?_eq_none.2 hd.1
      · simp [get?, h2, Ne.symm h2]
    · simp only [erase, h1, if_false, get?]
      rw [ih hd.2]
      by_cases h2 : k₁ = k'
      · subst h2; simp [h1]
      · simp [h2]

theorem keys_erase (d : Dict K V) (k : K) : (d.erase k).keys = d.keys.erase k := by
  induction d with
  | nil => rfl
  | cons x r ih =>
    obtain ⟨k₁, v₁⟩ := x
    by_cases h1 : k₁ = k
    · simp [erase, keys, h1]
    · simp only [keys] at ih
      simp [erase, keys, h1, ih, List.erase_cons]

theorem WF.erase {d : Dict K V} (hd : WF d) (k : K) : WF (d.erase k) := by
  unfold WF; rw [keys_erase]; exact List.Nodup.erase k hd

/-- Values changed in place -/
theorem get?_mapVal {W : Type} (g : K → V → W) (d : Dict K V) (k : K) :
    get? (d.map (fun kv => (kv.1, g kv.1 kv.2))) k = (d.get? k).map (g k) := by
  induction d with
  | nil => simp [get?]
  | cons x r ih =>
    obtain ⟨k', v⟩ := x
    rw [List.map_cons, get?, get?]
    split
    · next h => subst h; rfl
    · exact ih

theorem keys_mapVal {W : Type} (g : K → V → W) (d : Dict K V) :
    keys (d.map (fun kv => (kv.1, g kv.1 kv.2))) = d.keys := by
  simp [keys]

theorem WF.mapVal {W : Type} {d : Dict K V} (hd : WF d) (g : K → V → W) : WF (d.map (fun kv => (kv.1, g kv.1 kv.2)) : Dict K W) := by
  unfold WF; rw [keys_mapVal]; exact hd

theorem WF.filter {d : Dict K V} (hd : WF d) (f : K × V → Bool) : WF (d.filter f : Dict K V) :=
  List.Nodup.sublist (List.Sublist.map _ List.filter_sublist) hd

theorem get?_filter {d : Dict K V} (hd : WF d) (f : K × V → Bool) (k : K) (v : V) :
    get? (d.filter f) k = some v ↔ d.get? k = some v ∧ f (k, v) = true := by
  rw [← mem_iff_get? (hd.filter f), ← mem_iff_get? hd, List.mem_filter]

end Dict
end Cdtb
