import Verif.Model.Version
import Verif.Lemmas.Num
import Verif.Lemmas.Str
/-! Lemmas about versions. -/
namespace Cdtb
set_option autoImplicit false
open Py

theorem CmpOp.eval_le (x y : Int) : CmpOp.le.eval x y = !CmpOp.lt.eval y x := by
  simp only [CmpOp.eval, ← decide_not, not_lt]
theorem CmpOp.eval_ge (x y : Int) : CmpOp.ge.eval x y = !CmpOp.lt.eval x y := by
  simp only [CmpOp.eval, ← decide_not, not_lt]
theorem CmpOp.eval_gt (x y : Int) : CmpOp.gt.eval x y = CmpOp.lt.eval y x := rfl

theorem tupleCmp_lt (t u : List Int) : tupleCmp .lt t u = decide (t < u) := by
  induction t generalizing u with
  | nil => cases u <;> simp [tupleCmp, CmpOp.eval]
  | cons x xs ih =>
    cases u with
    | nil => simp [tupleCmp, CmpOp.eval]; omega
    | cons y ys =>
      by_cases h : x = y
      · subst h; simp [tupleCmp, ih]
      · simp [tupleCmp, h, CmpOp.eval, List.cons_lt_cons_iff]

theorem tupleCmp_gt (t u : List Int) : tupleCmp .gt t u = tupleCmp .lt u t := by
  induction t generalizing u with
  | nil => cases u <;> simp [tupleCmp, CmpOp.eval_gt]
  | cons x xs ih =>
    cases u with
    | nil => simp [tupleCmp, CmpOp.eval_gt]
    | cons y ys => simp [tupleCmp, ih, CmpOp.eval_gt, eq_comm]

theorem tupleCmp_le (t u : List Int) : tupleCmp .le t u = !tupleCmp .lt u t := by
  induction t generalizing u with
  | nil => cases u <;> simp [tupleCmp, CmpOp.eval_le]
  | cons x xs ih =>
    cases u with
    | nil => simp [tupleCmp, CmpOp.eval_le]
    | cons y ys =>
      by_cases h : x = y
      · subst h; simp [tupleCmp, ih]
      · simp [tupleCmp, h, Ne.symm h, CmpOp.eval_le]

theorem tupleCmp_ge (t u : List Int) : tupleCmp .ge t u = !tupleCmp .lt t u := by
  induction t generalizing u with
  | nil => cases u <;> simp [tupleCmp, CmpOp.eval_ge]
  | cons x xs ih =>
    cases u with
    | nil => simp [tupleCmp, CmpOp.eval_ge]
    | cons y ys =>
      by_cases h : x = y
      · subst h; simp [tupleCmp, ih]
      · simp [tupleCmp, h, CmpOp.eval_ge]

theorem join_showInt_inj {t u : List Int} (ht : t ≠ []) (hu : u ≠ [])
    (h : join ['.'] (t.map showInt) = join ['.'] (u.map showInt)) : t = u := by
  have key : ∀ l : List Int, ∀ p ∈ l.map showInt, '.' ∉ p := by
    intro l p hp hd
    obtain ⟨n, _, rfl⟩ := List.mem_map.1 hp
    exact (showInt_no_dot hd).1 rfl
  have h1 := splitChar_join (c := '.') (ps := t.map showInt) (by simpa using ht) (key t)
  have h2 := splitChar_join (c := '.') (ps := u.map showInt) (by simpa using hu) (key u)
  rw [h, h2] at h1
  exact (List.map_injective_iff.2 (fun _ _ => showInt_inj) h1).symm

theorem mapM_intOrErr_showInt (t : List Int) : (t.map showInt).mapM intOrErr = .ok t := by
  induction t with
  | nil => rfl
  | cons x xs ih =>
    rw [List.map_cons, List.mapM_cons, ih]
    simp [intOrErr, int10_showInt]; rfl

theorem baseVersion_str_join {t : List Int} (ht : t ≠ []) :
    baseVersion (.str (join ['.'] (t.map showInt))) = .ok ⟨join ['.'] (t.map showInt), .nums t⟩ := by
  have hne : join ['.'] (t.map showInt) ≠ [] := by
    apply join_nonempty
    cases t with
    | nil => exact absurd rfl ht
    | cons x xs => exact ⟨showInt x, by simp, showInt_ne_nil x⟩
  have key : ∀ p ∈ t.map showInt, '.' ∉ p := by
    intro p hp hd
    obtain ⟨n, _, rfl⟩ := List.mem_map.1 hp
    exact (showInt_no_dot hd).1 rfl
  have h1 := splitChar_join (c := '.') (ps := t.map showInt) (by simpa using ht) key
  simp only [baseVersion, List.isEmpty_iff, hne, if_false, h1, mapM_intOrErr_showInt]
  rfl

end Cdtb
