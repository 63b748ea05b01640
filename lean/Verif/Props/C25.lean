import Verif.Props.C20
/-!
# C25 Comparison of hashed names
-/
namespace Cdtb
set_option autoImplicit false
open Py Spec

/-- Two hashed names are equal exactly when their hashes are, whatever they resolve to, and whatever their kinds. -/
theorem C25_hashed (env : BinEnv) (a b : BinHash) : a.eq env (.hashed b) = .ok true ↔ a.h = b.h := by
  unfold BinHash.eq; simp

/-- Equality of hashed names is decided (no exception) and symmetric. -/
theorem C25_symmetric (env : BinEnv) (a b : BinHash) : a.eq env (.hashed b) = b.eq env (.hashed a) := by
  unfold BinHash.eq
  simp only [eq_comm]

/-- An unresolved name equals a text exactly when the hash of the text is its hash. -/
theorem C25_unresolved (env : BinEnv) (kind : BinHashKind) (h : Nat) (hu : (env.known kind).get? h = none) (s : Str) :
    (kind ≠ .path → Ascii s → ((env.mk' kind h).eq env (.str s) = .ok true ↔ (fnv1a (lowerBytes s)).toNat = h)) ∧
    (kind ≠ .path → ¬ Ascii s → (env.mk' kind h).eq env (.str s) = .error .unicode) ∧
    (kind = .path → ((env.mk' kind h).eq env (.str s) = .ok true ↔ env.xxh64Lower s = h)) := by
  unfold BinEnv.mk' BinHash.eq
  simp only [hu]
  refine ⟨?_, ?_, ?_⟩
  · intro hk ha
    have : env.computeHash kind s = .ok (fnv1a (lowerBytes s)).toNat := by
      unfold BinEnv.computeHash
      rw [C20_fnv s ha]
      cases kind <;> first | rfl | exact absurd rfl hk
    rw [this]
    simp only [Bind.bind, Except.bind, Pure.pure, Except.pure, Except.ok.injEq, decide_eq_true_eq]
    exact eq_comm
  · intro hk ha
    have : env.computeHash kind s = .error .unicode := by
      unfold BinEnv.computeHash
      rw [C20_non_ascii s ha]
      cases kind <;> first | rfl | exact absurd rfl hk
    rw [this]
    rfl
  · rintro rfl
    simp only [BinEnv.computeHash, Bind.bind, Except.bind, Pure.pure, Except.pure, Except.ok.injEq, decide_eq_true_eq]
    exact eq_comm

/-- So an unresolved name compares the same to texts that only differ by the case of ASCII letters. -/
theorem C25_unresolved_case (env : BinEnv) (kind : BinHashKind) (hk : kind ≠ .path) (h : Nat)
    (hu : (env.known kind).get? h = none) (s t : Str) (hst : s.map Char.toLower = t.map Char.toLower) :
    (env.mk' kind h).eq env (.str s) = (env.mk' kind h).eq env (.str t) := by
  unfold BinEnv.mk' BinHash.eq
  simp only [hu]
  have : env.computeHash kind s = env.computeHash kind t := by
    unfold BinEnv.computeHash
    rw [C20_case s t hst]
    cases kind <;> first | rfl | exact absurd rfl hk
  rw [this]

/-- A resolved name equals exactly the text it resolves to. -/
theorem C25_resolved (env : BinEnv) (kind : BinHashKind) (h : Nat) (t : Str) (hr : (env.known kind).get? h = some t)
    (s : Str) : (env.mk' kind h).eq env (.str s) = .ok true ↔ s = t := by
  unfold BinEnv.mk' BinHash.eq
  simp only [hr, Except.ok.injEq, decide_eq_true_eq]
  exact eq_comm

/-- Boundary: learning the text of a hash can turn a match into a mismatch, when the list of hashes spells it with
another case. -/
theorem C25_boundary (env : BinEnv) (kind : BinHashKind) (hk : kind ≠ .path) (h : Nat) (s t : Str) (ha : Ascii s)
    (hs : (fnv1a (lowerBytes s)).toNat = h) (hst : s ≠ t) (hu : (env.known kind).get? h = none) :
    (env.mk' kind h).eq env (.str s) = .ok true ∧
    ∀ env' : BinEnv, (env'.known kind).get? h = some t → (env'.mk' kind h).eq env' (.str s) ≠ .ok true := by
  refine ⟨((C25_unresolved env kind h hu s).1 hk ha).2 hs, ?_⟩
  intro env' hr he
  exact hst ((C25_resolved env' kind h t hr s).1 he)

/-- Comparing to a number compares the hash; comparing to anything else is false. -/
theorem C25_other (env : BinEnv) (b : BinHash) :
    (∀ n : Int, b.eq env (.int n) = .ok true ↔ (b.h : Int) = n) ∧ b.eq env .other = .ok false := by
  unfold BinHash.eq; simp

/-- Non-vacuity: "MNAME" matches the unresolved name, and does not match the one resolved as "mName". -/
example :
    let env : BinEnv := { known := fun _ => [], xxh64Lower := fun _ => 0 }
    let h := (fnv1a (lowerBytes "mname".toList)).toNat
    let env' : BinEnv := { known := fun _ => [(h, "mName".toList)], xxh64Lower := fun _ => 0 }
    (env.mk' .field h).eq env (.str "MNAME".toList) = .ok true ∧ (env'.mk' .field h).eq env' (.str "MNAME".toList) = .ok false ∧
    (env'.mk' .field h).eq env' (.str "mName".toList) = .ok true := by decide +kernel

end Cdtb
