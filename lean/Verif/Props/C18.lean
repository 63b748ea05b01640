import Verif.Model.Rst
import Verif.Lemmas.Dict
import Verif.Py.Str
/-!
# C18 RST lookups
-/
namespace Cdtb
set_option autoImplicit false
open Py

/-- `key in rst`, `rst[key]` and `rst.get(key, default)` agree, for keys of any type. -/
theorem C18_agree (env : RstEnv) (r : Rst) (key : RstKey) :
    (r.hasKey env key = true ↔ ∃ t, r.getitem env key = .ok t) ∧
    (∀ t, r.getitem env key = .ok t → ∀ d, r.getD env key d = some t) ∧
    (r.hasKey env key = false → r.getitem env key = .error .key ∧ ∀ d, r.getD env key d = d) := by
  unfold Rst.getD Rst.hasKey Rst.getitem Dict.contains
  rcases keyToHash env key r.hashBits r.gameVersion with e | h
  · simp
  · simp only
    rcases r.entries.get? h with _ | t
    · simp
    · simp

/-- String keys that are the same once lowercased give the same results. -/
theorem C18_case (env : RstEnv) (r : Rst) (s t : Str) (h : env.lower s = env.lower t) :
    r.hasKey env (.str s) = r.hasKey env (.str t) ∧ r.getitem env (.str s) = r.getitem env (.str t) ∧
    ∀ d, r.getD env (.str s) d = r.getD env (.str t) d := by
  have : keyToHash env (.str s) r.hashBits r.gameVersion = keyToHash env (.str t) r.hashBits r.gameVersion := by
    unfold keyToHash; simp only [h]
  unfold Rst.getD Rst.hasKey Rst.getitem
  rw [this]
  exact ⟨rfl, rfl, fun _ => rfl⟩

/-- Integer keys are reduced to the width of the hashes: keys that differ by a multiple of `2 ^ hashBits` give
the same result, and a key within the width designates the entry with that hash. -/
theorem C18_int (env : RstEnv) (r : Rst) :
    (∀ (n k : Int), r.getitem env (.int (n + k * 2 ^ r.hashBits)) = r.getitem env (.int n)) ∧
    (∀ n : Nat, n < 2 ^ r.hashBits →
      (∀ t, r.getitem env (.int n) = .ok t ↔ r.entries.get? n = some t) ∧
      (r.hasKey env (.int n) = true ↔ n ∈ r.entries.keys)) := by
  constructor
  · intro n k
    unfold Rst.getitem keyToHash
    simp only
    have : (n + k * 2 ^ r.hashBits) % ((2 ^ r.hashBits : Nat) : Int) = n % ((2 ^ r.hashBits : Nat) : Int) := by
      push_cast
      rw [Int.add_mul_emod_self_right]
    rw [this]
  · intro n hn
    have : ((n : Int) % ((2 ^ r.hashBits : Nat) : Int)).toNat = n := by
      rw [Int.emod_eq_of_lt (by omega) (by exact_mod_cast hn)]; rfl
    unfold Rst.getitem Rst.hasKey keyToHash
    simp only [this]
    constructor
    · intro t
      rcases r.entries.get? n with _ | t' <;> simp
    · exact Dict.contains_iff

/-- String keys designate the entry with the hash of the lowercased key, by the algorithm of the game version,
on the width of the hashes. -/
theorem C18_str (env : RstEnv) (r : Rst) (s t : Str) :
    r.getitem env (.str s) = .ok t ↔
      r.entries.get? ((if r.gameVersion < 1415 then env.xxh64 else env.xxh3) (env.lower s) % 2 ^ r.hashBits) = some t := by
  unfold Rst.getitem keyToHash
  by_cases h : r.gameVersion < 1415
  · rw [if_pos h]
    simp only [if_neg (show ¬ r.gameVersion ≥ 1415 by omega)]
    rcases r.entries.get? _ with _ | t' <;> simp
  · rw [if_neg h]
    simp only [if_pos (show r.gameVersion ≥ 1415 by omega)]
    rcases r.entries.get? _ with _ | t' <;> simp

/-- Keys of other types are never in the table. -/
theorem C18_other (env : RstEnv) (r : Rst) :
    r.hasKey env .other = false ∧ r.getitem env .other = .error .key ∧ ∀ d, r.getD env .other d = d :=
  ⟨rfl, rfl, fun _ => rfl⟩

/-- Non-vacuity -/
example :
    let env : RstEnv := { decodeInvalid := fun _ => [], b64 := fun _ => [], xxh3 := fun s => 1000 + s.length,
                          xxh64 := fun s => 2000 + s.length, lower := lower }
    let r : Rst := { fontConfig := none, entries := [(1003 % 256, "x".toList)], hashBits := 8, version := 5, gameVersion := 1502 }
    r.getitem env (.str "ABC".toList) = .ok "x".toList ∧ r.getitem env (.str "abc".toList) = .ok "x".toList ∧
    r.getitem env (.int 1003) = .ok "x".toList ∧ r.getitem env (.str "abcd".toList) = .error .key ∧
    r.hasKey env (.int (1003 - 2048)) = true := by decide +kernel

end Cdtb
