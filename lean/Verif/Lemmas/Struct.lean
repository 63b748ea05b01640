import Verif.Py.Struct
import Mathlib.Tactic.Ring
import Mathlib.Tactic.Linarith
/-!
# Lemmas on binary readers
-/
namespace Cdtb
set_option autoImplicit false
open Rd

@[simp] theorem le_length (w n : Nat) : (le w n).length = w := by
  induction w generalizing n with
  | zero => rfl
  | succ w ih => simp [le, ih]

theorem leNat_le (w n : Nat) (h : n < 256 ^ w) : leNat (le w n) = n := by
  induction w generalizing n with
  | zero => simp [le, leNat] at *; omega
  | succ w ih =>
    have h2 : n / 256 < 256 ^ w := by
      rw [Nat.div_lt_iff_lt_mul (by omega)]; rw [pow_succ] at h; exact h
    simp only [le, leNat, ih _ h2, UInt8.toNat_ofNat']
    omega

theorem leNat_lt (bs : Bytes) : leNat bs < 256 ^ bs.length := by
  induction bs with
  | nil => simp [leNat]
  | cons b bs ih =>
    have := b.toNat_lt
    simp only [leNat, List.length_cons, pow_succ]
    omega

theorem le_leNat (bs : Bytes) : le bs.length (leNat bs) = bs := by
  induction bs with
  | nil => rfl
  | cons b bs ih =>
    have := b.toNat_lt
    simp only [List.length_cons, leNat, le]
    have h1 : (b.toNat + 256 * leNat bs) % 256 = b.toNat := by omega
    have h2 : (b.toNat + 256 * leNat bs) / 256 = leNat bs := by omega
    rw [h1, h2, ih]; simp

@[simp] theorem leI_length (w : Nat) (n : Int) : (leI w n).length = w := by simp [leI]

theorem leInt_leI (w : Nat) (n : Int) (hw : 0 < w) (h1 : -((256 ^ w : Nat) / 2 : Int) ≤ n) (h2 : n < ((256 ^ w : Nat) / 2 : Int)) :
    leInt (leI w n) = n := by
  obtain ⟨m, hm⟩ : ∃ m, 256 ^ w = 2 * m := ⟨256 ^ (w - 1) * 128, by
    obtain ⟨k, rfl⟩ := Nat.exists_eq_add_of_lt hw
    simp [pow_succ]; ring⟩
  have hpos : 0 < 256 ^ w := Nat.pos_of_ne_zero (by simp)
  unfold leInt leI
  have hlt : (n % (256 ^ w : Nat)).toNat < 256 ^ w := by
    have := Int.emod_lt_of_pos n (b := (256 ^ w : Nat)) (by exact_mod_cast hpos)
    have := Int.emod_nonneg n (b := (256 ^ w : Nat)) (by exact_mod_cast hpos.ne')
    omega
  rw [leNat_le _ _ hlt, le_length]
  generalize 256 ^ w = M at *
  subst hm
  rcases le_or_gt 0 n with hn | hn
  · have : n % (2 * m : Nat) = n := Int.emod_eq_of_lt hn (by omega)
    rw [this]
    split <;> omega
  · have : n % (2 * m : Nat) = n + (2 * m : Nat) := by
      rw [← Int.add_emod_right]
      exact Int.emod_eq_of_lt (by omega) (by omega)
    rw [this]
    split <;> omega

theorem Rd.bind_ok {α β : Type} {p : Rd α} {f : α → Rd β} {data : Bytes} {pos pos' : Nat} {a : α}
    (h : p data pos = .ok (a, pos')) : (p >>= f) data pos = f a data pos' := by
  simp only [Bind.bind, h]

theorem Rd.bind_error {α β : Type} {p : Rd α} {f : α → Rd β} {data : Bytes} {pos : Nat} {e : Err}
    (h : p data pos = .error e) : (p >>= f) data pos = .error e := by
  simp only [Bind.bind, h]

theorem Rd.bind_pure_result {α β : Type} {p : Rd α} {g : α → β} {data : Bytes} {pos : Nat} :
    (p >>= fun a => pure (g a)) data pos = match p data pos with
      | .ok (a, pos') => .ok (g a, pos')
      | .error e => .error e := by
  simp only [Bind.bind]
  rcases p data pos with e | ⟨a, pos'⟩ <;> rfl

/-! ## Readers of layouts -/

/-- Reading at the start of the layout `bs`, wherever it is in the file, consumes it and gives `a`. -/
def Reads {α : Type} (p : Rd α) (bs : Bytes) (a : α) : Prop :=
  ∀ pre post : Bytes, p (pre ++ bs ++ post) pre.length = .ok (a, pre.length + bs.length)

/-- The same, when the layout extends to the end of the file. -/
def ReadsEnd {α : Type} (p : Rd α) (bs : Bytes) (a : α) : Prop :=
  ∀ pre : Bytes, p (pre ++ bs) pre.length = .ok (a, pre.length + bs.length)

theorem Reads.toEnd {α : Type} {p : Rd α} {bs : Bytes} {a : α} (h : Reads p bs a) : ReadsEnd p bs a := by
  intro pre; have := h pre []; simpa using this

section
variable {α β : Type}

theorem Reads.pure (a : α) : Reads (Pure.pure a) [] a := fun pre post => by simp [Pure.pure]

theorem Reads.bind {p : Rd α} {f : α → Rd β} {bs cs : Bytes} {a : α} {b : β}
    (h1 : Reads p bs a) (h2 : Reads (f a) cs b) : Reads (p >>= f) (bs ++ cs) b := by
  intro pre post
  have e1 := h1 pre (cs ++ post)
  have e2 := h2 (pre ++ bs) post
  simp only [Bind.bind]
  rw [show pre ++ (bs ++ cs) ++ post = pre ++ bs ++ (cs ++ post) by simp, e1]
  simp only
  rw [show pre ++ bs ++ (cs ++ post) = pre ++ bs ++ cs ++ post by simp]
  rw [show pre.length + bs.length = (pre ++ bs).length by simp, e2]
  simp [Nat.add_assoc]

theorem Reads.bindEnd {p : Rd α} {f : α → Rd β} {bs cs : Bytes} {a : α} {b : β}
    (h1 : Reads p bs a) (h2 : ReadsEnd (f a) cs b) : ReadsEnd (p >>= f) (bs ++ cs) b := by
  intro pre
  have e1 := h1 pre cs
  have e2 := h2 (pre ++ bs)
  simp only [Bind.bind]
  rw [show pre ++ (bs ++ cs) = pre ++ bs ++ cs by simp, e1]
  simp only
  rw [show pre.length + bs.length = (pre ++ bs).length by simp, e2]
  simp [Nat.add_assoc]

/-- A continuation that reads nothing more. -/
theorem Reads.map {p : Rd α} {f : α → Rd β} {bs : Bytes} {a : α} {b : β}
    (h1 : Reads p bs a) (h2 : f a = Pure.pure b) : Reads (p >>= f) bs b := by
  have := Reads.bind (f := f) h1 (by rw [h2]; exact Reads.pure b)
  simpa using this

/-- Prefixing with something that reads nothing. -/
theorem Reads.bind_nil {p : Rd α} {f : α → Rd β} {cs : Bytes} {a : α} {b : β}
    (h1 : Reads p [] a) (h2 : Reads (f a) cs b) : Reads (p >>= f) cs b := Reads.bind h1 h2

theorem Reads.raw (bs : Bytes) : Reads (Rd.raw bs.length) bs bs := by
  intro pre post
  simp [Rd.raw]

theorem Reads.raw' {n : Nat} {bs : Bytes} (h : n = bs.length) : Reads (Rd.raw n) bs bs := h ▸ Reads.raw bs

theorem Reads.exact (bs : Bytes) : Reads (Rd.exact bs.length) bs bs := by
  intro pre post
  simp [Rd.exact]

theorem Reads.exact' {n : Nat} {bs : Bytes} (h : n = bs.length) : Reads (Rd.exact n) bs bs := h ▸ Reads.exact bs

theorem ReadsEnd.rest (bs : Bytes) : ReadsEnd Rd.rest bs bs := by
  intro pre; simp [Rd.rest]

theorem Reads.u {w n : Nat} (h : n < 256 ^ w) : Reads (Rd.u w) (le w n) n := by
  have := Reads.map (f := fun b => (Pure.pure (leNat b) : Rd Nat)) (Reads.exact (le w n)) rfl
  rw [leNat_le w n h, le_length] at this
  exact this

theorem Reads.i {w : Nat} {n : Int} (hw : 0 < w) (h1 : -((256 ^ w : Nat) / 2 : Int) ≤ n) (h2 : n < ((256 ^ w : Nat) / 2 : Int)) :
    Reads (Rd.i w) (leI w n) n := by
  have := Reads.map (f := fun b => (Pure.pure (leInt b) : Rd Int)) (Reads.exact (leI w n)) rfl
  rw [leInt_leI w n hw h1 h2, leI_length] at this
  exact this

theorem Reads.bool (b : Bool) : Reads Rd.bool [if b then 1 else 0] b := by
  have h : Reads (Rd.u 1) (le 1 (if b then 1 else 0)) (if b then 1 else 0) := Reads.u (by cases b <;> simp)
  have := Reads.map (f := fun n => (Pure.pure (decide (n ≠ 0)) : Rd Bool)) (b := b) h (by cases b <;> rfl)
  cases b <;> exact this

theorem Reads.lift {a : α} {r : Res α} (h : r = .ok a) : Reads (Rd.lift r) [] a := by
  intro pre post; simp [Rd.lift, h]

theorem Reads.tell_bind {f : Nat → Rd β} {bs : Bytes} {b : β} (h : ∀ n, Reads (f n) bs b) : Reads (Rd.tell >>= f) bs b := by
  intro pre post
  simp only [Bind.bind, Rd.tell]
  exact h pre.length pre post

theorem Reads.times {p : Rd α} {enc : α → Bytes} {as : List α} (h : ∀ a ∈ as, Reads p (enc a) a) :
    Reads (p.times as.length) (as.map enc).flatten as := by
  induction as with
  | nil => exact Reads.pure []
  | cons a as ih =>
    rw [List.length_cons, List.map_cons, List.flatten_cons]
    exact Reads.bind (h a (by simp)) (Reads.map (ih (fun a ha => h a (by simp [ha]))) rfl)

/-- The same, when what is read is a function of what is encoded. -/
theorem Reads.timesMap {γ : Type} {p : Rd α} {enc : γ → Bytes} {dec : γ → α} {cs : List γ}
    (h : ∀ c ∈ cs, Reads p (enc c) (dec c)) :
    Reads (p.times cs.length) (cs.map enc).flatten (cs.map dec) := by
  induction cs with
  | nil => exact Reads.pure []
  | cons a as ih =>
    rw [List.length_cons, List.map_cons, List.flatten_cons, List.map_cons]
    exact Reads.bind (h a (by simp)) (Reads.map (ih (fun a ha => h a (by simp [ha]))) rfl)

theorem Reads.run {p : Rd α} {bs : Bytes} {a : α} (h : Reads p bs a) (post : Bytes) : p.run (bs ++ post) = .ok a := by
  have := h [] post
  simp only [List.nil_append, List.length_nil] at this
  simp [Rd.run, this]

theorem ReadsEnd.run {p : Rd α} {bs : Bytes} {a : α} (h : ReadsEnd p bs a) : p.run bs = .ok a := by
  have := h []
  simp only [List.nil_append, List.length_nil] at this
  simp [Rd.run, this]

/-! ## Readers of a fixed number of bytes -/

/-- `p` reads exactly `k` bytes and decodes them, or raises `struct.error` when there are fewer. -/
def Fixed (p : Rd α) (k : Nat) (dec : Bytes → α) : Prop :=
  ∀ data pos, p data pos =
    if pos + k ≤ data.length then .ok (dec ((data.drop pos).take k), pos + k) else .error .struct

theorem Fixed.exact (n : Nat) : Fixed (Rd.exact n) n id := fun _ _ => rfl

theorem Fixed.u (w : Nat) : Fixed (Rd.u w) w leNat := by
  intro data pos
  simp only [Rd.u, Bind.bind, Rd.exact]
  by_cases h : pos + w ≤ data.length
  · rw [if_pos h, if_pos h]; rfl
  · rw [if_neg h, if_neg h]

theorem Fixed.bool : Fixed Rd.bool 1 (fun b => decide (leNat b ≠ 0)) := by
  intro data pos
  simp only [Rd.bool, Bind.bind]
  rw [Fixed.u 1 data pos]
  by_cases h : pos + 1 ≤ data.length
  · rw [if_pos h, if_pos h]; rfl
  · rw [if_neg h, if_neg h]

theorem Fixed.pure (a : α) (p : Rd α) (hp : p = Pure.pure a) : ∀ data pos, p data pos = .ok (a, pos) := by
  rintro data pos; subst hp; rfl

theorem Fixed.bind {p : Rd α} {f : α → Rd β} {k m : Nat} {dec : Bytes → α} {dec' : α → Bytes → β}
    (h1 : Fixed p k dec) (h2 : ∀ a, Fixed (f a) m (dec' a)) :
    Fixed (p >>= f) (k + m) (fun bs => dec' (dec (bs.take k)) (bs.drop k)) := by
  intro data pos
  simp only [Bind.bind]
  rw [h1 data pos]
  by_cases hk : pos + k ≤ data.length
  · rw [if_pos hk]
    simp only
    rw [h2 _ data (pos + k)]
    by_cases hm : pos + (k + m) ≤ data.length
    · rw [if_pos (by omega), if_pos hm]
      rw [List.take_take, List.drop_take, List.drop_drop]
      simp [Nat.min_eq_left, Nat.add_assoc]
    · rw [if_neg (by omega), if_neg hm]
  · rw [if_neg hk, if_neg (by omega)]

theorem Fixed.map {p : Rd α} {f : α → Rd β} {k : Nat} {dec : Bytes → α} {g : α → β}
    (h1 : Fixed p k dec) (h2 : ∀ a, f a = Pure.pure (g a)) : Fixed (p >>= f) k (fun bs => g (dec bs)) := by
  intro data pos
  simp only [Bind.bind]
  rw [h1 data pos]
  by_cases hk : pos + k ≤ data.length
  · rw [if_pos hk, if_pos hk]; simp only [h2]; rfl
  · rw [if_neg hk, if_neg hk]

/-- A table of fixed size entries: all of it, or `struct.error`. -/
theorem Fixed.times {p : Rd α} {k : Nat} {dec : Bytes → α} (h : Fixed p k dec) (n : Nat) :
    ∀ data pos, pos ≤ data.length → p.times n data pos =
      if pos + n * k ≤ data.length then
        .ok ((List.range n).map (fun j => dec ((data.drop (pos + j * k)).take k)), pos + n * k)
      else .error .struct := by
  induction n with
  | zero => intro data pos hp; simp [Rd.times, Pure.pure, hp]
  | succ n ih =>
    intro data pos hp
    simp only [Rd.times, Bind.bind]
    rw [h data pos]
    by_cases hk : pos + k ≤ data.length
    · rw [if_pos hk]
      simp only
      rw [ih data (pos + k) hk]
      have e : pos + (n + 1) * k = pos + k + n * k := by ring
      rw [e]
      by_cases hm : pos + k + n * k ≤ data.length
      · rw [if_pos hm, if_pos hm]
        simp only [Pure.pure, Except.ok.injEq, Prod.mk.injEq, and_true]
        rw [List.range_succ_eq_map, List.map_cons, List.map_map]
        simp only [Nat.zero_mul, Nat.add_zero, List.cons.injEq, true_and]
        apply List.map_congr_left
        intro j _
        simp only [Function.comp]
        congr 3
        simp only [Nat.succ_eq_add_one]; ring
      · rw [if_neg hm, if_neg hm]
    · rw [if_neg hk, if_neg]
      have : k ≤ (n + 1) * k := Nat.le_mul_of_pos_left _ (by omega)
      omega

end
end Cdtb
