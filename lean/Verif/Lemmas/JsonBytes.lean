import Verif.Model.JsonBytes
import Verif.Spec.JsonBytes
import Verif.Lemmas.JsonRead
import Verif.Lemmas.RstText
/-!
# Lemmas on JSON in bytes
-/
namespace Cdtb
set_option autoImplicit false
open Py Spec

theorem char_scalar (c : Char) : c.toNat < 0xD800 ∨ (0xDFFF < c.toNat ∧ c.toNat < 0x110000) := c.valid

theorem byte_toNat {n : Nat} (h : n < 256) : (UInt8.ofNat n).toNat = n := by
  rw [UInt8.toNat_ofNat']
  exact Nat.mod_eq_of_lt h

theorem byte_ofNat' (b : UInt8) : UInt8.ofNat b.toNat = b := UInt8.ofNat_toNat

theorem byte_lt (b : UInt8) : b.toNat < 256 := b.toNat_lt

/-! ## UTF-16 -/

theorem units16_append (big : Bool) : ∀ (l : List Nat), (∀ u ∈ l, u < 65536) → ∀ {r : Bytes} {m : List Nat}, units16 big r = some m →
    units16 big (l.flatMap (fun u => ordered big [u / 256, u % 256]) ++ r) = some (l ++ m)
  | [], _, r, m, h => by simpa using h
  | u :: l, hl, r, m, h => by
    have ih := units16_append big l (fun x hx => hl x (by simp [hx])) h
    have hu := hl u (by simp)
    have h1 : (UInt8.ofNat (u / 256)).toNat = u / 256 := byte_toNat (by omega)
    have h2 : (UInt8.ofNat (u % 256)).toNat = u % 256 := byte_toNat (by omega)
    cases big with
    | true =>
      simp only [List.flatMap_cons, ordered, if_true, List.map_cons, List.map_nil, List.cons_append, List.nil_append] at ih ⊢
      simp only [units16, ih, h1, h2, if_true]
      simp
      omega
    | false =>
      simp only [List.flatMap_cons, ordered, Bool.false_eq_true, if_false, List.reverse_cons, List.reverse_nil, List.nil_append, List.map_cons, List.map_nil,
        List.cons_append] at ih ⊢
      simp only [units16, ih, h1, h2, Bool.false_eq_true, if_false]
      simp
      omega

theorem units16_sound (big : Bool) : ∀ (n : Nat) {b : Bytes}, b.length ≤ n → ∀ {l : List Nat}, units16 big b = some l →
    b = l.flatMap (fun u => ordered big [u / 256, u % 256]) ∧ ∀ u ∈ l, u < 65536
  | _, [], _, l, h => by
    obtain rfl := Option.some.inj h
    simp
  | _, [_], _, l, h => by simp [units16] at h
  | 0, _ :: _ :: _, hn, _, _ => by simp at hn
  | n + 1, a :: b :: r, hn, l, h => by
    simp only [units16] at h
    cases hr : units16 big r with
    | none => rw [hr] at h; simp at h
    | some m =>
      rw [hr] at h
      obtain ⟨h1, h2⟩ := units16_sound big n (b := r) (by simp only [List.length_cons] at hn; omega) hr
      have ha := byte_lt a
      have hb := byte_lt b
      cases big with
      | true =>
        simp only [Option.bind_eq_bind, Option.bind_some, if_true, Option.some.injEq] at h
        subst h
        have e1 : (a.toNat * 256 + b.toNat) / 256 = a.toNat := by omega
        have e2 : (a.toNat * 256 + b.toNat) % 256 = b.toNat := by omega
        constructor
        · simp only [List.flatMap_cons, ordered, if_true, e1, e2, List.map_cons, List.map_nil, byte_ofNat', List.cons_append, List.nil_append]
          simp only [ordered, if_true, List.map_cons, List.map_nil] at h1
          rw [← h1]
        · intro u hu
          rcases List.mem_cons.1 hu with rfl | hu
          · omega
          · exact h2 u hu
      | false =>
        simp only [Option.bind_eq_bind, Option.bind_some, Bool.false_eq_true, if_false, Option.some.injEq] at h
        subst h
        have e1 : (b.toNat * 256 + a.toNat) / 256 = b.toNat := by omega
        have e2 : (b.toNat * 256 + a.toNat) % 256 = a.toNat := by omega
        constructor
        · simp only [List.flatMap_cons, ordered, Bool.false_eq_true, if_false, e1, e2, List.reverse_cons, List.reverse_nil, List.nil_append, List.map_cons, List.map_nil, byte_ofNat',
            List.cons_append]
          simp only [ordered, Bool.false_eq_true, if_false, List.reverse_cons, List.reverse_nil, List.cons_append, List.nil_append, List.map_cons, List.map_nil] at h1
          rw [← h1]
        · intro u hu
          rcases List.mem_cons.1 hu with rfl | hu
          · omega
          · exact h2 u hu

theorem codeUnits_lt (c : Char) : ∀ u ∈ codeUnits c, u < 65536 := by
  intro u hu
  have := char_scalar c
  unfold codeUnits at hu
  split at hu
  · rw [List.mem_singleton] at hu; omega
  · rcases List.mem_cons.1 hu with h | h
    · omega
    · rw [List.mem_singleton] at h; omega

theorem chars16_append (c : Char) {r : List Nat} {s : Str} (h : chars16 r = some s) : chars16 (codeUnits c ++ r) = some (c :: s) := by
  have hc := char_scalar c
  unfold codeUnits
  split
  · rename_i hs
    cases r with
    | nil =>
      obtain rfl := Option.some.inj h
      simp only [List.append_nil, chars16]
      rw [if_neg (by omega), Char.ofNat_toNat]
    | cons v r =>
      simp only [List.cons_append, List.nil_append, chars16]
      rw [if_neg (by omega), if_neg (by omega), h, Char.ofNat_toNat]
      rfl
  · rename_i hs
    simp only [List.cons_append, List.nil_append, chars16]
    rw [if_pos (by omega), if_pos (by omega), h]
    have : 0x10000 + (0xD800 + (c.toNat - 0x10000) / 0x400 - 0xD800) * 0x400 + (0xDC00 + (c.toNat - 0x10000) % 0x400 - 0xDC00) = c.toNat := by omega
    rw [this, Char.ofNat_toNat]
    rfl

theorem chars16_sound : ∀ (n : Nat) {l : List Nat}, l.length ≤ n → (∀ u ∈ l, u < 65536) → ∀ {s : Str}, chars16 l = some s → l = s.flatMap codeUnits
  | _, [], _, _, s, h => by
    obtain rfl := Option.some.inj h
    rfl
  | _, [u], _, hl, s, h => by
    have hu := hl u (by simp)
    simp only [chars16] at h
    split at h
    · simp at h
    · rename_i hs
      obtain rfl := Option.some.inj h
      simp only [List.flatMap_cons, List.flatMap_nil, List.append_nil, codeUnits]
      rw [ofNat_toNat' (by omega), if_pos (by omega)]
  | 0, _ :: _ :: _, hn, _, _, _ => by simp at hn
  | n + 1, u :: v :: r, hn, hl, s, h => by
    have hu := hl u (by simp)
    have hv := hl v (by simp)
    simp only [chars16] at h
    split at h
    · rename_i h1
      split at h
      · rename_i h2
        cases hr : chars16 r with
        | none => rw [hr] at h; simp at h
        | some m =>
          rw [hr] at h
          have ih := chars16_sound n (l := r) (by simp only [List.length_cons] at hn; omega) (fun x hx => hl x (by simp [hx])) hr
          obtain rfl := Option.some.inj h
          simp only [List.flatMap_cons, codeUnits]
          rw [ofNat_toNat' (by omega), if_neg (by omega), ← ih]
          simp only [List.cons_append, List.nil_append, List.cons.injEq, and_true]
          omega
      · simp at h
    · split at h
      · simp at h
      · cases hr : chars16 (v :: r) with
        | none => rw [hr] at h; simp at h
        | some m =>
          rw [hr] at h
          have ih := chars16_sound n (l := v :: r) (by simp only [List.length_cons] at hn ⊢; omega) (fun x hx => hl x (by simp at hx ⊢; tauto)) hr
          obtain rfl := Option.some.inj h
          simp only [List.flatMap_cons, codeUnits]
          rw [ofNat_toNat' (by omega), if_pos (by omega)]
          have : (fun c : Char => codeUnits c) = codeUnits := rfl
          simp only [List.cons_append, List.nil_append, List.cons.injEq, true_and]
          exact ih

theorem encode16 (big : Bool) (s : Str) : Utf.encode (.utf16 big) s = (s.flatMap codeUnits).flatMap fun u => ordered big [u / 256, u % 256] := by
  induction s with
  | nil => rfl
  | cons c s ih =>
    unfold Utf.encode at ih ⊢
    rw [List.flatMap_cons, ih, List.flatMap_cons, List.flatMap_append]
    rfl

theorem decode16_iff (big : Bool) (b : Bytes) (s : Str) : decode16 big b = some s ↔ b = Utf.encode (.utf16 big) s := by
  constructor
  · intro h
    unfold decode16 at h
    cases hu : units16 big b with
    | none => rw [hu] at h; simp at h
    | some l =>
      rw [hu] at h
      obtain ⟨h1, h2⟩ := units16_sound big b.length (le_refl _) hu
      have h3 := chars16_sound l.length (le_refl _) h2 (s := s) (by simpa using h)
      rw [encode16, ← h3, h1]
  · rintro rfl
    rw [encode16]
    unfold decode16
    have h1 := units16_append big (s.flatMap codeUnits) (fun u hu => by
      obtain ⟨c, -, hc⟩ := List.mem_flatMap.1 hu
      exact codeUnits_lt c u hc) (r := []) (m := []) rfl
    rw [List.append_nil, List.append_nil] at h1
    rw [h1]
    show chars16 _ = _
    induction s with
    | nil => rfl
    | cons c s ih =>
      rw [List.flatMap_cons]
      refine chars16_append c (ih ?_)
      have h2 := units16_append big (s.flatMap codeUnits) (fun u hu => by
        obtain ⟨c, -, hc⟩ := List.mem_flatMap.1 hu
        exact codeUnits_lt c u hc) (r := []) (m := []) rfl
      rwa [List.append_nil, List.append_nil] at h2

/-! ## UTF-32 -/

theorem char32_digits {n : Nat} (h : n < 0x110000) : (((0 * 256 + n / 65536) * 256 + n / 256 % 256) * 256 + n % 256) = n := by omega

theorem decode32_iff (big : Bool) : ∀ (n : Nat) {b : Bytes}, b.length ≤ n → ∀ {s : Str}, decode32 big b = some s ↔ b = Utf.encode (.utf32 big) s
  | _, [], _, s => by
    constructor
    · intro h
      obtain rfl := Option.some.inj h
      rfl
    · intro h
      cases s with
      | nil => rfl
      | cons c s => cases big <;> simp [Utf.encode, Utf.char, ordered] at h
  | _, [_], _, s => by
    constructor
    · intro h; simp [decode32] at h
    · intro h; cases s <;> cases big <;> simp [Utf.encode, Utf.char, ordered] at h
  | _, [_, _], _, s => by
    constructor
    · intro h; simp [decode32] at h
    · intro h; cases s <;> cases big <;> simp [Utf.encode, Utf.char, ordered] at h
  | _, [_, _, _], _, s => by
    constructor
    · intro h; simp [decode32] at h
    · intro h; cases s <;> cases big <;> simp [Utf.encode, Utf.char, ordered] at h
  | 0, _ :: _ :: _ :: _ :: _, hn, _ => by simp at hn
  | n + 1, a :: b :: c :: d :: r, hn, s => by
    have ha := byte_lt a
    have hb := byte_lt b
    have hc := byte_lt c
    have hd := byte_lt d
    have ih := fun s => decode32_iff big n (b := r) (by simp only [List.length_cons] at hn; omega) (s := s)
    constructor
    · intro h
      cases big with
      | true =>
        simp only [decode32, if_true] at h
        split at h
        · rename_i hval
          cases hr : decode32 true r with
          | none => rw [hr] at h; simp at h
          | some m =>
            rw [hr] at h
            have h1 := (ih m).1 hr
            obtain rfl := Option.some.inj h
            unfold Utf.encode at h1 ⊢
            rw [List.flatMap_cons, ← h1]
            simp only [Utf.char, ordered, if_true, ofNat_toNat' hval, List.map_cons, List.map_nil, List.cons_append, List.nil_append, List.cons.injEq, and_true]
            have e0 : a.toNat = 0 := by omega
            refine ⟨?_, ?_, ?_, ?_⟩ <;> apply UInt8.toNat_inj.1 <;> rw [byte_toNat] <;> omega
        · simp at h
      | false =>
        simp only [decode32, Bool.false_eq_true, if_false] at h
        split at h
        · rename_i hval
          cases hr : decode32 false r with
          | none => rw [hr] at h; simp at h
          | some m =>
            rw [hr] at h
            have h1 := (ih m).1 hr
            obtain rfl := Option.some.inj h
            unfold Utf.encode at h1 ⊢
            rw [List.flatMap_cons, ← h1]
            simp only [Utf.char, ordered, Bool.false_eq_true, if_false, ofNat_toNat' hval, List.reverse_cons, List.reverse_nil, List.nil_append, List.map_cons, List.map_nil,
              List.cons_append, List.cons.injEq, and_true]
            have e0 : d.toNat = 0 := by omega
            refine ⟨?_, ?_, ?_, ?_⟩ <;> apply UInt8.toNat_inj.1 <;> rw [byte_toNat] <;> omega
        · simp at h
    · intro h
      cases s with
      | nil => simp [Utf.encode] at h
      | cons x s =>
        have hx := char_scalar x
        unfold Utf.encode at h
        rw [List.flatMap_cons] at h
        cases big with
        | true =>
          simp only [Utf.char, ordered, if_true, List.map_cons, List.map_nil, List.cons_append, List.nil_append, List.cons.injEq] at h
          obtain ⟨rfl, rfl, rfl, rfl, hr⟩ := h
          simp only [decode32, if_true]
          have hn : ((((UInt8.ofNat 0).toNat * 256 + (UInt8.ofNat (x.toNat / 65536)).toNat) * 256 + (UInt8.ofNat (x.toNat / 256 % 256)).toNat) * 256 +
              (UInt8.ofNat (x.toNat % 256)).toNat) = x.toNat := by
            rw [byte_toNat (by omega), byte_toNat (by omega), byte_toNat (by omega), byte_toNat (by omega)]
            omega
          rw [hn, if_pos hx, (ih s).2 hr, Char.ofNat_toNat]
          rfl
        | false =>
          simp only [Utf.char, ordered, Bool.false_eq_true, if_false, List.reverse_cons, List.reverse_nil, List.nil_append, List.map_cons, List.map_nil,
            List.cons_append, List.cons.injEq] at h
          obtain ⟨rfl, rfl, rfl, rfl, hr⟩ := h
          simp only [decode32, Bool.false_eq_true, if_false]
          have hn : ((((UInt8.ofNat 0).toNat * 256 + (UInt8.ofNat (x.toNat / 65536)).toNat) * 256 + (UInt8.ofNat (x.toNat / 256 % 256)).toNat) * 256 +
              (UInt8.ofNat (x.toNat % 256)).toNat) = x.toNat := by
            rw [byte_toNat (by omega), byte_toNat (by omega), byte_toNat (by omega), byte_toNat (by omega)]
            omega
          rw [hn, if_pos hx, (ih s).2 hr, Char.ofNat_toNat]
          rfl

theorem decode8_iff (b : Bytes) (s : Str) : decode8 b = some s ↔ b = Utf.encode .utf8 s := by
  have e : Utf.encode .utf8 s = utf8Bytes s := rfl
  rw [e]
  unfold decode8
  constructor
  · intro h
    cases hu : utf8 b with
    | error x => rw [hu] at h; simp at h
    | ok s' =>
      rw [hu] at h
      obtain rfl := Option.some.inj h
      exact utf8_ok hu
  · rintro rfl
    rw [utf8_utf8Bytes]

/-! ## Characters of documents -/

/-- Not a null character -/
abbrev NoNull (t : Str) : Prop := ∀ c ∈ t, c ≠ '\x00'

theorem noNull_ws {w : Str} (h : JsonWs w) : NoNull w := by
  rintro c hc rfl
  rcases h _ hc with h | h | h | h <;> revert h <;> decide +kernel

theorem noNull_append {s t : Str} (h : NoNull s) (h' : NoNull t) : NoNull (s ++ t) := by
  intro c hc
  rcases List.mem_append.1 hc with hc | hc
  · exact h c hc
  · exact h' c hc

theorem noNull_cons {c : Char} {t : Str} (hc : c ≠ '\x00') (h : NoNull t) : NoNull (c :: t) := by
  intro x hx
  rcases List.mem_cons.1 hx with rfl | hx
  · exact hc
  · exact h x hx

theorem noNull_hex {ds : Str} {n : Nat} (h : Spec.Hex4 ds n) : NoNull ds := by
  obtain ⟨a, b, c, d, x, y, z, t, rfl, ha, hb, hc, hd, -⟩ := h
  have key : ∀ {c : Char} {n : Nat}, HexDigit c n → c ≠ '\x00' := by
    rintro c n h rfl
    rcases h with h | h <;> have := List.mem_of_getElem? h <;> revert this <;> decide +kernel
  exact noNull_cons (key ha) (noNull_cons (key hb) (noNull_cons (key hc) (noNull_cons (key hd) (by intro c hc; cases hc))))

theorem noNull_chars {t s : Str} (h : JsonChars t s) : NoNull t := by
  induction h with
  | nil => intro c hc; cases hc
  | plain c t s _ _ h32 _ ih => exact noNull_cons (by rintro rfl; revert h32; decide +kernel) ih
  | escape e c t s he _ ih =>
    refine noNull_cons (by decide +kernel) (noNull_cons ?_ ih)
    rintro rfl
    have : ∀ x ∈ jsonEscapes, x.1 ≠ '\x00' := by decide +kernel
    exact this _ he rfl
  | unicode ds c t s hd _ ih => exact noNull_append (noNull_cons (by decide +kernel) (noNull_cons (by decide +kernel) (noNull_hex hd))) ih
  | pair ds ds' hi lo c t s hd hd' _ _ _ _ _ _ ih =>
    exact noNull_append (noNull_append (noNull_cons (by decide +kernel) (noNull_cons (by decide +kernel) (noNull_hex hd)))
      (noNull_cons (by decide +kernel) (noNull_cons (by decide +kernel) (noNull_hex hd')))) ih

theorem noNull_one {c : Char} (h : c ≠ '\x00') : NoNull [c] := noNull_cons h (by intro c hc; cases hc)

mutual
theorem noNull_text : ∀ {t : Str} {v : Json}, JsonText t v → NoNull t
  | _, _, .word t v hw => by
    have h1 : ∀ c ∈ t, c ∈ jsonWordChars := by
      cases hw with
      | null => decide +kernel
      | true => decide +kernel
      | false => decide +kernel
      | num _ hn => exact hn.wordChars.2.1
    rintro c hc rfl
    have := h1 _ hc
    revert this
    decide +kernel
  | _, _, .str t s h => noNull_append (noNull_cons (by decide +kernel) (noNull_chars h)) (noNull_one (by decide +kernel))
  | _, _, .empty w h => noNull_append (noNull_cons (by decide +kernel) (noNull_ws h)) (noNull_one (by decide +kernel))
  | _, _, .arr w t l h h' => noNull_append (noNull_append (noNull_cons (by decide +kernel) (noNull_ws h)) (noNull_items h')) (noNull_one (by decide +kernel))
  | _, _, .emptyObj w h => noNull_append (noNull_cons (by decide +kernel) (noNull_ws h)) (noNull_one (by decide +kernel))
  | _, _, .obj w t l h h' => noNull_append (noNull_append (noNull_cons (by decide +kernel) (noNull_ws h)) (noNull_members h')) (noNull_one (by decide +kernel))
theorem noNull_items : ∀ {t : Str} {l : List Json}, JsonItems t l → NoNull t
  | _, _, .one t w v h h' => noNull_append (noNull_text h) (noNull_ws h')
  | _, _, .more t w w' t' v l h h1 h2 h3 =>
    noNull_append (noNull_append (noNull_append (noNull_text h) (noNull_ws h1)) (noNull_cons (by decide +kernel) (noNull_ws h2))) (noNull_items h3)
theorem noNull_members : ∀ {t : Str} {l : List (Str × Json)}, JsonMembers t l → NoNull t
  | _, _, .one n k w1 w2 t w v hn h1 h2 h h3 =>
    noNull_append (noNull_append (noNull_append (noNull_append (noNull_cons (by decide +kernel) (noNull_chars hn)) (noNull_cons (by decide +kernel) (noNull_ws h1)))
      (noNull_cons (by decide +kernel) (noNull_ws h2))) (noNull_text h)) (noNull_ws h3)
  | _, _, .more n k w1 w2 t w w' t' v l hn h1 h2 h h3 h4 h5 =>
    noNull_append (noNull_append (noNull_append (noNull_append (noNull_append (noNull_append (noNull_cons (by decide +kernel) (noNull_chars hn))
      (noNull_cons (by decide +kernel) (noNull_ws h1))) (noNull_cons (by decide +kernel) (noNull_ws h2))) (noNull_text h)) (noNull_ws h3))
      (noNull_cons (by decide +kernel) (noNull_ws h4))) (noNull_members h5)
end

theorem document_chars {t : Str} {v : Json} (h : JsonDocument t v) : NoNull t ∧ ∃ c t', t = c :: t' ∧ 0 < c.toNat ∧ c.toNat < 128 := by
  obtain ⟨w, t', w', rfl, hw, ht, hw'⟩ := h
  refine ⟨noNull_append (noNull_append (noNull_ws hw) (noNull_text ht)) (noNull_ws hw'), ?_⟩
  cases w with
  | cons c w => exact ⟨c, _, rfl, by rcases hw c (by simp) with rfl | rfl | rfl | rfl <;> decide +kernel⟩
  | nil =>
    obtain ⟨c, u, rfl, hc⟩ := ht.opens
    refine ⟨c, _, rfl, ?_⟩
    have key : ∀ c ∈ jsonWordChars, 0 < c.toNat ∧ c.toNat < 128 := by decide +kernel
    rcases hc with hc | rfl | rfl | rfl
    · exact key c hc
    · decide +kernel
    · decide +kernel
    · decide +kernel

/-! ## The encoding that is guessed -/

theorem encode_cons (u : Utf) (c : Char) (t : Str) : u.encode (c :: t) = u.char c ++ u.encode t := by
  unfold Utf.encode
  rw [List.flatMap_cons]

theorem char_ascii {c : Char} (h : c.toNat < 128) : (Utf.char .utf8 c = [UInt8.ofNat c.toNat]) ∧ (Utf.char (.utf16 true) c = [0, UInt8.ofNat c.toNat]) ∧
    (Utf.char (.utf16 false) c = [UInt8.ofNat c.toNat, 0]) ∧ (Utf.char (.utf32 true) c = [0, 0, 0, UInt8.ofNat c.toNat]) ∧
    (Utf.char (.utf32 false) c = [UInt8.ofNat c.toNat, 0, 0, 0]) := by
  have h1 : c.toNat / 256 = 0 := by omega
  have h2 : c.toNat % 256 = c.toNat := by omega
  have h3 : c.toNat / 65536 = 0 := by omega
  have h4 : c.toNat < 0x10000 := by omega
  refine ⟨?_, ?_, ?_, ?_, ?_⟩
  · show String.utf8EncodeChar c = _
    unfold String.utf8EncodeChar
    have : c.val.toNat ≤ 127 := by
      have : c.val.toNat = c.toNat := rfl
      omega
    simp only [this, if_true]
    rfl
  · simp only [Utf.char, codeUnits, h4, if_true, List.flatMap_cons, List.flatMap_nil, ordered, h1, h2]; rfl
  · simp only [Utf.char, codeUnits, h4, if_true, List.flatMap_cons, List.flatMap_nil, ordered, h1, h2]; rfl
  · simp only [Utf.char, ordered, h1, h2, h3]; rfl
  · simp only [Utf.char, ordered, h1, h2, h3]; rfl

/-- The second character of a text in UTF-16 -/
theorem encode16_second (big : Bool) (t : Str) (h : NoNull t) :
    Utf.encode (.utf16 big) t = [] ∨ ∃ p q r, Utf.encode (.utf16 big) t = p :: q :: r ∧ (p ≠ 0 ∨ q ≠ 0) := by
  cases t with
  | nil => exact Or.inl rfl
  | cons c t =>
    right
    have hc0 : c.toNat ≠ 0 := by
      intro h0
      exact h c (by simp) (Char.toNat_inj.1 h0)
    have hunit : ∃ u l, codeUnits c = u :: l ∧ u ≠ 0 ∧ u < 65536 := by
      have hlt := codeUnits_lt c
      unfold codeUnits at hlt ⊢
      split
      · rename_i hs; exact ⟨_, _, rfl, hc0, hs⟩
      · rename_i hs
        rw [if_neg hs] at hlt
        exact ⟨_, _, rfl, by omega, hlt _ (by simp)⟩
    obtain ⟨u, l, hu, hu0, hlt⟩ := hunit
    have key : ∀ n, n ≠ 0 → n < 256 → UInt8.ofNat n ≠ 0 := by
      intro n h1 h2 h3
      have := congrArg UInt8.toNat h3
      rw [byte_toNat h2] at this
      exact h1 this
    have hor : UInt8.ofNat (u / 256) ≠ 0 ∨ UInt8.ofNat (u % 256) ≠ 0 := by
      by_cases h1 : u / 256 = 0
      · exact Or.inr (key _ (by omega) (by omega))
      · exact Or.inl (key _ h1 (by omega))
    rw [encode_cons]
    simp only [Utf.char, hu, List.flatMap_cons, ordered]
    cases big with
    | true => exact ⟨_, _, _, rfl, hor⟩
    | false => exact ⟨_, _, _, rfl, hor.symm⟩

theorem encode8_ne_zero {t : Str} (h : NoNull t) : ∀ b ∈ Utf.encode .utf8 t, b ≠ 0 := utf8Bytes_ne_zero h

theorem decodeJson_encode (u : Utf) {t : Str} (hn : NoNull t) (hf : ∃ c t', t = c :: t' ∧ 0 < c.toNat ∧ c.toNat < 128) : decodeJson (u.encode t) = some t := by
  obtain ⟨c, t', rfl, h0, h1⟩ := hf
  have hx : (UInt8.ofNat c.toNat).toNat = c.toNat := byte_toNat (by omega)
  have hx0 : UInt8.ofNat c.toNat ≠ 0 := fun e => by rw [e] at hx; have : (0 : UInt8).toNat = 0 := rfl; omega
  have hxs : ∀ y : UInt8, 128 ≤ y.toNat → y ≠ UInt8.ofNat c.toNat := fun y hy e => by rw [e] at hy; omega
  have hFE := hxs 0xFE (by decide)
  have hFF := hxs 0xFF (by decide)
  have hEF := hxs 0xEF (by decide)
  obtain ⟨c1, c2, c3, c4, c5⟩ := char_ascii h1
  have hn' : NoNull t' := fun x hx => hn x (by simp [hx])
  have z1 : (0x00 : UInt8) ≠ UInt8.ofNat c.toNat := Ne.symm hx0
  cases u with
  | utf8 =>
    have hd := (decode8_iff (Utf.encode .utf8 (c :: t')) (c :: t')).2 rfl
    have hnz := encode8_ne_zero hn'
    rw [encode_cons, c1] at hd ⊢
    generalize Utf.encode .utf8 t' = r at hd hnz ⊢
    generalize UInt8.ofNat c.toNat = x at *
    unfold decodeJson
    simp only [List.cons_append, List.nil_append] at hd ⊢
    have p1 : [0x00, 0x00, 0xFE, 0xFF].isPrefixOf (x :: r) = false := by simp [List.isPrefixOf, z1]
    have p2 : [0xFF, 0xFE, 0x00, 0x00].isPrefixOf (x :: r) = false := by simp [List.isPrefixOf, hFF]
    have p3 : [0xFE, 0xFF].isPrefixOf (x :: r) = false := by simp [List.isPrefixOf, hFE]
    have p4 : [0xFF, 0xFE].isPrefixOf (x :: r) = false := by simp [List.isPrefixOf, hFF]
    have p5 : [0xEF, 0xBB, 0xBF].isPrefixOf (x :: r) = false := by simp [List.isPrefixOf, hEF]
    simp only [p1, p2, p3, p4, p5, Bool.false_eq_true, if_false]
    rcases r with _ | ⟨b1, _ | ⟨b2, _ | ⟨b3, r⟩⟩⟩
    · exact hd
    · have := hnz b1 (by simp)
      simp only [hx0, this, if_false]
      exact hd
    · exact hd
    · have := hnz b1 (by simp)
      simp only [hx0, this, if_false]
      exact hd
  | utf16 big =>
    have hd := (decode16_iff big (Utf.encode (.utf16 big) (c :: t')) (c :: t')).2 rfl
    have h2 := encode16_second big t' hn'
    rw [encode_cons] at hd ⊢
    generalize Utf.encode (.utf16 big) t' = r at hd h2 ⊢
    cases big with
    | true =>
      rw [c2] at hd ⊢
      generalize UInt8.ofNat c.toNat = x at *
      unfold decodeJson
      simp only [List.cons_append, List.nil_append] at hd ⊢
      have p1 : [0x00, 0x00, 0xFE, 0xFF].isPrefixOf (0 :: x :: r) = false := by simp [List.isPrefixOf, z1]
      have p2 : [0xFF, 0xFE, 0x00, 0x00].isPrefixOf (0 :: x :: r) = false := by simp [List.isPrefixOf]
      have p3 : [0xFE, 0xFF].isPrefixOf (0 :: x :: r) = false := by simp [List.isPrefixOf]
      have p4 : [0xFF, 0xFE].isPrefixOf (0 :: x :: r) = false := by simp [List.isPrefixOf]
      have p5 : [0xEF, 0xBB, 0xBF].isPrefixOf (0 :: x :: r) = false := by simp [List.isPrefixOf]
      simp only [p1, p2, p3, p4, p5, Bool.false_eq_true, if_false]
      rcases h2 with rfl | ⟨p, q, r', rfl, -⟩
      · simp only [if_true]; exact hd
      · simp only [if_true, hx0, ne_eq, not_false_eq_true]; exact hd
    | false =>
      rw [c3] at hd ⊢
      generalize UInt8.ofNat c.toNat = x at *
      unfold decodeJson
      simp only [List.cons_append, List.nil_append] at hd ⊢
      have p1 : [0x00, 0x00, 0xFE, 0xFF].isPrefixOf (x :: 0 :: r) = false := by simp [List.isPrefixOf, z1]
      have p2 : [0xFF, 0xFE, 0x00, 0x00].isPrefixOf (x :: 0 :: r) = false := by simp [List.isPrefixOf]
      have p3 : [0xFE, 0xFF].isPrefixOf (x :: 0 :: r) = false := by simp [List.isPrefixOf]
      have p4 : [0xFF, 0xFE].isPrefixOf (x :: 0 :: r) = false := by simp [List.isPrefixOf]
      have p5 : [0xEF, 0xBB, 0xBF].isPrefixOf (x :: 0 :: r) = false := by simp [List.isPrefixOf]
      simp only [p1, p2, p3, p4, p5, Bool.false_eq_true, if_false]
      rcases h2 with rfl | ⟨p, q, r', rfl, hpq⟩
      · simp only [hx0, if_false, if_true]; exact hd
      · simp only [hx0, if_false, if_true, ne_eq, hpq]; exact hd
  | utf32 big =>
    have hd := (decode32_iff big (Utf.encode (.utf32 big) (c :: t')).length (le_refl _) (s := c :: t')).2 rfl
    rw [encode_cons] at hd ⊢
    generalize Utf.encode (.utf32 big) t' = r at hd ⊢
    cases big with
    | true =>
      rw [c4] at hd ⊢
      generalize UInt8.ofNat c.toNat = x at *
      unfold decodeJson
      simp only [List.cons_append, List.nil_append] at hd ⊢
      have p1 : [0x00, 0x00, 0xFE, 0xFF].isPrefixOf (0 :: 0 :: 0 :: x :: r) = false := by simp [List.isPrefixOf]
      have p2 : [0xFF, 0xFE, 0x00, 0x00].isPrefixOf (0 :: 0 :: 0 :: x :: r) = false := by simp [List.isPrefixOf]
      have p3 : [0xFE, 0xFF].isPrefixOf (0 :: 0 :: 0 :: x :: r) = false := by simp [List.isPrefixOf]
      have p4 : [0xFF, 0xFE].isPrefixOf (0 :: 0 :: 0 :: x :: r) = false := by simp [List.isPrefixOf]
      have p5 : [0xEF, 0xBB, 0xBF].isPrefixOf (0 :: 0 :: 0 :: x :: r) = false := by simp [List.isPrefixOf]
      simp only [p1, p2, p3, p4, p5, Bool.false_eq_true, if_false, if_true, ne_eq, not_true_eq_false]
      exact hd
    | false =>
      rw [c5] at hd ⊢
      generalize UInt8.ofNat c.toNat = x at *
      unfold decodeJson
      simp only [List.cons_append, List.nil_append] at hd ⊢
      have p1 : [0x00, 0x00, 0xFE, 0xFF].isPrefixOf (x :: 0 :: 0 :: 0 :: r) = false := by simp [List.isPrefixOf]
      have p2 : [0xFF, 0xFE, 0x00, 0x00].isPrefixOf (x :: 0 :: 0 :: 0 :: r) = false := by simp [List.isPrefixOf]
      have p3 : [0xFE, 0xFF].isPrefixOf (x :: 0 :: 0 :: 0 :: r) = false := by simp [List.isPrefixOf]
      have p4 : [0xFF, 0xFE].isPrefixOf (x :: 0 :: 0 :: 0 :: r) = false := by simp [List.isPrefixOf]
      have p5 : [0xEF, 0xBB, 0xBF].isPrefixOf (x :: 0 :: 0 :: 0 :: r) = false := by simp [List.isPrefixOf]
      simp only [p1, p2, p3, p4, p5, Bool.false_eq_true, if_false, if_true, ne_eq, not_true_eq_false, hx0, or_false]
      exact hd

theorem bom_bytes : Utf.char .utf8 bom = [0xEF, 0xBB, 0xBF] ∧ Utf.char (.utf16 true) bom = [0xFE, 0xFF] ∧ Utf.char (.utf16 false) bom = [0xFF, 0xFE] ∧
    Utf.char (.utf32 true) bom = [0, 0, 0xFE, 0xFF] ∧ Utf.char (.utf32 false) bom = [0xFF, 0xFE, 0, 0] := by decide +kernel

theorem decodeJson_bom (u : Utf) {t : Str} (hf : ∃ c t', t = c :: t' ∧ 0 < c.toNat ∧ c.toNat < 128) : decodeJson (u.encode (bom :: t)) = some t := by
  obtain ⟨b1, b2, b3, b4, b5⟩ := bom_bytes
  rw [encode_cons]
  cases u with
  | utf8 =>
    have hd := (decode8_iff (Utf.encode .utf8 t) t).2 rfl
    rw [b1]
    unfold decodeJson
    simp [List.isPrefixOf, hd]
  | utf16 big =>
    have hd := (decode16_iff big (Utf.encode (.utf16 big) t) t).2 rfl
    cases big with
    | true =>
      rw [b2]
      unfold decodeJson
      simp [List.isPrefixOf, hd]
    | false =>
      rw [b3]
      obtain ⟨c, t', rfl, h0, h1⟩ := hf
      have hx : (UInt8.ofNat c.toNat).toNat = c.toNat := byte_toNat (by omega)
      have hx0 : (0 : UInt8) ≠ UInt8.ofNat c.toNat := fun e => by rw [← e] at hx; have : (0 : UInt8).toNat = 0 := rfl; omega
      have hp : [0xFF, 0xFE, 0x00, 0x00].isPrefixOf ([0xFF, 0xFE] ++ Utf.encode (.utf16 false) (c :: t')) = false := by
        rw [encode_cons, (char_ascii h1).2.2.1]
        simp [List.isPrefixOf, hx0]
      generalize Utf.encode (.utf16 false) (c :: t') = r at hd hp ⊢
      unfold decodeJson
      rw [hp]
      simp [List.isPrefixOf, hd]
  | utf32 big =>
    have hd := (decode32_iff big (Utf.encode (.utf32 big) t).length (le_refl _) (s := t)).2 rfl
    cases big with
    | true =>
      rw [b4]
      unfold decodeJson
      simp [List.isPrefixOf, hd]
    | false =>
      rw [b5]
      unfold decodeJson
      simp [List.isPrefixOf, hd]

theorem decodeJson_sound {b : Bytes} {s : Str} (h : decodeJson b = some s) : ∃ u : Utf, b = u.encode s ∨ b = u.encode (bom :: s) := by
  obtain ⟨b1, b2, b3, b4, b5⟩ := bom_bytes
  have pre : ∀ (p : Bytes), p.isPrefixOf b = true → b = p ++ b.drop p.length := by
    intro p hp
    obtain ⟨r, hr⟩ := List.isPrefixOf_iff_prefix.1 hp
    rw [← hr]; simp
  have d8 : ∀ b', decode8 b' = some s → b' = Utf.encode .utf8 s := fun b' => (decode8_iff b' s).1
  have d16 : ∀ big b', decode16 big b' = some s → b' = Utf.encode (.utf16 big) s := fun big b' => (decode16_iff big b' s).1
  have d32 : ∀ big b', decode32 big b' = some s → b' = Utf.encode (.utf32 big) s := fun big b' => (decode32_iff big b'.length (le_refl _)).1
  unfold decodeJson at h
  split at h
  · rename_i hp
    exact ⟨.utf32 true, Or.inr (by rw [encode_cons, b4, ← d32 _ _ h]; exact pre _ hp)⟩
  · split at h
    · rename_i hp
      exact ⟨.utf32 false, Or.inr (by rw [encode_cons, b5, ← d32 _ _ h]; exact pre _ hp)⟩
    · split at h
      · rename_i hp
        exact ⟨.utf16 true, Or.inr (by rw [encode_cons, b2, ← d16 _ _ h]; exact pre _ hp)⟩
      · split at h
        · rename_i hp
          exact ⟨.utf16 false, Or.inr (by rw [encode_cons, b3, ← d16 _ _ h]; exact pre _ hp)⟩
        · split at h
          · rename_i hp
            exact ⟨.utf8, Or.inr (by rw [encode_cons, b1, ← d8 _ h]; exact pre _ hp)⟩
          · split at h
            · split at h
              · split at h
                · exact ⟨.utf16 true, Or.inl (d16 _ _ h)⟩
                · exact ⟨.utf32 true, Or.inl (d32 _ _ h)⟩
              · split at h
                · split at h
                  · exact ⟨.utf16 false, Or.inl (d16 _ _ h)⟩
                  · exact ⟨.utf32 false, Or.inl (d32 _ _ h)⟩
                · exact ⟨.utf8, Or.inl (d8 _ h)⟩
            · split at h
              · exact ⟨.utf16 true, Or.inl (d16 _ _ h)⟩
              · split at h
                · exact ⟨.utf16 false, Or.inl (d16 _ _ h)⟩
                · exact ⟨.utf8, Or.inl (d8 _ h)⟩
            · exact ⟨.utf8, Or.inl (d8 _ h)⟩

end Cdtb
