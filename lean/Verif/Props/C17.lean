import Verif.Model.Rst
import Verif.Spec.Rst
import Verif.Lemmas.Struct
import Verif.Lemmas.Dict
import Mathlib.Data.List.Forall2
/-!
# C17 RST string tables
-/
namespace Cdtb
set_option autoImplicit false
open Py Spec

/-- What the text of an entry at an offset is: the decoded bytes up to the next NUL; or, when the file has
encrypted entries and the first byte is 255, the base64 of as many bytes as given by the next two. -/
inductive TextAt (env : RstEnv) (encrypted : Bool) (texts : Bytes) (offset : Nat) : Str → Prop where
  | plain (raw rest : Bytes) (h : texts.drop offset = raw ++ [0] ++ rest) (h0 : (0 : UInt8) ∉ raw)
      (he : encrypted = false ∨ raw.head? ≠ some 255) : TextAt env encrypted texts offset (env.decode raw)
  | encrypted (payload rest : Bytes) (h : texts.drop offset = [255] ++ le 2 payload.length ++ payload ++ rest)
      (hs : payload.length < 256 ^ 2) (he : encrypted = true) : TextAt env encrypted texts offset (env.b64 payload)

theorem findNul_plain {texts raw rest : Bytes} {i : Nat} (h : texts.drop i = raw ++ [0] ++ rest) (h0 : (0 : UInt8) ∉ raw) :
    findNul texts i = some (i + raw.length) := by
  unfold findNul
  rw [h]
  have : (raw ++ [0] ++ rest).findIdx? (fun b => decide (b = 0)) = some raw.length := by
    rw [List.append_assoc, List.findIdx?_append]
    have h1 : raw.findIdx? (fun b => decide (b = 0)) = none := by
      rw [List.findIdx?_eq_none_iff]
      intro x hx
      simp only [decide_eq_false_iff_not]
      rintro rfl
      exact h0 hx
    rw [h1]
    simp [List.findIdx?_cons]
  rw [this]

theorem rstPlain_spec {env : RstEnv} {texts raw rest : Bytes} {i : Nat} (h : texts.drop i = raw ++ [0] ++ rest)
    (h0 : (0 : UInt8) ∉ raw) : rstPlain env texts i = env.decode raw := by
  unfold rstPlain pySlice
  rw [findNul_plain h h0]
  simp only [List.drop_take, Nat.add_sub_cancel_left]
  rw [h, List.append_assoc, List.take_left' rfl]

theorem rstText_spec {env : RstEnv} {enc : Bool} {texts : Bytes} {i : Nat} {t : Str} (h : TextAt env enc texts i t) :
    rstText env enc texts i = .ok t := by
  unfold rstText
  have hget : ∀ b r, texts.drop i = b :: r → texts[i]? = some b := by
    intro b r h
    have := congrArg List.head? h
    simpa [List.head?_drop] using this
  cases h with
  | plain raw rest h h0 he =>
    cases enc with
    | false => simp [rstPlain_spec h h0]
    | true =>
      simp only [if_true]
      have he' : raw.head? ≠ some 255 := by simpa using he
      have : ∃ b r, texts.drop i = b :: r ∧ b ≠ 255 := by
        rcases raw with _ | ⟨b, raw⟩
        · exact ⟨0, rest, by simpa using h, by decide⟩
        · exact ⟨b, raw ++ [0] ++ rest, by simpa using h, by simpa using he'⟩
      obtain ⟨b, r, h1, h2⟩ := this
      rw [hget b r h1]
      simp only [if_neg h2, rstPlain_spec h h0]
  | encrypted payload rest h hs he =>
    subst he
    simp only [if_true]
    rw [hget 255 (le 2 payload.length ++ payload ++ rest) (by simpa using h)]
    simp only [if_true, Except.ok.injEq]
    have h1 : texts.drop (i + 1) = le 2 payload.length ++ payload ++ rest := by
      rw [← List.drop_drop, h]; simp
    have h2 : texts.drop (i + 3) = payload ++ rest := by
      rw [show i + 3 = i + 1 + 2 by omega, ← List.drop_drop, h1, List.append_assoc, List.drop_left' (le_length ..)]
    rw [h1, h2, List.append_assoc, List.take_left' (le_length ..), leNat_le 2 _ hs, List.take_left' rfl]

theorem rstFill_spec {env : RstEnv} {enc : Bool} {texts : Bytes} {es : List (Nat × Nat)} {ts : List Str}
    (h : List.Forall₂ (fun e t => TextAt env enc texts e.1 t) es ts) (d : Dict Nat Str) :
    rstFill env enc texts d es = .ok (((es.map (·.2)).zip ts).foldl (fun d ht => d.set ht.1 ht.2) d) := by
  induction h generalizing d with
  | nil => rfl
  | cons h1 h2 ih =>
    rename_i e t es ts
    obtain ⟨i, hh⟩ := e
    simp only [rstFill, rstText_spec h1, List.map_cons, List.zip_cons_cons, List.foldl_cons]
    exact ih _

theorem rstWord_reads {bits off h : Nat} (hh : h < 2 ^ bits) (hv : off * 2 ^ bits + h < 256 ^ 8) :
    Reads (rstWord bits) (le 8 (off * 2 ^ bits + h)) (off, h) := by
  refine Reads.map (Reads.u hv) ?_
  have hp : 0 < 2 ^ bits := Nat.two_pow_pos bits
  have e1 : (off * 2 ^ bits + h) >>> bits = off := by
    rw [Nat.shiftRight_eq_div_pow, Nat.mul_comm, Nat.mul_add_div hp, Nat.div_eq_of_lt hh]; rfl
  have e2 : (off * 2 ^ bits + h) &&& ((1 <<< bits) - 1) = h := by
    rw [Nat.one_shiftLeft, Nat.and_two_pow_sub_one_eq_mod, Nat.mul_comm, Nat.mul_add_mod, Nat.mod_eq_of_lt hh]
  rw [e1, e2]

theorem rstVersion_reads {version gameVersion : Nat} (hv : 2 ≤ version ∧ version ≤ 5) {config : Option Str}
    (hc : ∀ s, config = some s → (utf8Bytes s).length < 256 ^ 4) :
    Reads (rstVersion version gameVersion) (rstConfig version config)
      (if version = 2 then config else none, rstBits version gameVersion) := by
  unfold rstVersion rstConfig rstBits
  by_cases h2 : version = 2
  · rw [if_pos h2, if_pos h2, if_pos h2, if_pos (by omega)]
    refine Reads.map (a := config) ?_ rfl
    unfold rstFontConfig
    cases config with
    | none =>
      refine Reads.map (a := 0) (Reads.u (w := 1) (n := 0) (by decide)) ?_
      rfl
    | some s =>
      simp only [List.append_assoc]
      refine Reads.bind (a := 1) (Reads.u (w := 1) (n := 1) (by decide)) ?_
      rw [if_pos (by decide)]
      refine Reads.bind (Reads.u (hc s rfl)) ?_
      have := Reads.bind (f := fun b => do let s ← Rd.lift (utf8 b); pure (some s)) (Reads.raw (utf8Bytes s))
        (Reads.bind_nil (Reads.lift (utf8_utf8Bytes s)) (Reads.pure (some s)))
      simpa using this
  · rw [if_neg h2, if_neg h2, if_neg h2]
    by_cases h3 : version = 3
    · rw [if_pos h3, if_pos (by omega)]; exact Reads.pure _
    · rw [if_neg h3, if_pos (by omega : version = 4 ∨ version = 5), if_neg (by omega : ¬ version ≤ 3)]
      by_cases hg : gameVersion < 1502
      · rw [if_neg (by omega : ¬ gameVersion ≥ 1502), if_pos hg]; exact Reads.pure _
      · rw [if_pos (by omega : gameVersion ≥ 1502), if_neg hg]; exact Reads.pure _

theorem rstTrenc_reads {version : Nat} (hv : 2 ≤ version ∧ version ≤ 5) (enc : Bool) (h5 : version = 5 → enc = false) :
    Reads (rstTrenc version) (rstFlag version enc) enc := by
  unfold rstTrenc rstFlag
  by_cases h : version = 5
  · rw [if_neg (by omega), if_pos h, h5 h]; exact Reads.pure _
  · rw [if_pos (by omega), if_neg h]
    have := Reads.map (f := fun b => (pure (decide (b ≠ 0)) : Rd Bool)) (b := enc)
      (Reads.u (w := 1) (n := if enc then 1 else 0) (by cases enc <;> decide)) (by cases enc <;> rfl)
    cases enc <;> exact this

/-- Parsing a file laid out per the format: everything is decoded, and the entries are the given hashes with
the texts at the given offsets. -/
theorem parseRst_layout (env : RstEnv) (version gameVersion : Nat) (hv : 2 ≤ version ∧ version ≤ 5)
    (config : Option Str) (hc : ∀ s, config = some s → (utf8Bytes s).length < 256 ^ 4)
    (entries : List (Nat × Nat)) (hn : entries.length < 256 ^ 4)
    (he : ∀ e ∈ entries, e.2 < 2 ^ rstBits version gameVersion ∧ e.1 < 2 ^ (64 - rstBits version gameVersion))
    (encrypted : Bool) (h5 : version = 5 → encrypted = false) (texts : Bytes) (ts : List Str)
    (ht : List.Forall₂ (fun e t => TextAt env encrypted texts e.1 t) entries ts) :
    (parseRst env gameVersion).run (rstFile version gameVersion config entries encrypted texts) =
      .ok { fontConfig := if version = 2 then config else none
            entries := Dict.ofList ((entries.map (·.2)).zip ts)
            hashBits := rstBits version gameVersion
            version := version
            gameVersion := gameVersion } := by
  apply ReadsEnd.run
  unfold rstFile parseRst
  refine Reads.bindEnd (Reads.exact' (bs := [82, 83, 84]) rfl) ?_
  refine Reads.bindEnd (Reads.u (by omega)) ?_
  refine Reads.bindEnd (bs := []) (Reads.pure ()) ?_
  refine Reads.bindEnd (rstVersion_reads hv hc) ?_
  refine Reads.bindEnd (Reads.u hn) ?_
  have hw : ∀ e ∈ entries, Reads (rstWord (rstBits version gameVersion))
      (le 8 (e.1 * 2 ^ rstBits version gameVersion + e.2)) ((fun e => e) e) := by
    intro e hmem
    obtain ⟨h1, h2⟩ := he e hmem
    refine rstWord_reads h1 ?_
    have hb : rstBits version gameVersion ≤ 64 := by unfold rstBits; split <;> [omega; split <;> omega]
    have hpow : 2 ^ (64 - rstBits version gameVersion) * 2 ^ rstBits version gameVersion = 256 ^ 8 := by
      rw [← Nat.pow_add, Nat.sub_add_cancel hb]; rfl
    generalize 2 ^ (64 - rstBits version gameVersion) = A at *
    generalize 2 ^ rstBits version gameVersion = B at *
    rw [← hpow]
    have : (e.1 + 1) * B ≤ A * B := Nat.mul_le_mul_right _ (by omega)
    rw [Nat.add_mul] at this
    omega
  have htimes := Reads.timesMap hw
  rw [List.map_id'] at htimes
  refine Reads.bindEnd htimes ?_
  refine Reads.bindEnd (rstTrenc_reads hv encrypted h5) ?_
  have hfin : ReadsEnd (Rd.rest >>= fun data => Rd.lift (rstFill env encrypted data [] entries) >>= fun d =>
      (pure { fontConfig := if version = 2 then config else none, entries := d,
              hashBits := rstBits version gameVersion, version := version, gameVersion := gameVersion } : Rd Rst)) texts
      { fontConfig := if version = 2 then config else none
        entries := Dict.ofList ((entries.map (·.2)).zip ts)
        hashBits := rstBits version gameVersion
        version := version
        gameVersion := gameVersion } := by
    intro pre
    rw [Rd.bind_ok (ReadsEnd.rest texts pre)]
    have : Rd.lift (rstFill env encrypted texts [] entries) (pre ++ texts) (pre.length + texts.length) =
        .ok (Dict.ofList ((entries.map (·.2)).zip ts), pre.length + texts.length) := by
      unfold Rd.lift; rw [rstFill_spec ht]; rfl
    rw [Rd.bind_ok this]
    rfl
  exact hfin

/-- The last text given to a hash. -/
def lastText (pairs : List (Nat × Str)) (h : Nat) : Option Str := (pairs.reverse.find? (fun p => p.1 = h)).map (·.2)

/-- For every version of the format and every game version, parsing a table laid out per the format succeeds,
and looking up a hash gives the text at the offset of its last entry; nothing else is in the table. -/
theorem C17_decode (env : RstEnv) (version gameVersion : Nat) (hv : 2 ≤ version ∧ version ≤ 5)
    (config : Option Str) (hc : ∀ s, config = some s → (utf8Bytes s).length < 256 ^ 4)
    (entries : List (Nat × Nat)) (hn : entries.length < 256 ^ 4)
    (he : ∀ e ∈ entries, e.2 < 2 ^ rstBits version gameVersion ∧ e.1 < 2 ^ (64 - rstBits version gameVersion))
    (encrypted : Bool) (h5 : version = 5 → encrypted = false) (texts : Bytes) (ts : List Str)
    (ht : List.Forall₂ (fun e t => TextAt env encrypted texts e.1 t) entries ts) :
    ∃ r, (parseRst env gameVersion).run (rstFile version gameVersion config entries encrypted texts) = .ok r ∧
      r.version = version ∧ r.hashBits = rstBits version gameVersion ∧
      r.fontConfig = (if version = 2 then config else none) ∧
      (∀ h, r.entries.get? h = lastText ((entries.map (·.2)).zip ts) h) ∧
      (∀ h, h ∈ r.entries.keys ↔ h ∈ entries.map (·.2)) := by
  refine ⟨_, parseRst_layout env version gameVersion hv config hc entries hn he encrypted h5 texts ts ht,
    rfl, rfl, rfl, ?_, ?_⟩
  · intro h
    simp only
    rw [Dict.get?_ofList]
    rfl
  · intro h
    simp only
    rw [Dict.mem_keys_ofList]
    have : ((entries.map (·.2)).zip ts).map (·.1) = entries.map (·.2) := by
      rw [List.map_fst_zip]
      rw [List.length_map, ht.length_eq]
    rw [this]

/-- Distinct hashes: each entry has its own text. -/
theorem C17_distinct (env : RstEnv) (version gameVersion : Nat) (hv : 2 ≤ version ∧ version ≤ 5)
    (config : Option Str) (hc : ∀ s, config = some s → (utf8Bytes s).length < 256 ^ 4)
    (entries : List (Nat × Nat)) (hn : entries.length < 256 ^ 4)
    (he : ∀ e ∈ entries, e.2 < 2 ^ rstBits version gameVersion ∧ e.1 < 2 ^ (64 - rstBits version gameVersion))
    (hd : (entries.map (·.2)).Nodup)
    (encrypted : Bool) (h5 : version = 5 → encrypted = false) (texts : Bytes) (ts : List Str)
    (ht : List.Forall₂ (fun e t => TextAt env encrypted texts e.1 t) entries ts) :
    ∃ r, (parseRst env gameVersion).run (rstFile version gameVersion config entries encrypted texts) = .ok r ∧
      r.entries = (entries.map (·.2)).zip ts := by
  refine ⟨_, parseRst_layout env version gameVersion hv config hc entries hn he encrypted h5 texts ts ht, ?_⟩
  apply Dict.ofList_of_nodup
  rw [List.map_fst_zip]
  · exact hd
  · rw [List.length_map, ht.length_eq]

/-- Valid UTF-8 texts are decoded exactly. -/
theorem C17_utf8 (env : RstEnv) (s : Str) : env.decode (utf8Bytes s) = s := by
  unfold RstEnv.decode
  rw [utf8_utf8Bytes]

/-- Boundary: a text at the end of the file that is not terminated loses its last byte. -/
theorem C17_unterminated (env : RstEnv) (texts raw : Bytes) (b : UInt8) (i : Nat) (h : texts.drop i = raw ++ [b])
    (h0 : (0 : UInt8) ∉ raw ++ [b]) : rstText env false texts i = .ok (env.decode raw) := by
  unfold rstText rstPlain
  have : findNul texts i = none := by
    unfold findNul
    rw [h]
    have : (raw ++ [b]).findIdx? (fun b => decide (b = 0)) = none := by
      rw [List.findIdx?_eq_none_iff]
      intro x hx
      simp only [decide_eq_false_iff_not]
      rintro rfl
      exact h0 hx
    rw [this]
  rw [this]
  simp only [Bool.false_eq_true, if_false, pySlice, List.drop_take, h]
  have hl : texts.length - i = raw.length + 1 := by
    have := congrArg List.length h
    simpa using this
  rw [show texts.length - 1 - i = raw.length by omega, List.take_left' rfl]

/-- A wrong magic or an unsupported version raises `ValueError`. -/
theorem C17_reject (env : RstEnv) (gameVersion : Nat) (magic : Bytes) (version : Nat) (rest : Bytes)
    (hm : magic.length = 3) (hv : version < 256) (hbad : magic ≠ [82, 83, 84] ∨ version < 2 ∨ 5 < version) :
    (parseRst env gameVersion).run (magic ++ le 1 version ++ rest) = .error .value := by
  have e1 := Reads.exact' hm.symm [] (le 1 version ++ rest)
  have e2 := Reads.u (w := 1) (n := version) (by omega) magic rest
  simp only [List.nil_append, List.length_nil, Nat.zero_add, ← List.append_assoc] at e1 e2
  unfold Rd.run parseRst
  rw [Rd.bind_ok e1, hm, Rd.bind_ok (hm ▸ e2)]
  by_cases h : magic = [82, 83, 84]
  · have hv' : version < 2 ∨ 5 < version := by
      rcases hbad with h' | h'
      · exact absurd h h'
      · exact h'
    have e3 : ∀ data pos, rstMagic magic data pos = .ok ((), pos) := by
      intro data pos; unfold rstMagic; rw [if_neg (by simpa using h)]; rfl
    rw [Rd.bind_ok (e3 _ _)]
    have e4 : ∀ data pos, rstVersion version gameVersion data pos = .error .value := by
      intro data pos
      unfold rstVersion
      rw [if_neg (by omega), if_neg (by omega), if_neg (by omega)]; rfl
    rw [Rd.bind_error (e4 _ _)]
  · have e3 : ∀ data pos, rstMagic magic data pos = .error .value := by
      intro data pos; unfold rstMagic; rw [if_pos h]; rfl
    rw [Rd.bind_error (e3 _ _)]

/-- Non-vacuity: a version 4 file with a plain and an encrypted entry. -/
example :
    let env : RstEnv := { decodeInvalid := fun _ => [], b64 := fun b => b.map fun x => Char.ofNat x.toNat,
                          xxh3 := fun _ => 0, xxh64 := fun _ => 0, lower := id }
    (parseRst env 1500).run (rstFile 4 1500 none [(0, 7), (3, 2 ^ 39 - 1)] true
      [0x61, 0x62, 0, 255, 2, 0, 0x78, 0x79]) =
      .ok { fontConfig := none, entries := [(7, "ab".toList), (2 ^ 39 - 1, "xy".toList)], hashBits := 39,
            version := 4, gameVersion := 1500 } := by
  intro env
  rw [parseRst_layout env 4 1500 (by decide) none (by intro s h; cases h) _ (by decide) (by decide) true
    (by intro h; cases h) _ ["ab".toList, "xy".toList]]
  · rfl
  · refine .cons ?_ (.cons ?_ .nil)
    · have := TextAt.plain (env := env) (encrypted := true) (texts := [0x61, 0x62, 0, 255, 2, 0, 0x78, 0x79]) (offset := 0)
        [0x61, 0x62] [255, 2, 0, 0x78, 0x79] rfl (by decide) (Or.inr (by decide))
      have h : env.decode [0x61, 0x62] = "ab".toList := C17_utf8 env "ab".toList
      rw [h] at this
      exact this
    · exact TextAt.encrypted [0x78, 0x79] [] rfl (by decide) rfl

/-! ## Cases that meet the hypotheses -/

/-- `C17_unterminated`: the last byte is lost -/
example :
    let env : RstEnv := { decodeInvalid := fun _ => [], b64 := fun _ => [], xxh3 := fun _ => 0, xxh64 := fun _ => 0, lower := id }
    rstText env false [0x61, 0, 0x62, 0x63, 0x64] 2 = .ok "bc".toList ∧ rstText env false [0x61, 0, 0x62, 0x63, 0x64] 0 = .ok "a".toList := by
  decide +kernel

end Cdtb
