import Verif.Lemmas.JsonText
import Verif.Props.C77
import Verif.Props.C59
import Verif.Props.C32
/-!
# C79: the JSON texts that are written, and the data they denote
-/
namespace Cdtb
set_option autoImplicit false
open Py Spec

/-! ## Texts -/

/-- **C79, unambiguous.** A JSON text denotes at most one value. -/
theorem C79_unambiguous {t : Str} {v v' : Json} (h : JsonText t v) (h' : JsonText t v') : v = v' :=
  (jsonText_unique h h' (r := []) (r' := []) (by intro c r e; simp at e) (by intro c r e; simp at e) rfl).1

/-- **C79, data.** The text of any Python data is a JSON text, which denotes this data. -/
theorem C79_denotes (lib : JsonWriter) (hg : GoodWriter lib) (name : Ser → Str) (hn : ∀ k n, lib.key k = .ok n → name k = n) (s : Ser) (level : Nat) (t : Str)
    (h : lib.dumps level s = .ok t) : JsonText t (jsonOf lib.showF name s) := dumps_text lib hg name hn s level t h

/-- **C79, one text for one value.** Two data with the same text have the same JSON value, even written with different libraries or options. -/
theorem C79_same (lib lib' : JsonWriter) (hg : GoodWriter lib) (hg' : GoodWriter lib') (name name' : Ser → Str) (hn : ∀ k n, lib.key k = .ok n → name k = n)
    (hn' : ∀ k n, lib'.key k = .ok n → name' k = n) (s s' : Ser) (level level' : Nat) (t : Str)
    (h : lib.dumps level s = .ok t) (h' : lib'.dumps level' s' = .ok t) : jsonOf lib.showF name s = jsonOf lib'.showF name' s' :=
  C79_unambiguous (C79_denotes lib hg name hn s level t h) (C79_denotes lib' hg' name' hn' s' level' t h')

theorem jsonWs_printable {w : Str} (h : JsonWs w) (hb : '\n' ∉ w ∧ '\t' ∉ w ∧ '\r' ∉ w) : ∀ c ∈ w, Printable c := by
  intro c hc
  rcases h c hc with rfl | rfl | rfl | rfl
  · unfold Printable; decide +kernel
  · exact absurd hc hb.1
  · exact absurd hc hb.2.1
  · exact absurd hc hb.2.2

theorem jsonWs_small {w : Str} (h : JsonWs w) : ∀ c ∈ w, c.toNat < 128 := by
  intro c hc
  rcases h c hc with rfl | rfl | rfl | rfl <;> decide +kernel

/-- **C79, ASCII.** With `ensure_ascii`, the text of any data, whatever characters it has, can be encoded in ASCII; read as ASCII or as UTF-8, the bytes give this text
again. -/
theorem C79_ascii (lib : JsonWriter) (hg : GoodWriter lib) (ha : lib.ascii = true) (s : Ser) (level : Nat) (t : Str) (h : lib.dumps level s = .ok t) :
    ∃ b, encodeAscii t = .ok b ∧ utf8 b = .ok t ∧ ∀ x ∈ b, x < 128 := by
  have hall : ∀ c ∈ t, c.toNat < 128 := by
    refine dumps_all hg (P := fun c => c.toNat < 128) ⟨by decide +kernel, by decide +kernel, ⟨jsonWs_small hg.colon.1, jsonWs_small hg.colon.2⟩,
      fun n => jsonWs_small (hg.open_ n), fun n => jsonWs_small (hg.comma n), fun n => jsonWs_small (hg.close n), ?_⟩ s level t h
    intro c x hx
    exact (escape_printable lib ha c x hx).2
  have he : encodeAscii t = .ok (t.map fun c => UInt8.ofNat c.toNat) := by
    unfold encodeAscii
    rw [if_pos (by rw [List.all_eq_true]; intro c hc; exact decide_eq_true (hall c hc))]
  have hu : utf8Bytes t = t.map fun c => UInt8.ofNat c.toNat := by
    clear he h
    induction t with
    | nil => rfl
    | cons c t ih =>
      have hc : c.toNat < 128 := hall c (by simp)
      have h1 : String.utf8EncodeChar c = [UInt8.ofNat c.toNat] := by
        unfold String.utf8EncodeChar
        have : c.val.toNat ≤ 127 := by
          have : c.val.toNat = c.toNat := rfl
          omega
        simp only [this, if_true]
        rfl
      unfold utf8Bytes at ih ⊢
      rw [List.flatMap_cons, h1, ih (fun c hc => hall c (by simp [hc]))]
      rfl
  refine ⟨_, he, by rw [← hu, utf8_utf8Bytes], ?_⟩
  intro x hx
  obtain ⟨c, hc, rfl⟩ := List.mem_map.1 hx
  have := hall c hc
  rw [UInt8.lt_iff_toNat_lt, UInt8.toNat_ofNat']
  simp only [UInt8.reduceToNat]
  omega

/-- **C79, one line.** Without indentation, a text is one line, whatever strings are in the data. -/
theorem C79_one_line (lib : JsonWriter) (hg : GoodWriter lib) (hc : '\n' ∉ lib.colonWs.1 ∧ '\n' ∉ lib.colonWs.2)
    (hw : ∀ n, '\n' ∉ lib.openWs n ∧ '\n' ∉ lib.commaWs n ∧ '\n' ∉ lib.closeWs n) (s : Ser) (level : Nat) (t : Str) (h : lib.dumps level s = .ok t) :
    '\n' ∉ t := by
  intro hm
  refine dumps_all hg (P := fun c => c ≠ '\n') ⟨by decide +kernel, by decide +kernel, ?_, ?_, ?_, ?_, escape_no_break lib⟩ s level t h '\n' hm rfl
  · exact ⟨fun c h e => hc.1 (e ▸ h), fun c h e => hc.2 (e ▸ h)⟩
  · exact fun n c h e => (hw n).1 (e ▸ h)
  · exact fun n c h e => (hw n).2.1 (e ▸ h)
  · exact fun n c h e => (hw n).2.2 (e ▸ h)

/-! ## Which data can be written -/

section
variable {lib : JsonWriter} {name : Ser → Str}

/-- The data can be written, and its JSON value has distinct names. -/
def Fine (lib : JsonWriter) (name : Ser → Str) (s : Ser) : Prop :=
  (∀ level, ∃ t, lib.dumps level s = .ok t) ∧ DistinctNames (jsonOf lib.showF name s)

theorem jsonList_eq (num : Nat → Str) (l : List Ser) : jsonList num name l = l.map (jsonOf num name) := by
  induction l with
  | nil => rfl
  | cons s l ih => rw [jsonList, ih]; rfl

theorem jsonObj_eq (num : Nat → Str) (l : List (Str × Ser)) : jsonObj num name l = l.map fun kv => (kv.1, jsonOf num name kv.2) := by
  induction l with
  | nil => rfl
  | cons s l ih => rw [jsonObj, ih]; rfl

theorem jsonDict_eq (num : Nat → Str) (l : List (Ser × Ser)) : jsonDict num name l = l.map fun kv => (name kv.1, jsonOf num name kv.2) := by
  induction l with
  | nil => rfl
  | cons s l ih => rw [jsonDict, ih]; rfl

theorem fine_list {l : List Ser} (h : ∀ s ∈ l, Fine lib name s) : Fine lib name (.list l) := by
  constructor
  · intro level
    have : ∃ ts, lib.dumpsList (level + 1) l = .ok ts := by
      clear * - h
      induction l with
      | nil => exact ⟨_, rfl⟩
      | cons s l ih =>
        obtain ⟨ts, hts⟩ := ih (fun s hs => h s (List.mem_cons_of_mem _ hs))
        obtain ⟨t, ht⟩ := (h s (by simp)).1 (level + 1)
        exact ⟨t :: ts, by simp only [JsonWriter.dumpsList, ht, hts, bind, Except.bind]⟩
    obtain ⟨ts, hts⟩ := this
    exact ⟨_, by simp only [JsonWriter.dumps, hts, bind, Except.bind]; rfl⟩
  · rw [jsonOf, jsonList_eq]
    apply DistinctNames.arr
    intro v hv
    obtain ⟨s, hs, rfl⟩ := List.mem_map.1 hv
    exact (h s hs).2

theorem fine_obj {d : List (Str × Ser)} (hd : (d.map Prod.fst).Nodup) (h : ∀ kv ∈ d, Fine lib name kv.2) : Fine lib name (.obj d) := by
  constructor
  · intro level
    have : ∃ ts, lib.dumpsObj (level + 1) d = .ok ts := by
      clear * - h
      induction d with
      | nil => exact ⟨_, rfl⟩
      | cons s l ih =>
        obtain ⟨k, s⟩ := s
        obtain ⟨ts, hts⟩ := ih (fun s hs => h s (List.mem_cons_of_mem _ hs))
        obtain ⟨t, ht⟩ := (h (k, s) (by simp)).1 (level + 1)
        exact ⟨_, by simp only [JsonWriter.dumpsObj, ht, hts, bind, Except.bind]; rfl⟩
    obtain ⟨ts, hts⟩ := this
    exact ⟨_, by simp only [JsonWriter.dumps, hts, bind, Except.bind]; rfl⟩
  · rw [jsonOf, jsonObj_eq]
    apply DistinctNames.obj
    · rw [List.map_map]; exact hd
    · intro v hv
      obtain ⟨s, hs, rfl⟩ := List.mem_map.1 hv
      exact (h s hs).2

theorem fine_dict {d : List (Ser × Ser)} (hk : ∀ kv ∈ d, ∃ n, lib.key kv.1 = .ok n) (hd : (d.map fun kv => name kv.1).Nodup)
    (h : ∀ kv ∈ d, Fine lib name kv.2) : Fine lib name (.dict d) := by
  constructor
  · intro level
    have : ∃ ts, lib.dumpsDict (level + 1) d = .ok ts := by
      clear * - h hk
      induction d with
      | nil => exact ⟨_, rfl⟩
      | cons s l ih =>
        obtain ⟨k, s⟩ := s
        obtain ⟨ts, hts⟩ := ih (fun s hs => hk s (List.mem_cons_of_mem _ hs)) (fun s hs => h s (List.mem_cons_of_mem _ hs))
        obtain ⟨t, ht⟩ := (h (k, s) (by simp)).1 (level + 1)
        obtain ⟨n, hn⟩ := hk (k, s) (by simp)
        simp only at hn
        exact ⟨_, by simp only [JsonWriter.dumpsDict, hn, ht, hts, bind, Except.bind]; rfl⟩
    obtain ⟨ts, hts⟩ := this
    exact ⟨_, by simp only [JsonWriter.dumps, hts, bind, Except.bind]; rfl⟩
  · rw [jsonOf, jsonDict_eq]
    apply DistinctNames.obj
    · rw [List.map_map]; exact hd
    · intro v hv
      obtain ⟨s, hs, rfl⟩ := List.mem_map.1 hv
      exact (h s hs).2

theorem fine_str (s : Str) : Fine lib name (.str s) := ⟨fun _ => ⟨_, rfl⟩, .str _⟩
theorem fine_none : Fine lib name .none := ⟨fun _ => ⟨_, rfl⟩, .null⟩
theorem fine_bool (b : Bool) : Fine lib name (.bool b) := ⟨fun _ => by cases b <;> exact ⟨_, rfl⟩, .bool _⟩
theorem fine_int (n : Int) : Fine lib name (.int n) := ⟨fun _ => ⟨_, rfl⟩, .num _⟩
theorem fine_float (n : Nat) : Fine lib name (.float n) := ⟨fun _ => ⟨_, rfl⟩, .num _⟩

theorem distinct_nums {α : Type} (f : α → Str) (l : List α) : DistinctNames (.arr (l.map fun x => .num (f x))) := by
  apply DistinctNames.arr
  intro v hv
  obtain ⟨x, -, rfl⟩ := List.mem_map.1 hv
  exact .num _

/-- Keys of a map, once serialized: they can be written, and different keys have different names. -/
structure GoodKeys (lib : JsonWriter) (name : Ser → Str) (K : Ser → Prop) : Prop where
  key : ∀ k, K k → k.hashable = true ∧ ∃ n, lib.key k = .ok n
  names : ∀ a b, K a → K b → ¬ a.sameKey b → name a ≠ name b

theorem goodKeys_of_type (env : BinEnv) (hn : KeyNames lib name) {kt : BinType} (ht : SimpleKeyType kt) :
    ∃ K, GoodKeys lib name K ∧ ∀ k, OfType kt k → ∃ s, ser env k = .ok s ∧ K s := by
  rcases ht with ht | ht | ht | ⟨kk, ht⟩
  · refine ⟨fun s => ∃ n, s = .int n, ⟨?_, ?_⟩, ?_⟩
    · rintro _ ⟨n, rfl⟩; exact ⟨rfl, _, hn.ints n⟩
    · rintro _ _ ⟨a, rfl⟩ ⟨b, rfl⟩ h e
      rw [hn.given (.int a) _ (hn.ints a), hn.given (.int b) _ (hn.ints b)] at e
      exact h (by simp [Ser.sameKey, showInt_inj e])
    · intro k hk
      cases hk <;> rename_i h <;> first | exact ⟨_, rfl, _, rfl⟩ | (exfalso; simp [ht] at *)
  · refine ⟨fun s => ∃ n, s = .bool n, ⟨?_, ?_⟩, ?_⟩
    · obtain ⟨a, b, ha, hb, -⟩ := hn.bools
      rintro _ ⟨n, rfl⟩
      cases n
      · exact ⟨rfl, _, hb⟩
      · exact ⟨rfl, _, ha⟩
    · obtain ⟨a, b, ha, hb, hab⟩ := hn.bools
      rintro _ _ ⟨x, rfl⟩ ⟨y, rfl⟩ h e
      have h1 : name (.bool true) = a := hn.given _ _ ha
      have h2 : name (.bool false) = b := hn.given _ _ hb
      cases x <;> cases y
      · exact h rfl
      · rw [h1, h2] at e; exact hab e.symm
      · rw [h1, h2] at e; exact hab e
      · exact h rfl
    · intro k hk
      cases hk <;> rename_i h <;> first | exact ⟨_, rfl, _, rfl⟩ | (exfalso; simp [ht] at *)
  all_goals
    refine ⟨fun s => ∃ n, s = .str n, ⟨?_, ?_⟩, ?_⟩
    · rintro _ ⟨n, rfl⟩; exact ⟨rfl, _, rfl⟩
    · rintro _ _ ⟨a, rfl⟩ ⟨b, rfl⟩ h e
      rw [hn.given (.str a) a rfl, hn.given (.str b) b rfl] at e
      exact h (by simp [Ser.sameKey, e])
    · intro k hk
      cases hk <;> rename_i h <;> first | exact ⟨_, rfl, _, rfl⟩ | (exfalso; simp [ht] at *)

/-- Invariant of the dicts made by `serPairs` -/
structure PairsInv (lib : JsonWriter) (name : Ser → Str) (K : Ser → Prop) (d : List (Ser × Ser)) : Prop where
  keys : ∀ kv ∈ d, K kv.1
  names : (d.map fun kv => name kv.1).Nodup
  values : ∀ kv ∈ d, Fine lib name kv.2

theorem serSet_mem {d : List (Ser × Ser)} {k v : Ser} : ∀ kv ∈ serSet d k v, (∃ u, (kv.1, u) ∈ d ∧ (kv.2 = u ∨ kv.2 = v)) ∨ kv = (k, v) := by
  induction d with
  | nil => intro kv h; simp only [serSet, List.mem_singleton] at h; exact Or.inr h
  | cons x d ih =>
    intro kv h
    obtain ⟨k', v'⟩ := x
    rw [serSet] at h
    split at h
    · rcases List.mem_cons.1 h with rfl | h
      · exact Or.inl ⟨v', by simp, Or.inr rfl⟩
      · exact Or.inl ⟨kv.2, by simp [h], Or.inl rfl⟩
    · rcases List.mem_cons.1 h with rfl | h
      · exact Or.inl ⟨v', by simp, Or.inl rfl⟩
      · rcases ih kv h with ⟨u, h1, h2⟩ | h
        · exact Or.inl ⟨u, by simp [h1], h2⟩
        · exact Or.inr h

theorem serSet_keys (d : List (Ser × Ser)) (k v : Ser) :
    (serSet d k v).map (·.1) = d.map (·.1) ∨ ((serSet d k v).map (·.1) = d.map (·.1) ++ [k] ∧ ∀ kv ∈ d, ¬ kv.1.sameKey k) := by
  induction d with
  | nil => exact Or.inr ⟨rfl, by simp⟩
  | cons x d ih =>
    obtain ⟨k', v'⟩ := x
    rw [serSet]
    split
    · exact Or.inl rfl
    · rename_i hk
      rcases ih with ih | ⟨ih, h⟩
      · exact Or.inl (by rw [List.map_cons, ih]; rfl)
      · refine Or.inr ⟨by rw [List.map_cons, ih]; rfl, ?_⟩
        intro kv hkv
        rcases List.mem_cons.1 hkv with rfl | hkv
        · exact hk
        · exact h kv hkv

theorem PairsInv.set {K : Ser → Prop} (hK : GoodKeys lib name K) {d : List (Ser × Ser)} (h : PairsInv lib name K d) {k v : Ser} (hk : K k) (hv : Fine lib name v) :
    PairsInv lib name K (serSet d k v) := by
  refine ⟨?_, ?_, ?_⟩
  · intro kv hkv
    rcases serSet_mem kv hkv with ⟨u, h1, -⟩ | rfl
    · exact h.keys (kv.1, u) h1
    · exact hk
  · have e : ∀ l : List (Ser × Ser), (l.map fun kv => name kv.1) = (l.map (·.1)).map name := fun l => by rw [List.map_map]; rfl
    rcases serSet_keys d k v with h1 | ⟨h1, h2⟩
    · rw [e, h1, ← e]; exact h.names
    · rw [e, h1, List.map_append, ← e, List.nodup_append]
      refine ⟨h.names, by simp, ?_⟩
      intro a ha b hb
      obtain ⟨kv, hkv, rfl⟩ := List.mem_map.1 ha
      simp only [List.map_cons, List.map_nil, List.mem_singleton] at hb
      subst hb
      exact hK.names _ _ (h.keys kv hkv) hk (h2 kv hkv)
  · intro kv hkv
    rcases serSet_mem kv hkv with ⟨u, h1, h2 | h2⟩ | rfl
    · rw [h2]; exact h.values _ h1
    · rw [h2]; exact hv
    · exact hv

/-- Invariant of the dicts with string keys -/
def ObjInv (lib : JsonWriter) (name : Ser → Str) (d : Dict Str Ser) : Prop := Dict.WF d ∧ ∀ kv ∈ d, Fine lib name kv.2

theorem ObjInv.set {d : Dict Str Ser} (h : ObjInv lib name d) (k : Str) {v : Ser} (hv : Fine lib name v) : ObjInv lib name (d.set k v) := by
  refine ⟨h.1.set k v, fun kv hkv => ?_⟩
  rcases dict_mem_set hkv with hkv | rfl
  · exact h.2 kv hkv
  · exact hv

theorem ObjInv.fine {d : Dict Str Ser} (h : ObjInv lib name d) : Fine lib name (.obj d) := fine_obj h.1 h.2

theorem ObjInv.nil : ObjInv lib name [] := ⟨.nil, by simp⟩

mutual
theorem ser_fine (env : BinEnv) (hn : KeyNames lib name) : ∀ (v : BinValue) (t : BinType), OfType t v → SimpleMaps v → ∃ s, ser env v = .ok s ∧ Fine lib name s
  | .tuple l, t, h, hs => ⟨_, rfl, fun _ => ⟨_, rfl⟩, by rw [jsonOf]; exact distinct_nums (fun n : Nat => showInt n) l⟩
  | .bool b, t, h, hs => ⟨_, rfl, fine_bool b⟩
  | .int n, t, h, hs => ⟨_, rfl, fine_int n⟩
  | .float b, t, h, hs => ⟨_, rfl, fine_float b⟩
  | .floats l, t, h, hs => ⟨_, rfl, fun _ => ⟨_, rfl⟩, distinct_nums lib.showF l⟩
  | .matrix rows, t, h, hs => ⟨_, rfl, fun _ => ⟨_, rfl⟩, by
      rw [jsonOf]
      apply DistinctNames.arr
      intro v hv
      obtain ⟨r, -, rfl⟩ := List.mem_map.1 hv
      exact distinct_nums lib.showF r⟩
  | .str s, t, h, hs => ⟨_, rfl, fine_str s⟩
  | .hashed k x, t, h, hs => ⟨_, rfl, fine_str _⟩
  | .list vt l, t, h, hs => by
    cases h with
    | list _ h =>
      obtain ⟨ss, h1, h2⟩ := serList_fine env hn l vt h hs
      exact ⟨.list ss, by rw [ser, h1]; rfl, fine_list h2⟩
  | .struct x fs, t, h, hs => by
    have hf : FieldsTyped fs := by cases h with
      | null => exact .nil
      | struct _ _ h => exact h
    obtain ⟨d, h1, h2⟩ := serFields_fine env hn fs [] hf hs ObjInv.nil
    by_cases hx : x = 0
    · exact ⟨.none, by rw [ser, h1]; simp only [bind, Except.bind, if_pos hx]; rfl, fine_none⟩
    · exact ⟨_, by rw [ser, h1]; simp only [bind, Except.bind, if_neg hx]; rfl, (h2.set _ (fine_str _)).fine⟩
  | .embedded x fs, t, h, hs => by
    have hf : FieldsTyped fs := by cases h with
      | embedded _ h => exact h
    obtain ⟨d, h1, h2⟩ := serFields_fine env hn fs [] hf hs ObjInv.nil
    exact ⟨_, by rw [ser, h1]; rfl, (h2.set _ (fine_str _)).fine⟩
  | .option vt none, t, h, hs => ⟨_, rfl, fine_none⟩
  | .option vt (some v), t, h, hs => by
    cases h with
    | something _ h =>
      obtain ⟨s, h1, h2⟩ := ser_fine env hn v vt h hs
      exact ⟨s, by rw [ser]; exact h1, h2⟩
  | .map kt vt ps, t, h, hs => by
    cases h with
    | map _ h =>
      obtain ⟨K, hK, hk⟩ := goodKeys_of_type env hn hs.1
      obtain ⟨d, h1, h2⟩ := serPairs_fine env hn ps kt vt K hK hk [] h hs.2 ⟨by simp, by simp, by simp⟩
      exact ⟨.dict d, by rw [ser, h1]; rfl, fine_dict (fun kv hkv => (hK.key _ (h2.keys kv hkv)).2) h2.names h2.values⟩
theorem serList_fine (env : BinEnv) (hn : KeyNames lib name) : ∀ (l : List BinValue) (t : BinType), AllOfType t l → SimpleMapsList l →
    ∃ ss, serList env l = .ok ss ∧ ∀ s ∈ ss, Fine lib name s
  | [], t, h, hs => ⟨[], rfl, by simp⟩
  | v :: l, t, h, hs => by
    cases h with
    | cons h1 h2 =>
      obtain ⟨s, e1, f1⟩ := ser_fine env hn v t h1 hs.1
      obtain ⟨ss, e2, f2⟩ := serList_fine env hn l t h2 hs.2
      refine ⟨s :: ss, by rw [serList, e1, e2]; rfl, ?_⟩
      intro x hx
      rcases List.mem_cons.1 hx with rfl | hx
      · exact f1
      · exact f2 x hx
theorem serFields_fine (env : BinEnv) (hn : KeyNames lib name) : ∀ (l : List BinField) (d : Dict Str Ser), FieldsTyped l → SimpleMapsFields l →
    ObjInv lib name d → ∃ d', serFields env d l = .ok d' ∧ ObjInv lib name d'
  | [], d, h, hs, hd => ⟨d, rfl, hd⟩
  | .mk n t v :: l, d, h, hs, hd => by
    cases h with
    | cons h1 h2 =>
      obtain ⟨s, e1, f1⟩ := ser_fine env hn v t h1 hs.1
      obtain ⟨d', e2, f2⟩ := serFields_fine env hn l (d.set (env.mk' .field n).str s) h2 hs.2 (hd.set _ f1)
      exact ⟨d', by rw [serFields, e1]; exact e2, f2⟩
theorem serPairs_fine (env : BinEnv) (hn : KeyNames lib name) : ∀ (l : List BinPair) (kt vt : BinType) (K : Ser → Prop), GoodKeys lib name K →
    (∀ k, OfType kt k → ∃ s, ser env k = .ok s ∧ K s) → ∀ (d : List (Ser × Ser)), PairsTyped kt vt l → SimpleMapsPairs l → PairsInv lib name K d →
    ∃ d', serPairs env d l = .ok d' ∧ PairsInv lib name K d'
  | [], kt, vt, K, hK, hk, d, h, hs, hd => ⟨d, rfl, hd⟩
  | .mk k v :: l, kt, vt, K, hK, hk, d, h, hs, hd => by
    cases h with
    | cons h1 h2 h3 =>
      obtain ⟨sk, e0, f0⟩ := hk k h1
      obtain ⟨s, e1, f1⟩ := ser_fine env hn v vt h2 hs.1
      obtain ⟨d', e2, f2⟩ := serPairs_fine env hn l kt vt K hK hk (serSet d sk s) h3 hs.2 (hd.set hK f0 f1)
      exact ⟨d', by rw [serPairs, e0, e1]; simp only [bind, Except.bind, (hK.key sk f0).1, if_true]; exact e2, f2⟩
end

theorem serPatchFields_fine (env : BinEnv) (hn : KeyNames lib name) : ∀ (l : List BinPatchField) (d : Dict Str Ser), (∀ x ∈ l, OfType x.type x.value) →
    (∀ x ∈ l, SimpleMaps x.value) → ObjInv lib name d → ∃ d', serPatchFields env d l = .ok d' ∧ ObjInv lib name d'
  | [], d, h, hs, hd => ⟨d, rfl, hd⟩
  | f :: l, d, h, hs, hd => by
    obtain ⟨s, e1, f1⟩ := ser_fine env hn f.value f.type (h f (by simp)) (hs f (by simp))
    obtain ⟨d', e2, f2⟩ := serPatchFields_fine env hn l (d.set f.path s) (fun x hx => h x (by simp [hx])) (fun x hx => hs x (by simp [hx])) (hd.set _ f1)
    exact ⟨d', by rw [serPatchFields, e1]; exact e2, f2⟩

theorem serEntries_fine {α : Type} (env : BinEnv) (path : α → Nat) (f : α → Res Ser) : ∀ (l : List α) (d : Dict Str Ser),
    (∀ e ∈ l, ∃ s, f e = .ok s ∧ Fine lib name s) → ObjInv lib name d → ∃ d', serEntries env path f d l = .ok d' ∧ ObjInv lib name d'
  | [], d, h, hd => ⟨d, rfl, hd⟩
  | e :: l, d, h, hd => by
    obtain ⟨s, e1, f1⟩ := h e (by simp)
    obtain ⟨d', e2, f2⟩ := serEntries_fine env path f l (d.set (env.mk' .entry (path e)).str s) (fun x hx => h x (by simp [hx])) (hd.set _ f1)
    exact ⟨d', by rw [serEntries, e1]; exact e2, f2⟩

theorem file_fine (env : BinEnv) (hn : KeyNames lib name) (f : BinFile) (ht : FileTyped f) (hs : SimpleFile f) :
    ∃ s, f.ser env = .ok s ∧ Fine lib name s := by
  obtain ⟨d, e1, f1⟩ := serEntries_fine (lib := lib) (name := name) env (·.path) (BinEntry.ser env) f.entries [] (by
    intro e he
    obtain ⟨d, h1, h2⟩ := serFields_fine env hn e.fields [] (ht.entries e he) (hs.entries e he) ObjInv.nil
    exact ⟨_, by unfold BinEntry.ser; rw [h1]; rfl, (h2.set _ (fine_str _)).fine⟩) ObjInv.nil
  have f2 : ObjInv lib name (serLinked f.linked d) := by
    unfold serLinked
    split
    · refine f1.set _ (fine_list ?_)
      intro s hs
      obtain ⟨x, -, rfl⟩ := List.mem_map.1 hs
      exact fine_str x
    · exact f1
  obtain ⟨d', e3, f3⟩ : ∃ d', serPatches env f.patches (serLinked f.linked d) = .ok d' ∧ ObjInv lib name d' := by
    unfold serPatches
    cases hp : f.patches with
    | none => exact ⟨_, rfl, f2⟩
    | some ps =>
      have h1 := ht.patches
      have h2 := hs.patches
      rw [hp] at h1 h2
      obtain ⟨p, e4, f4⟩ := serEntries_fine (lib := lib) (name := name) env (·.path) (fun e : BinPatchEntry => do
          let s ← serPatchFields env [] e.fields
          pure (.obj s)) ps [] (by
        intro e he
        obtain ⟨d, g1, g2⟩ := serPatchFields_fine env hn e.fields [] (h1 e he) (h2 e he) ObjInv.nil
        exact ⟨.obj d, by rw [g1]; rfl, g2.fine⟩) ObjInv.nil
      exact ⟨(serLinked f.linked d).set "__patches".toList (.obj p), by simp only [bind, Except.bind] at e4 ⊢; rw [e4]; rfl, f2.set _ f4.fine⟩
  exact ⟨.obj d', by unfold BinFile.ser; simp only [e1, e3, bind, Except.bind]; rfl, f3.fine⟩

end

/-! ## Files -/

/-- **C79, BIN files.** A BIN file that was read, with integers, booleans, strings or hashes for keys of maps, can always be written as JSON: the text is in ASCII, it
denotes the serialized data, and no name appears twice in an object. -/
theorem C79_bin_file {lib : JsonWriter} {name : Ser → Str} (hg : GoodWriter lib) (hn : KeyNames lib name) (ha : lib.ascii = true) (env : BinEnv)
    (btype : Option Nat) (data : Bytes) (f : BinFile) (h : parseBin btype data = .ok f) (hs : SimpleFile f) :
    ∃ s t b, f.ser env = .ok s ∧ lib.dumps 0 s = .ok t ∧ encodeAscii t = .ok b ∧ utf8 b = .ok t ∧ JsonText t (jsonOf lib.showF name s) ∧
      DistinctNames (jsonOf lib.showF name s) := by
  obtain ⟨s, h1, h2, h3⟩ := file_fine (lib := lib) (name := name) env hn f (C77_typed h) hs
  obtain ⟨t, ht⟩ := h2 0
  obtain ⟨b, hb, hu, -⟩ := C79_ascii lib hg ha s 0 t ht
  exact ⟨s, t, b, h1, ht, hb, hu, C79_denotes lib hg name hn.given s 0 t ht, h3⟩

theorem writes_single {x b : Bytes} (h : Writes [.write x] b) : b = x := by
  obtain ⟨bs, h1, rfl⟩ := h
  cases bs with
  | nil => simp at h1
  | cons y bs =>
    simp only [List.map_cons, List.cons.injEq, BodyStep.write.injEq] at h1
    obtain ⟨rfl, h1⟩ := h1
    cases bs with
    | nil => simp
    | cons => simp at h1

theorem not_writes_raise {e : Err} {b : Bytes} (h : Writes [.raise e] b) : False := by
  obtain ⟨bs, h1, -⟩ := h
  cases bs <;> simp at h1

theorem binBody_writes {lib : JsonWriter} (hg : GoodWriter lib) (ha : lib.ascii = true) {s : Ser} {b : Bytes} (h : Writes (lib.binBody s) b) :
    ∃ t, lib.dumps 0 s = .ok t ∧ utf8 b = .ok t := by
  unfold JsonWriter.binBody at h
  cases ht : lib.dumps 0 s with
  | error e => rw [ht] at h; exact (not_writes_raise h).elim
  | ok t =>
    rw [ht] at h
    obtain ⟨x, hx, hu, -⟩ := C79_ascii lib hg ha s 0 t ht
    simp only [hx] at h
    rw [writes_single h]
    exact ⟨t, rfl, hu⟩

theorem textBody_writes {lib : JsonWriter} {s : Ser} {b : Bytes} (h : Writes (lib.textBody s) b) : ∃ t, lib.dumps 0 s = .ok t ∧ utf8 b = .ok t := by
  unfold JsonWriter.textBody at h
  cases ht : lib.dumps 0 s with
  | error e => rw [ht] at h; exact (not_writes_raise h).elim
  | ok t =>
    rw [ht] at h
    rw [writes_single h]
    exact ⟨t, rfl, utf8_utf8Bytes t⟩

theorem json_ne_self (p : Str) : p ≠ p ++ ".json".toList := by
  intro h
  have := congrArg List.length h
  rw [List.length_append] at this
  have h5 : ".json".toList.length = 5 := by decide +kernel
  omega

/-- **C79, exported BIN files.** The file `<path>.json` of an exported BIN file is a JSON text that denotes the data of the file. -/
theorem C79_export_bin {w : JsonWriter} (hg : GoodWriter w) (ha : w.ascii = true) (name : Ser → Str) (hn : ∀ k n, w.key k = .ok n → name k = n)
    (lib : ConvLib) (hl : lib.binJson = w.binBody) (p : Str) (d b : Bytes) (h : Converts lib .bin p d (p ++ ".json".toList) (.file b)) :
    ∃ f s t, parseBin (some lib.version) d = .ok f ∧ f.ser lib.binEnv = .ok s ∧ utf8 b = .ok t ∧ JsonText t (jsonOf w.showF name s) := by
  generalize ho : p ++ ".json".toList = o at h
  cases h with
  | binCopy => exact absurd ho.symm (json_ne_self p)
  | binJson _ _ _ f s h1 h2 h3 =>
    rw [hl] at h3
    obtain ⟨t, ht, hu⟩ := binBody_writes hg ha h3
    exact ⟨f, s, t, h1, h2, hu, C79_denotes w hg name hn s 0 t ht⟩

/-- The JSON value of a string table -/
def Spec.rstJson (entries : Dict Str Str) (version : Nat) : Json :=
  .obj [("entries".toList, .obj (entries.map fun kv => (kv.1, .str kv.2))), ("version".toList, .num (showInt version))]

theorem jsonOf_rst (num : Nat → Str) (name : Ser → Str) (entries : Dict Str Str) (version : Nat) :
    jsonOf num name (rstSer entries version) = Spec.rstJson entries version := by
  unfold rstSer Spec.rstJson
  simp only [jsonOf, jsonObj, jsonObj_eq, List.map_map]
  congr

theorem rst_fine (w : JsonWriter) (name : Ser → Str) {entries : Dict Str Str} (hw : Dict.WF entries) (version : Nat) : Fine w name (rstSer entries version) := by
  unfold rstSer
  apply fine_obj
  · have : "entries".toList ≠ "version".toList := by decide +kernel
    simp only [List.map_cons, List.map_nil, List.nodup_cons, List.mem_singleton, List.not_mem_nil, not_false_eq_true, List.nodup_nil, and_true]
    exact this
  · intro kv hkv
    simp only [List.mem_cons, List.not_mem_nil, or_false] at hkv
    rcases hkv with rfl | rfl
    · apply fine_obj
      · rw [List.map_map]; exact hw
      · intro x hx
        obtain ⟨y, -, rfl⟩ := List.mem_map.1 hx
        exact fine_str _
    · exact fine_int _

/-- **C79, exported string tables.** The file `<path>.json` of an exported string table has exactly its entries, by name, and its version. -/
theorem C79_export_rst {w : JsonWriter} (hg : GoodWriter w) (lib : ConvLib)
    (hl : ∀ e v, lib.rstJson e v = w.textBody (rstSer e v)) (p : Str) (d b : Bytes) (h : Converts lib .rst p d (p ++ ".json".toList) (.file b)) :
    ∃ r t, (parseRst lib.rstEnv lib.version).run d = .ok r ∧ utf8 b = .ok t ∧ JsonText t (Spec.rstJson (rstEntries lib.rstHashes r) r.version) ∧
      DistinctNames (Spec.rstJson (rstEntries lib.rstHashes r) r.version) := by
  generalize ho : p ++ ".json".toList = o at h
  cases h with
  | rstCopy => exact absurd ho.symm (json_ne_self p)
  | rstJson _ _ _ r h1 h2 =>
    rw [hl] at h2
    obtain ⟨t, ht, hu⟩ := textBody_writes h2
    have := C79_denotes w hg (fun k => match w.key k with | .ok n => n | .error _ => []) (fun k n hk => by rw [hk]) _ 0 t ht
    rw [jsonOf_rst] at this
    have h3 := (rst_fine w (fun _ => []) (entries := rstEntries lib.rstHashes r) (Dict.WF.ofList _) r.version).2
    rw [jsonOf_rst] at h3
    exact ⟨r, t, h1, hu, this, h3⟩

/-- The JSON value of an atlas -/
def Spec.atlasJson (num : Nat → Str) (a : Dict Str AtlasItem) : Json :=
  .obj (a.map fun kv => (kv.1, .obj [("atlasPath".toList, .str kv.2.atlasPath), ("startX".toList, .num (num kv.2.startX)), ("startY".toList, .num (num kv.2.startY)),
    ("endX".toList, .num (num kv.2.endX)), ("endY".toList, .num (num kv.2.endY))]))

theorem jsonOf_atlas (num : Nat → Str) (name : Ser → Str) (a : Dict Str AtlasItem) : jsonOf num name (atlasSer a) = Spec.atlasJson num a := by
  unfold atlasSer Spec.atlasJson
  rw [jsonOf, jsonObj_eq, List.map_map]
  rfl

/-- **C79, exported atlases.** -/
theorem C79_export_atlas {w : JsonWriter} (hg : GoodWriter w) (lib : ConvLib) (hl : ∀ a, lib.atlasJson a = w.textBody (atlasSer a)) (p o : Str) (d b : Bytes)
    (h : Converts lib .atlas p d o (.file b)) :
    ∃ a t, (parseAtlas lib.gameHashes).run d = .ok a ∧ utf8 b = .ok t ∧ JsonText t (Spec.atlasJson w.showF a) := by
  cases h with
  | atlas _ _ _ a h1 h2 =>
    rw [hl] at h2
    obtain ⟨t, ht, hu⟩ := textBody_writes h2
    have := C79_denotes w hg (fun k => match w.key k with | .ok n => n | .error _ => []) (fun k n hk => by rw [hk]) _ 0 t ht
    rw [jsonOf_atlas] at this
    exact ⟨a, t, h1, hu, this⟩

/-- The JSON value of the list of skins: for each champion, the skins by number -/
def Spec.skinJson (a : Dict Str (Dict Nat SkinInfo)) : Json :=
  .obj (a.map fun kv => (kv.1, .obj (kv.2.map fun x => (showInt x.1, .obj [("name".toList, .str x.2.name), ("prestige".toList, .bool x.2.prestige)]))))

theorem jsonOf_skin (num : Nat → Str) {w : JsonWriter} {name : Ser → Str} (hn : KeyNames w name) (a : Dict Str (Dict Nat SkinInfo)) :
    jsonOf num name (skinSer a) = Spec.skinJson a := by
  unfold skinSer Spec.skinJson
  rw [jsonOf, jsonObj_eq, List.map_map]
  congr 1
  apply List.map_congr_left
  intro kv _
  simp only [Function.comp, jsonOf, jsonDict_eq, List.map_map]
  congr 2
  apply List.map_congr_left
  intro x _
  simp only [Function.comp]
  rw [hn.given (.int x.1) _ (hn.ints _)]
  rfl

/-- **C79, exported skins.** -/
theorem C79_export_skins {w : JsonWriter} (hg : GoodWriter w) {name : Ser → Str} (hn : KeyNames w name) (lib : ConvLib)
    (hl : ∀ a, lib.skinJson a = w.textBody (skinSer a)) (p o : Str) (d b : Bytes) (h : Converts lib .championSkin p d o (.file b)) :
    ∃ a t, parseChampionSkins.run d = .ok a ∧ utf8 b = .ok t ∧ JsonText t (Spec.skinJson a) := by
  cases h with
  | skins _ _ _ a h1 h2 =>
    rw [hl] at h2
    obtain ⟨t, ht, hu⟩ := textBody_writes h2
    have := C79_denotes w hg name hn.given _ 0 t ht
    rw [jsonOf_skin w.showF hn] at this
    exact ⟨a, t, h1, hu, this⟩

/-- **C79, tables, atlases and skins can always be written.** -/
theorem C79_tables_total {w : JsonWriter} {name : Ser → Str} (hn : KeyNames w name) :
    (∀ entries : Dict Str Str, ∀ version, ∃ b, Writes (w.textBody (rstSer entries version)) b) ∧
    (∀ a : Dict Str AtlasItem, ∃ b, Writes (w.textBody (atlasSer a)) b) ∧
    ∀ a : Dict Str (Dict Nat SkinInfo), ∃ b, Writes (w.textBody (skinSer a)) b := by
  have key : ∀ s t, w.dumps 0 s = .ok t → ∃ b, Writes (w.textBody s) b := by
    intro s t h
    exact ⟨utf8Bytes t, [utf8Bytes t], by simp only [JsonWriter.textBody, h]; rfl, by simp⟩
  have hobj : ∀ (d : List (Str × Ser)) level, (∀ kv ∈ d, ∀ l, ∃ t, w.dumps l kv.2 = .ok t) → ∃ ts, w.dumpsObj level d = .ok ts := by
    intro d level h
    induction d with
    | nil => exact ⟨_, rfl⟩
    | cons x d ih =>
      obtain ⟨k, s⟩ := x
      obtain ⟨ts, hts⟩ := ih (fun s hs => h s (List.mem_cons_of_mem _ hs))
      obtain ⟨t, ht⟩ := h (k, s) (by simp) level
      exact ⟨_, by simp only [JsonWriter.dumpsObj, ht, hts, bind, Except.bind]; rfl⟩
  have hobj' : ∀ (d : List (Str × Ser)), (∀ kv ∈ d, ∀ l, ∃ t, w.dumps l kv.2 = .ok t) → ∀ level, ∃ t, w.dumps level (.obj d) = .ok t := by
    intro d h level
    obtain ⟨ts, hts⟩ := hobj d (level + 1) h
    exact ⟨_, by simp only [JsonWriter.dumps, hts, bind, Except.bind]; rfl⟩
  refine ⟨?_, ?_, ?_⟩
  · intro entries version
    obtain ⟨t, ht⟩ := hobj' [("entries".toList, .obj (entries.map fun kv => (kv.1, .str kv.2))), ("version".toList, .int version)] (by
      intro kv hkv
      simp only [List.mem_cons, List.not_mem_nil, or_false] at hkv
      rcases hkv with rfl | rfl
      · apply hobj'
        intro x hx l
        obtain ⟨y, -, rfl⟩ := List.mem_map.1 hx
        exact ⟨_, rfl⟩
      · exact fun l => ⟨_, rfl⟩) 0
    exact key _ t ht
  · intro a
    suffices ∃ t, w.dumps 0 (atlasSer a) = .ok t from key _ _ this.choose_spec
    unfold atlasSer
    refine hobj' _ (fun kv hkv => ?_) 0
    · obtain ⟨y, -, rfl⟩ := List.mem_map.1 hkv
      apply hobj'
      intro x hx l
      simp only [List.mem_cons, List.not_mem_nil, or_false] at hx
      rcases hx with rfl | rfl | rfl | rfl | rfl <;> exact ⟨_, rfl⟩
  · intro a
    suffices ∃ t, w.dumps 0 (skinSer a) = .ok t from key _ _ this.choose_spec
    unfold skinSer
    refine hobj' _ (fun kv hkv => ?_) 0
    · obtain ⟨y, -, rfl⟩ := List.mem_map.1 hkv
      intro l
      have : ∃ ts, w.dumpsDict (l + 1) (y.2.map fun x => (Ser.int x.1, Ser.obj [("name".toList, .str x.2.name), ("prestige".toList, .bool x.2.prestige)])) = .ok ts := by
        induction y.2 with
        | nil => exact ⟨_, rfl⟩
        | cons x r ih =>
          obtain ⟨ts, hts⟩ := ih
          obtain ⟨t, ht⟩ := hobj' [("name".toList, .str x.2.name), ("prestige".toList, .bool x.2.prestige)] (by
            intro z hz l
            simp only [List.mem_cons, List.not_mem_nil, or_false] at hz
            rcases hz with rfl | rfl
            · exact ⟨_, rfl⟩
            · exact (fine_bool (lib := w) (name := name) x.2.prestige).1 l) (l + 1)
          have hk : w.key (.int (x.1 : Int)) = .ok (showInt x.1) := hn.ints _
          exact ⟨_, by simp only [List.map_cons, JsonWriter.dumpsDict, hk, ht, hts, bind, Except.bind]; rfl⟩
      obtain ⟨ts, hts⟩ := this
      exact ⟨_, by simp only [JsonWriter.dumps, hts, bind, Except.bind]; rfl⟩

/-- **C79, `bin-dump --json`.** What is printed is an ASCII text that denotes the data of the file. -/
theorem C79_bin_dump {w : JsonWriter} (hg : GoodWriter w) (ha : w.ascii = true) (name : Ser → Str) (hn : ∀ k n, w.key k = .ok n → name k = n) (lib : DumpLib)
    (fs : FS) (bin : Str) (version : Option Str) (t : Str) (h : lib.printed w fs bin version true = .ok t) :
    ∃ data n f s, fs bin = some (.file data) ∧ dumpVersion version = .ok n ∧ parseBin (some n) data = .ok f ∧ f.ser lib.env = .ok s ∧
      JsonText t (jsonOf w.showF name s) ∧ ∀ c ∈ t, c.toNat < 128 := by
  unfold DumpLib.printed DumpLib.command at h
  cases hf : fs bin with
  | none => rw [hf] at h; simp [bind, Except.bind] at h
  | some x =>
    rw [hf] at h
    cases x with
    | dir => simp [bind, Except.bind] at h
    | file data =>
      simp only [bind, Except.bind, if_true] at h
      cases hv : dumpVersion version with
      | error e => rw [hv] at h; simp at h
      | ok n =>
        rw [hv] at h
        simp only at h
        cases hp : parseBin (some n) data with
        | error e => rw [hp] at h; simp at h
        | ok f =>
          rw [hp] at h
          simp only at h
          cases hs : f.ser lib.env with
          | error e => rw [hs] at h; simp at h
          | ok s =>
            rw [hs] at h
            simp only [BinOutput.print] at h
            refine ⟨data, n, f, s, rfl, rfl, hp, hs, C79_denotes w hg name hn s 0 t h, ?_⟩
            obtain ⟨b, hb, -, -⟩ := C79_ascii w hg ha s 0 t h
            unfold encodeAscii at hb
            split at hb
            · rename_i hall
              rw [List.all_eq_true] at hall
              exact fun c hc => of_decide_eq_true (hall c hc)
            · simp at hb

/-! ## Boundaries -/

/-- With the standard library, a map with vectors, colors or matrices as keys cannot be written: `TypeError`, and the export of the patch stops. -/
theorem C79_std_tuple_key (ascii : Bool) (showF : Nat → Str) (level : Nat) (k v : Ser) (l : List (Ser × Ser))
    (hk : (∃ x, k = .tuple x) ∨ (∃ x, k = .floats x) ∨ ∃ x, k = .matrix x) : (stdJson ascii showF).dumps level (.dict ((k, v) :: l)) = .error .type := by
  rcases hk with ⟨x, rfl⟩ | ⟨x, rfl⟩ | ⟨x, rfl⟩ <;> rfl

/-- Both libraries write JSON, when the texts of floats are numbers. -/
theorem C79_libraries : (∀ ascii showF, (∀ b, JsonNum (showF b)) → GoodWriter (stdJson ascii showF)) ∧
    ∀ ascii showF str, (∀ b, JsonNum (showF b)) → GoodWriter (ujson ascii showF str) := by
  have h0 : JsonWs [] := by intro c hc; cases hc
  have h1 : JsonWs [' '] := by intro c hc; exact Or.inl (List.mem_singleton.1 hc)
  exact ⟨fun a f h => ⟨h, ⟨h0, h1⟩, fun _ => h0, fun _ => h1, fun _ => h0⟩, fun a f s h => ⟨h, ⟨h0, h0⟩, fun _ => h0, fun _ => h0, fun _ => h0⟩⟩

/-! ## Cases that meet the hypotheses -/

/-- An entry with a map from integers to strings and a hash -/
def demoBin : Bytes :=
  "PROP".toList.map (fun c => UInt8.ofNat c.toNat) ++ le 4 3 ++ le 4 0 ++ le 4 1 ++ le 4 4 ++
    (le 4 35 ++ le 4 3 ++ le 2 2 ++ (le 4 9 ++ le 1 0x86 ++ (le 1 3 ++ le 1 16 ++ le 4 12 ++ le 4 1 ++ (le 1 7 ++ le 2 5 ++ [34, 240, 159, 152, 128]))) ++ (le 4 8 ++ le 1 3 ++ le 1 200))
def demoStd : JsonWriter := stdJson true fun b => showInt b
def demoU : JsonWriter := ujson true (fun b => showInt b) fun k => match k with | .int n => showInt n | .bool true => "True".toList | .bool false => "False".toList | _ => "?".toList
def demoStdName (k : Ser) : Str := match demoStd.key k with | .ok n => n | .error _ => []
def demoUName (k : Ser) : Str := match demoU.key k with | .ok n => n | .error _ => []


theorem demoStd_good : GoodWriter demoStd := C79_libraries.1 true _ fun b => Or.inl (showInt_number b)
theorem demoU_good : GoodWriter demoU := C79_libraries.2 true _ _ fun b => Or.inl (showInt_number b)
theorem demoStd_names : KeyNames demoStd demoStdName :=
  ⟨fun k n h => by unfold demoStdName; rw [h], fun n => rfl, _, _, rfl, rfl, by decide +kernel⟩
theorem demoU_names : KeyNames demoU demoUName :=
  ⟨fun k n h => by unfold demoUName; rw [h], fun n => rfl, _, _, rfl, rfl, by decide +kernel⟩

/-- Quotes, line feeds, characters above U+FFFF, integers as keys, empty lists -/
def demoSer : Ser := .obj [("a\"".toList, .list [.str "é\n😀".toList, .none, .bool true]), ("b".toList, .dict [(.int (-3), .list [])])]

/-- `C79_denotes`, `C79_same`, `C79_ascii`, `C79_one_line`: the text of data with both libraries -/
example :
    demoStd.dumps 0 demoSer = .ok "{\"a\\\"\": [\"\\u00e9\\n\\ud83d\\ude00\", null, true], \"b\": {\"-3\": []}}".toList ∧
    demoU.dumps 0 demoSer = .ok "{\"a\\\"\":[\"\\u00e9\\n\\ud83d\\ude00\",null,true],\"b\":{\"-3\":[]}}".toList := by decide +kernel

example : ∃ t, demoStd.dumps 0 demoSer = .ok t ∧ JsonText t (.obj [("a\"".toList, .arr [.str "é\n😀".toList, .null, .bool true]), ("b".toList, .obj [("-3".toList, .arr [])])]) :=
  ⟨_, rfl, C79_denotes demoStd demoStd_good demoStdName demoStd_names.given demoSer 0 _ rfl⟩

/-- `C79_bin_file`, `C79_export_bin`: an entry with a map from integers to strings, and a number -/
theorem demoBin_simple : ∃ f, parseBin (some 1400) demoBin = .ok f ∧ SimpleFile f := by
  have h : (parseBin (some 1400) demoBin) = .ok { isPatch := false, version := 3, linked := some [], entries := [{ path := 3, type := 4, fields := [.mk 9 .map (.map .u8 .string [.mk (.int 7) (.str "\"😀".toList)]), .mk 8 .u8 (.int 200)] }], patches := none } := by
    rfl
  refine ⟨_, h, ?_, ?_⟩
  · intro e he
    rw [List.mem_singleton.1 he]
    exact ⟨⟨Or.inl rfl, trivial, trivial⟩, trivial, trivial⟩
  · intro e he; cases he

/-- `C79_export_bin` -/
example : ∃ b, Converts { demoConv with binJson := demoStd.binBody, version := 1400 } .bin "a.bin".toList demoBin "a.bin.json".toList (.file b) := by
  obtain ⟨f, hf, hs⟩ := demoBin_simple
  obtain ⟨s, t, b, h1, h2, h3, -⟩ := C79_bin_file demoStd_good demoStd_names rfl demoConv.binEnv (some 1400) demoBin f hf hs
  exact ⟨b, Converts.binJson _ _ _ f s hf h1 ⟨[b], by simp only [JsonWriter.binBody, h2, h3]; rfl, by simp⟩⟩

/-- `C79_export_rst`: a table with an entry, with the text `a"` -/
example : ∃ b, Converts { demoConv with rstJson := fun e v => demoStd.textBody (rstSer e v) } .rst "a.stringtable".toList
    ([0x52, 0x53, 0x54, 5] ++ le 4 1 ++ le 8 9 ++ [97, 34, 0]) "a.stringtable.json".toList (.file b) := by
  obtain ⟨b, hb⟩ := (C79_tables_total demoStd_names).1 [("{0000000009}".toList, "a\"".toList)] 5
  exact ⟨b, Converts.rstJson _ _ _ ⟨none, [(9, "a\"".toList)], 38, 5, 1502⟩ (by decide +kernel) (by
    have : rstEntries demoConv.rstHashes ⟨none, [(9, "a\"".toList)], 38, 5, 1502⟩ = [("{0000000009}".toList, "a\"".toList)] := by decide +kernel
    rw [← this] at hb
    exact hb)⟩

/-- `C79_export_atlas` -/
example : ∃ b, Converts { demoConv with atlasJson := fun a => demoStd.textBody (atlasSer a) } .atlas "a.atlas".toList
    (atlasText ["A/B.dds".toList] [⟨"t".toList, 1, 2, 3, 4, 0⟩]) ("a.atlas".toList ++ ".json".toList) (.file b) := by
  obtain ⟨b, hb⟩ := (C79_tables_total demoStd_names).2.1 [("t".toList, ⟨"a/b.png".toList, 1, 2, 3, 4⟩)]
  exact ⟨b, Converts.atlas _ _ _ [("t".toList, ⟨"a/b.png".toList, 1, 2, 3, 4⟩)] (by decide +kernel) hb⟩

/-- `C79_export_skins` -/
example : ∃ o b, Converts { demoConv with skinJson := fun a => demoStd.textBody (skinSer a) } .championSkin "a.skins_skinlist".toList
    (skinsFile [⟨"Annie".toList, [⟨1000, 0, "base".toList⟩, ⟨1001, 4, "p".toList⟩]⟩]) o (.file b) := by
  obtain ⟨b, hb⟩ := (C79_tables_total demoStd_names).2.2 [("Annie".toList, [(1000, ⟨"base".toList, false⟩), (1001, ⟨"p".toList, true⟩)])]
  exact ⟨_, b, Converts.skins _ _ _ [("Annie".toList, [(1000, ⟨"base".toList, false⟩), (1001, ⟨"p".toList, true⟩)])] (by decide +kernel) hb⟩

/-- The text of skins -/
example : demoStd.dumps 0 (skinSer [("Annie".toList, [(1000, ⟨"base".toList, false⟩)])]) =
    .ok "{\"Annie\": {\"1000\": {\"name\": \"base\", \"prestige\": false}}}".toList := by decide +kernel

/-- `C79_bin_dump` -/
example : ∃ t, DumpLib.printed ⟨demoConv.binEnv, fun _ => true, fun _ => []⟩ demoU (fun p => if p = "a.bin".toList then some (.file demoBin) else none)
    "a.bin".toList (some "14.0".toList) true = .ok t := by
  have h : (DumpLib.printed ⟨demoConv.binEnv, fun _ => true, fun _ => []⟩ demoU (fun p => if p = "a.bin".toList then some (.file demoBin) else none)
    "a.bin".toList (some "14.0".toList) true).isOk = true := by decide +kernel
  cases h' : DumpLib.printed ⟨demoConv.binEnv, fun _ => true, fun _ => []⟩ demoU (fun p => if p = "a.bin".toList then some (.file demoBin) else none)
    "a.bin".toList (some "14.0".toList) true with
  | ok t => exact ⟨t, rfl⟩
  | error e => rw [h'] at h; cases h

/-- `C79_std_tuple_key`: a map from vectors to integers -/
example : demoStd.dumps 0 (.dict [(.floats [0, 0], .int 1)]) = .error .type := C79_std_tuple_key true _ 0 _ _ _ (Or.inr (Or.inl ⟨_, rfl⟩))

end Cdtb
