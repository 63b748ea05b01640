import Verif.Lemmas.JsonBytes
import Verif.Props.C87
import Verif.Props.C15
import Verif.Props.C53
import Verif.Props.C60
/-!
# C88: JSON in files of any encoding: extensions of WAD entries, configurations of storages, versions
-/
namespace Cdtb
set_option autoImplicit false
open Py Spec

/-! ## Bytes -/

/-- **C88, bytes.** `json.loads` on bytes accepts exactly the documents in UTF-8, UTF-16 or UTF-32, in any order of bytes, with or without a byte order mark, and reads them as their
text: the encoding that is guessed is never a wrong one. -/
theorem C88_bytes (b : Bytes) (v : Json) : loadsBytes b = some v ↔ ∃ (u : Utf) (t : Str), (b = u.encode t ∨ b = u.encode (bom :: t)) ∧ jsonLoads t = some v := by
  unfold loadsBytes
  constructor
  · intro h
    cases hd : decodeJson b with
    | none => rw [hd] at h; simp at h
    | some t =>
      rw [hd] at h
      obtain ⟨u, hu⟩ := decodeJson_sound hd
      exact ⟨u, t, hu, by simpa using h⟩
  · rintro ⟨u, t, hb, ht⟩
    obtain ⟨v0, hd, -⟩ := (C87_loads t v).1 ht
    obtain ⟨hn, hf⟩ := document_chars hd
    have : decodeJson b = some t := by
      rcases hb with rfl | rfl
      · exact decodeJson_encode u hn hf
      · exact decodeJson_bom u hf
    rw [this]
    exact ht

/-- **C88, one text.** The same bytes are never two documents, whatever the encodings. -/
theorem C88_unambiguous (u u' : Utf) (t t' : Str) (v v' : Json) (h : JsonDocument t v) (h' : JsonDocument t' v')
    (hb : u.encode t = u'.encode t' ∨ u.encode t = u'.encode (bom :: t') ∨ u.encode (bom :: t) = u'.encode (bom :: t')) : t = t' := by
  obtain ⟨hn, hf⟩ := document_chars h
  obtain ⟨hn', hf'⟩ := document_chars h'
  have h1 := decodeJson_encode u hn hf
  have h2 := decodeJson_encode u' hn' hf'
  have h3 := decodeJson_bom u hf
  have h4 := decodeJson_bom u' hf'
  rcases hb with e | e | e
  · rw [e, h2] at h1; exact (Option.some.inj h1).symm
  · rw [e, h4] at h1; exact (Option.some.inj h1).symm
  · rw [e, h4] at h3; exact (Option.some.inj h3).symm

/-! ## Extensions -/

theorem withJson_isJson (cx : Codecs) (data : Bytes) : cx.withJson.isJson data = (loadsBytes data).isSome := rfl

/-- **C88, extensions.** Data of a WAD entry without signature nor JPEG marker gets the extension `json` exactly if it is a JSON document in UTF-8, UTF-16 or UTF-32. -/
theorem C88_extension (cx : Codecs) (data : Bytes) (hj : ¬ JpegMarker data) (hn : ∀ b ext, Signature b ext → ¬ b <+: data) :
    (guessExtension cx.withJson data = some "json".toList ↔
      ∃ (u : Utf) (t : Str) (v : Json), (data = u.encode t ∨ data = u.encode (bom :: t)) ∧ JsonDocument t v) ∧
    (guessExtension cx.withJson data ≠ some "json".toList → guessExtension cx.withJson data = none) := by
  have h := C15_other cx.withJson data hj hn
  rw [h, withJson_isJson]
  constructor
  · rw [show ((if (loadsBytes data).isSome = true then some "json".toList else none) = some "json".toList) ↔ (loadsBytes data).isSome = true by
      split
      · rename_i hs; simp [hs]
      · rename_i hs; simp [hs]]
    rw [Option.isSome_iff_exists]
    constructor
    · rintro ⟨v, hv⟩
      obtain ⟨u, t, hb, ht⟩ := (C88_bytes data v).1 hv
      obtain ⟨v0, hd, -⟩ := (C87_loads t v).1 ht
      exact ⟨u, t, v0, hb, hd⟩
    · rintro ⟨u, t, v, hb, hd⟩
      exact ⟨v.dicts, (C88_bytes data _).2 ⟨u, t, hb, (C87_loads t _).2 ⟨v, hd, dicts_kept v⟩⟩⟩
  · intro hne
    split at hne
    · exact absurd rfl hne
    · rename_i hs; rw [if_neg hs]

/-- The two first bytes of a list or of an object -/
theorem container_start {t : Str} {v : Json} (h : JsonDocument t v) (hv : (∃ l, v = .arr l) ∨ ∃ l, v = .obj l) :
    ∃ c t', t = c :: t' ∧ c.toNat < 128 ∧ (c = ' ' ∨ c = '\n' ∨ c = '\t' ∨ c = '\r' ∨ c = '{' ∨ (c = '[' ∧ ∀ r, t' ≠ 'O' :: r)) := by
  obtain ⟨w, t1, w', rfl, hw, ht, hw'⟩ := h
  cases w with
  | cons c w =>
    refine ⟨c, _, rfl, ?_⟩
    rcases hw c (by simp) with rfl | rfl | rfl | rfl <;> exact ⟨by decide +kernel, by simp⟩
  | nil =>
    have hno : ∀ (x : Str), (∃ c r, x = c :: r ∧ c ≠ 'O') → ∀ r, x ≠ 'O' :: r := by
      rintro x ⟨c, r, rfl, hc⟩ r' e
      exact hc (List.cons.inj e).1
    cases ht with
    | word _ _ hwd => cases hwd <;> simp at hv
    | str u s => simp at hv
    | empty w1 h1 =>
      refine ⟨'[', _, rfl, by decide +kernel, ?_⟩
      refine Or.inr (Or.inr (Or.inr (Or.inr (Or.inr ⟨rfl, hno _ ?_⟩))))
      cases w1 with
      | nil => exact ⟨']', _, rfl, by decide⟩
      | cons d w1 => exact ⟨d, _, rfl, by rcases h1 d (by simp) with rfl | rfl | rfl | rfl <;> decide⟩
    | arr w1 u l h1 hi =>
      refine ⟨'[', _, rfl, by decide +kernel, ?_⟩
      refine Or.inr (Or.inr (Or.inr (Or.inr (Or.inr ⟨rfl, hno _ ?_⟩))))
      cases w1 with
      | nil =>
        obtain ⟨d, u', rfl, hd⟩ := hi.opens
        refine ⟨d, _, rfl, ?_⟩
        rintro rfl
        rcases hd with hd | hd | hd | hd <;> revert hd <;> decide +kernel
      | cons d w1 => exact ⟨d, _, rfl, by rcases h1 d (by simp) with rfl | rfl | rfl | rfl <;> decide⟩
    | emptyObj w1 h1 => exact ⟨'{', _, rfl, by decide +kernel, by simp⟩
    | obj w1 u l h1 hi => exact ⟨'{', _, rfl, by decide +kernel, by simp⟩

/-- **C88, JSON entries.** A JSON list or object in UTF-8 always gets the extension `json`, unless it has a JPEG marker: no signature can be mistaken for it. -/
theorem C88_json_entry (cx : Codecs) (t : Str) (v : Json) (h : JsonDocument t v) (hv : (∃ l, v = .arr l) ∨ ∃ l, v = .obj l) (hj : ¬ JpegMarker (utf8Bytes t)) :
    guessExtension cx.withJson (utf8Bytes t) = some "json".toList := by
  refine (C88_extension cx (utf8Bytes t) hj ?_).1.2 ⟨.utf8, t, v, Or.inl rfl, h⟩
  rintro b ext hs hp
  obtain ⟨c, t', rfl, hc, hcs⟩ := container_start h hv
  have e : utf8Bytes (c :: t') = UInt8.ofNat c.toNat :: utf8Bytes t' := by
    show Utf.encode .utf8 (c :: t') = _
    rw [encode_cons, (char_ascii hc).1]
    rfl
  rw [e] at hp
  obtain ⟨e, bs, h1, h2, rfl⟩ := hs
  have key : ∀ x ∈ signatures, ∀ b ∈ x.2, ∃ a r, b = a :: r ∧ a ∉ [(0x20 : UInt8), 0x0a, 0x09, 0x0d, 0x7b] ∧ (a = 0x5b → ∃ r', r = 0x4f :: r') := by
    have k : ∀ x ∈ signatures, ∀ b ∈ x.2, (match b with
      | [] => false
      | a :: r => decide (a ∉ [(0x20 : UInt8), 0x0a, 0x09, 0x0d, 0x7b]) && (decide (a ≠ 0x5b) || r.head? = some 0x4f)) = true := by decide +kernel
    intro x hx b hb
    have := k x hx b hb
    cases b with
    | nil => simp at this
    | cons a r =>
      simp only [Bool.and_eq_true, Bool.or_eq_true, decide_eq_true_eq] at this
      refine ⟨a, r, rfl, this.1, fun ha => ?_⟩
      rcases this.2 with h | h
      · exact absurd ha h
      · cases r with
        | nil => simp at h
        | cons y r => simp only [List.head?_cons, Option.some.injEq] at h; exact ⟨r, by rw [h]⟩
  obtain ⟨a, r, rfl, ha, hb⟩ := key _ h1 b h2
  obtain ⟨q, hq⟩ := hp
  simp only [List.cons_append, List.cons.injEq] at hq
  have hsp : UInt8.ofNat (' ' : Char).toNat = 0x20 ∧ UInt8.ofNat ('\n' : Char).toNat = 0x0a ∧ UInt8.ofNat ('\t' : Char).toNat = 0x09 ∧
    UInt8.ofNat ('\r' : Char).toNat = 0x0d ∧ UInt8.ofNat ('{' : Char).toNat = 0x7b ∧ UInt8.ofNat ('[' : Char).toNat = 0x5b := by decide +kernel
  obtain ⟨s1, s2, s3, s4, s5, s6⟩ := hsp
  rcases hcs with rfl | rfl | rfl | rfl | rfl | ⟨rfl, hO⟩
  · exact ha (by rw [hq.1, s1]; simp)
  · exact ha (by rw [hq.1, s2]; simp)
  · exact ha (by rw [hq.1, s3]; simp)
  · exact ha (by rw [hq.1, s4]; simp)
  · exact ha (by rw [hq.1, s5]; simp)
  · obtain ⟨r', rfl⟩ := hb (by rw [hq.1, s6])
    have h3 : utf8Bytes t' = 0x4f :: (r' ++ q) := hq.2.symm
    cases t' with
    | nil => simp [utf8Bytes] at h3
    | cons d t' =>
      have h4 : utf8 (utf8Bytes (d :: t')) = .ok (d :: t') := utf8_utf8Bytes _
      have h5 : d = 'O' := by
        have h6 : utf8Bytes (d :: t') = String.utf8EncodeChar d ++ utf8Bytes t' := by simp [utf8Bytes]
        rw [h6] at h3
        by_cases hd : d.toNat < 128
        · have h7 := (char_ascii hd).1
          have h8 : String.utf8EncodeChar d = [UInt8.ofNat d.toNat] := h7
          rw [h8] at h3
          have h9 := (List.cons.inj h3).1
          have h10 := congrArg UInt8.toNat h9
          rw [byte_toNat (by omega)] at h10
          exact Char.toNat_inj.1 (by rw [h10]; decide)
        · exfalso
          have hval : d.val.toNat = d.toNat := rfl
          have hmax := char_scalar d
          have key2 : ∀ n, 128 ≤ n → n < 256 → UInt8.ofNat n ≠ 0x4f := by
            intro n k1 k2 k3
            have := congrArg UInt8.toNat k3
            rw [byte_toNat k2] at this
            have : n = 0x4f := this
            omega
          unfold String.utf8EncodeChar at h3
          simp only at h3
          split at h3
          · omega
          · split at h3
            · exact key2 _ (by omega) (by omega) (List.cons.inj h3).1
            · split at h3
              · exact key2 _ (by omega) (by omega) (List.cons.inj h3).1
              · exact key2 _ (by omega) (by omega) (List.cons.inj h3).1
      exact hO t' (by rw [h5])

/-! ## Configurations of storages -/

/-- A value of a configuration: `null`, a boolean, a text -/
inductive Spec.ConfValue : Json → CVal → Prop
  | null : Spec.ConfValue .null .null
  | bool (b : Bool) : Spec.ConfValue (.bool b) (.bool b)
  | str (s : Str) : Spec.ConfValue (.str s) (.str s)

theorem confValue_iff (v : Json) (x : CVal) : confValue v = .ok x ↔ ConfValue v x := by
  constructor
  · intro h
    cases v <;> simp only [confValue, Except.ok.injEq, reduceCtorEq] at h <;> subst h <;> constructor
  · rintro (_ | _ | _) <;> rfl

theorem confMap_get {l : List (Str × Json)} {c : Conf} (h : (l.mapM fun kv => do let v ← confValue kv.2; Except.ok (kv.1, v)) = .ok c) (k : Str) :
    (∀ v, Dict.get? (l : Dict Str Json) k = some v → ∃ x, c.get? k = some x ∧ ConfValue v x) ∧ (Dict.get? (l : Dict Str Json) k = none → c.get? k = none) := by
  induction l generalizing c with
  | nil =>
    obtain rfl := Except.ok.inj h
    exact ⟨fun v hv => by simp [Dict.get?] at hv, fun _ => rfl⟩
  | cons kv l ih =>
    rw [List.mapM_cons] at h
    simp only [bind, Except.bind] at h
    cases hv : confValue kv.2 with
    | error e => rw [hv] at h; simp at h
    | ok x =>
      rw [hv] at h
      simp only at h
      cases hl : (l.mapM fun kv => do let v ← confValue kv.2; Except.ok (kv.1, v)) with
      | error e =>
        have hl' := hl
        simp only [bind, Except.bind] at hl'
        rw [hl'] at h; simp at h
      | ok c' =>
        have hl' := hl
        simp only [bind, Except.bind] at hl'
        rw [hl'] at h
        obtain rfl := Except.ok.inj h
        obtain ⟨h1, h2⟩ := ih hl
        by_cases hk : kv.1 = k
        · constructor
          · intro v hv'
            have : kv.2 = v := by simpa [Dict.get?, hk] using hv'
            subst this
            exact ⟨x, by simp [Dict.get?, hk], (confValue_iff _ _).1 hv⟩
          · intro hn; simp [Dict.get?, hk] at hn
        · constructor
          · intro v hv'
            have : Dict.get? (l : Dict Str Json) k = some v := by simpa [Dict.get?, hk] using hv'
            obtain ⟨y, hy, hy'⟩ := h1 v this
            exact ⟨y, by simpa [Dict.get?, hk] using hy, hy'⟩
          · intro hn
            have : Dict.get? (l : Dict Str Json) k = none := by simpa [Dict.get?, hk] using hn
            simpa [Dict.get?, hk] using h2 this

theorem confMap_ok {l : List (Str × Json)} (h : ∀ kv ∈ l, ∃ x, ConfValue kv.2 x) : ∃ c, (l.mapM fun kv => do let v ← confValue kv.2; Except.ok (ε := Err) (kv.1, v)) = .ok c := by
  induction l with
  | nil => exact ⟨[], rfl⟩
  | cons kv l ih =>
    obtain ⟨x, hx⟩ := h kv (by simp)
    obtain ⟨c, hc⟩ := ih fun y hy => h y (by simp [hy])
    refine ⟨(kv.1, x) :: c, ?_⟩
    rw [List.mapM_cons]
    simp only [bind, Except.bind] at hc ⊢
    rw [(confValue_iff _ _).2 hx]
    simp only [hc]
    rfl

/-- What a configuration document gives -/
theorem conf_document {t : Str} {l : List (Str × Json)} (hd : JsonDocument t (.obj l)) (hv : ∀ kv ∈ l, ∃ x, ConfValue kv.2 x) :
    ∃ c : Conf, confJson (utf8Bytes t) = .ok c ∧
      ∀ k, (∀ v, LastNamed l k v → ∃ x, ConfValue v x ∧ c.get? k = some x) ∧ (k ∉ l.map Prod.fst → c.get? k = none) := by
  have hsimple : ∀ v x, ConfValue v x → v.dicts = v := by rintro _ _ (_ | _ | _) <;> rfl
  have hdl : Json.dictsObj l = l := by
    rw [dictsObj_eq]
    conv_rhs => rw [← List.map_id l]
    apply List.map_congr_left
    intro kv hkv
    obtain ⟨x, hx⟩ := hv kv hkv
    rw [hsimple _ _ hx]
    rfl
  have hload : jsonLoads t = some (.obj (Dict.ofList l)) := by
    have := (C87_loads t _).2 ⟨_, hd, dicts_kept (.obj l)⟩
    rwa [Json.dicts, hdl] at this
  have hmem : ∀ kv ∈ Dict.ofList l, ∃ x, ConfValue kv.2 x := by
    rintro ⟨k, v⟩ hkv
    have h1 := (Dict.mem_iff_get? (Dict.WF.ofList l)).1 hkv
    have hk : k ∈ l.map Prod.fst := (Dict.mem_keys_ofList l k).1 (List.mem_map.2 ⟨_, hkv, rfl⟩)
    obtain ⟨w, hw⟩ := lastNamed_exists hk
    rw [ofList_lastNamed hw] at h1
    obtain rfl := Option.some.inj h1
    exact hv _ (lastNamed_mem hw)
  obtain ⟨c, hc⟩ := confMap_ok hmem
  refine ⟨c, ?_, fun k => ?_⟩
  · unfold confJson
    simp only [utf8_utf8Bytes, bind, Except.bind, hload]
    exact hc
  · obtain ⟨h1, h2⟩ := confMap_get hc k
    constructor
    · intro v hvl
      obtain ⟨x, hx, hx'⟩ := h1 v (ofList_lastNamed hvl)
      exact ⟨x, hx', hx⟩
    · intro hk
      exact h2 (Dict.get?_eq_none.2 fun hm => hk ((Dict.mem_keys_ofList l k).1 hm))

/-- **C88, configurations.** A storage is configured by the text of a file: the configuration has the last value of each name in the document, except for the path, which is
relative to the directory of the file. -/
theorem C88_conf (fs : FS) (path file : Str) (t : Str) (l : List (Str × Json))
    (hp : (file = path ∧ fs path = some (.file (utf8Bytes t))) ∨
      (fs path = some .dir ∧ file = pjoin path "cdtb.storage.conf".toList ∧ fs file = some (.file (utf8Bytes t))))
    (hd : JsonDocument t (.obj l)) (hv : ∀ kv ∈ l, ∃ x, ConfValue kv.2 x) (ht : "type".toList ∈ l.map Prod.fst)
    (rel : Str) (hr : LastNamed l "path".toList (.str rel) ∨ ("path".toList ∉ l.map Prod.fst ∧ rel = ['.'])) :
    ∃ conf, storageConfFromPath fs confJson path = .ok conf ∧
      conf.get? "path".toList = some (.str (normpath (pjoin (dirname file) rel))) ∧
      ∀ k, k ≠ "path".toList → (∀ v, LastNamed l k v → ∃ x, ConfValue v x ∧ conf.get? k = some x) ∧ (k ∉ l.map Prod.fst → conf.get? k = none) := by
  obtain ⟨c, hcj, hget⟩ := conf_document hd hv
  obtain ⟨tv, htv⟩ := lastNamed_exists ht
  obtain ⟨x, -, hx⟩ := (hget _).1 tv htv
  have hr' : c.get? "path".toList = some (.str rel) ∨ (c.get? "path".toList = none ∧ rel = ['.']) := by
    rcases hr with h | ⟨h, rfl⟩
    · obtain ⟨y, hy, hy'⟩ := (hget _).1 _ h
      cases hy
      exact Or.inl hy'
    · exact Or.inr ⟨(hget _).2 h, rfl⟩
  obtain ⟨conf, h1, h2, h3⟩ := C53_conf_file fs confJson path file (utf8Bytes t) c hp hcj x hx rel hr'
  exact ⟨conf, h1, h2, fun k hk => by rw [h3 k hk]; exact hget k⟩

/-- A file that is not a JSON document, or has no type, is not a configuration: `ValueError`. -/
theorem C88_conf_refused (fs : FS) (path : Str) (t : Str) (hp : fs path = some (.file (utf8Bytes t)))
    (h : (∀ v, ¬ JsonDocument t v) ∨ ∃ l, JsonDocument t (.obj l) ∧ (∀ kv ∈ l, ∃ x, ConfValue kv.2 x) ∧ "type".toList ∉ l.map Prod.fst) :
    storageConfFromPath fs confJson path = .error .value := by
  rcases h with h | ⟨l, hd, hv, ht⟩
  · have hcj : confJson (utf8Bytes t) = .error .value := by
      unfold confJson
      simp only [utf8_utf8Bytes, bind, Except.bind, (C87_refused t).2 h]
    have hdir : fs.isDir path = false := by simp [FS.isDir, hp]
    have hfile : fs.isFile path = true := by simp [FS.isFile, hp]
    simp only [storageConfFromPath, hdir, hfile, loadStorageConf, FS.readFile, hp, hcj, bind, Except.bind, Bool.false_eq_true, if_false, if_true]
  · obtain ⟨c, hcj, hget⟩ := conf_document hd hv
    exact (C53_no_type fs confJson path).1 _ c hp hcj ((hget _).2 ht)

/-! ## Versions -/

theorem field_get (d : Dict Str Json) (k : Str) : Json.field k (.obj d) = match d.get? k with | some v => .ok v | none => .error .key := by
  unfold Json.field
  simp only
  induction d with
  | nil => rfl
  | cons kv d ih =>
    obtain ⟨k', v⟩ := kv
    by_cases h : k' = k
    · simp [Dict.get?, h]
    · simpa [Dict.get?, h] using ih

/-- **C88, versions.** The version of a `content-metadata.json` file is given by the last member `version` of its document: its first two numbers, if a dot follows them. -/
theorem C88_metadata (t : Str) (l : List (Str × Json)) (s : Str) (hd : JsonDocument t (.obj l)) (hs : LastNamed l "version".toList (.str s)) :
    (∀ v, contentMetadataVersion metadataJson (utf8Bytes t) = .ok (some v) ↔ ShortVersion s v) ∧
    (contentMetadataVersion metadataJson (utf8Bytes t) = .ok none ↔ ∀ v, ¬ ShortVersion s v) := by
  apply C60_metadata
  have hload := (C87_loads t _).2 ⟨_, hd, dicts_kept (.obj l)⟩
  rw [Json.dicts] at hload
  have hget : (Dict.ofList (Json.dictsObj l)).get? "version".toList = some (.str s) := by
    apply ofList_lastNamed
    obtain ⟨a, b, rfl, hb⟩ := hs
    refine ⟨Json.dictsObj a, Json.dictsObj b, ?_, by rw [dicts_fst]; exact hb⟩
    simp [dictsObj_eq, Json.dicts]
  unfold metadataJson
  simp only [utf8_utf8Bytes, bind, Except.bind, hload, field_get, hget]

/-- A file without a version, or that is not JSON, raises. -/
theorem C88_metadata_refused (t : Str) (h : (∀ v, ¬ JsonDocument t v) ∨ ∃ l, JsonDocument t (.obj l) ∧ "version".toList ∉ l.map Prod.fst) :
    ∃ e, contentMetadataVersion metadataJson (utf8Bytes t) = .error e := by
  have : ∃ e, metadataJson (utf8Bytes t) = .error e := by
    unfold metadataJson
    rcases h with h | ⟨l, hd, hn⟩
    · exact ⟨.value, by simp only [utf8_utf8Bytes, bind, Except.bind, (C87_refused t).2 h]⟩
    · have hload := (C87_loads t _).2 ⟨_, hd, dicts_kept (.obj l)⟩
      rw [Json.dicts] at hload
      have hget : (Dict.ofList (Json.dictsObj l)).get? "version".toList = none := by
        rw [Dict.get?_eq_none]
        intro hm
        rw [Dict.mem_keys_ofList] at hm
        exact hn (by rw [← dicts_fst]; exact hm)
      simp only [utf8_utf8Bytes, bind, Except.bind, hload, field_get, hget]
      exact ⟨_, rfl⟩
  obtain ⟨e, he⟩ := this
  exact ⟨e, by unfold contentMetadataVersion; rw [he]; rfl⟩

/-! ## Cases -/

/-- `C88_bytes`: the same list in the five encodings, with and without mark, and bytes that are none of them -/
theorem C88_case_bytes : loadsBytes [0x5b, 0x31, 0x5d] = some (.arr [.num "1".toList]) ∧ loadsBytes [0xef, 0xbb, 0xbf, 0x5b, 0x31, 0x5d] = some (.arr [.num "1".toList]) ∧
    loadsBytes [0x5b, 0, 0x31, 0, 0x5d, 0] = some (.arr [.num "1".toList]) ∧ loadsBytes [0xfe, 0xff, 0, 0x5b, 0, 0x31, 0, 0x5d] = some (.arr [.num "1".toList]) ∧
    loadsBytes [0, 0, 0, 0x31] = some (.num "1".toList) ∧ loadsBytes [0xff, 0xfe, 0, 0, 0x31, 0, 0, 0] = some (.num "1".toList) ∧
    loadsBytes [0x22, 0, 0x3d, 0xd8, 0, 0xde, 0x22, 0] = some (.str "😀".toList) ∧
    loadsBytes [0x5b, 0, 0x31, 0, 0x5d] = none ∧ loadsBytes [0x22, 0xff, 0x22] = none ∧ loadsBytes [] = none := by
  refine ⟨sameAs_eq (by decide +kernel), sameAs_eq (by decide +kernel), sameAs_eq (by decide +kernel), sameAs_eq (by decide +kernel), sameAs_eq (by decide +kernel),
    sameAs_eq (by decide +kernel), sameAs_eq (by decide +kernel), ?_⟩
  simp only [← Option.isNone_iff_eq_none]
  decide +kernel

/-- `C88_json_entry`, and what its hypotheses exclude: a `JFIF` marker in a string. Then a document that is cut. -/
theorem C88_case_extension (cx : Codecs) : guessExtension cx.withJson (utf8Bytes " {\"a\":[1]}".toList) = some "json".toList ∧
    guessExtension cx.withJson (utf8Bytes "{\"a\":\"JFIF\"}".toList) = some "jpg".toList ∧ jsonLoads "{\"a\":\"JFIF\"}".toList = some (.obj [("a".toList, .str "JFIF".toList)]) ∧
    guessExtension cx.withJson (utf8Bytes "{\"a\":[1]".toList) = none := by
  refine ⟨?_, by rfl, sameAs_eq (by decide +kernel), ?_⟩
  · have hd : JsonDocument " {\"a\":[1]}".toList (.obj [("a".toList, .arr [.num "1".toList])]) := loadsAll_iff.1 (sameAs_eq (by decide +kernel))
    have hj : ¬ JpegMarker (utf8Bytes " {\"a\":[1]}".toList) := by
      unfold JpegMarker
      decide +kernel
    exact C88_json_entry cx _ _ hd (Or.inr ⟨_, rfl⟩) hj
  · have hj : ¬ JpegMarker (utf8Bytes "{\"a\":[1]".toList) := by
      unfold JpegMarker
      decide +kernel
    rw [C15_other cx.withJson _ hj]
    · rw [if_neg]
      rw [withJson_isJson]
      decide +kernel
    · rintro b ext ⟨e, bs, h1, h2, rfl⟩ hb
      have : ∀ x ∈ signatures, ∀ b ∈ x.2, ¬ b <+: utf8Bytes "{\"a\":[1]".toList := by decide +kernel
      exact this _ h1 b h2 hb

def confDoc : Str := "{\"type\": \"rads\", \"path\": \"x\", \"path\": \"../RADS\", \"cdn\": null}\n".toList
def confDisk : FS := fun p => if p = "d/my.conf".toList then some (.file (utf8Bytes confDoc)) else none

/-- `C88_conf`: the last path is kept. -/
theorem C88_case_conf : storageConfFromPath confDisk confJson "d/my.conf".toList =
      .ok [("type".toList, .str "rads".toList), ("path".toList, .str "RADS".toList), ("cdn".toList, .null)] ∧
    confJson (utf8Bytes "{\"type\": \"rads\"".toList) = .error .value ∧
    storageConfFromPath (fun _ => some (.file (utf8Bytes "{\"typ\": \"rads\"}".toList))) confJson ['c'] = .error .value := by
  decide +kernel

example : ∃ l, JsonDocument confDoc (.obj l) ∧ (∀ kv ∈ l, ∃ x, ConfValue kv.2 x) ∧ "type".toList ∈ l.map Prod.fst ∧ LastNamed l "path".toList (.str "../RADS".toList) := by
  refine ⟨[("type".toList, .str "rads".toList), ("path".toList, .str ['x']), ("path".toList, .str "../RADS".toList), ("cdn".toList, .null)],
    loadsAll_iff.1 (sameAs_eq (by decide +kernel)), ?_, by decide +kernel, [("type".toList, .str "rads".toList), ("path".toList, .str ['x'])], [("cdn".toList, .null)], rfl, by decide +kernel⟩
  intro kv h
  simp only [List.mem_cons, List.not_mem_nil, or_false] at h
  rcases h with rfl | rfl | rfl | rfl
  · exact ⟨_, .str _⟩
  · exact ⟨_, .str _⟩
  · exact ⟨_, .str _⟩
  · exact ⟨_, .null⟩

/-- `C88_metadata` -/
theorem C88_case_metadata : contentMetadataVersion metadataJson (utf8Bytes "{\"version\": \"1.0.0\", \"version\": \"10.15.330+x\"}".toList) = .ok (some "10.15".toList) ∧
    contentMetadataVersion metadataJson (utf8Bytes "{\"version\": \"10.15\"}".toList) = .ok none ∧
    contentMetadataVersion metadataJson (utf8Bytes "{\"versions\": \"10.15.1\"}".toList) = .error .key ∧
    contentMetadataVersion metadataJson (utf8Bytes "{\"version\": \"10.15.1\"".toList) = .error .value := by
  decide +kernel

end Cdtb
