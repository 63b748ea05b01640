import Verif.Lemmas.JsonRead
import Verif.Props.C79
import Verif.Props.C82
import Verif.Lemmas.RstText
/-!
# C87: the JSON texts that are read
-/
namespace Cdtb
set_option autoImplicit false
open Py Spec

/-! ## Documents -/

/-- **C87, what is read.** `json.loads` accepts exactly the JSON documents (RFC 8259, and the names of infinities and of "not a number"), and gives the value they denote, with
the last value of each name in objects. -/
theorem C87_loads (t : Str) (v : Json) : jsonLoads t = some v ↔ ∃ v0, JsonDocument t v0 ∧ Kept v0 v := by
  unfold jsonLoads
  constructor
  · intro h
    cases hl : loadsAll t with
    | none => rw [hl] at h; simp at h
    | some v0 =>
      rw [hl] at h
      obtain rfl := Option.some.inj h
      exact ⟨v0, loadsAll_iff.1 hl, dicts_kept v0⟩
  · rintro ⟨v0, hd, hk⟩
    rw [loadsAll_iff.2 hd, kept_unique hk (dicts_kept v0)]
    rfl

/-- **C87, no guess.** A document denotes one value; whatever the value, something is kept from it, and only one thing. -/
theorem C87_determined : (∀ (t : Str) (v v' : Json), JsonDocument t v → JsonDocument t v' → v = v') ∧ (∀ v : Json, ∃ v', Kept v v') ∧
    ∀ v v1 v2 : Json, Kept v v1 → Kept v v2 → v1 = v2 := by
  refine ⟨fun t v v' h h' => ?_, fun v => ⟨_, dicts_kept v⟩, fun v v1 v2 => kept_unique⟩
  have := loadsAll_iff.2 h'
  rw [loadsAll_iff.2 h] at this
  exact Option.some.inj this

/-- **C87, errors.** What is not a document is refused. -/
theorem C87_refused (t : Str) : jsonLoads t = none ↔ ∀ v, ¬ JsonDocument t v := by
  constructor
  · intro h v hd
    have := (C87_loads t v.dicts).2 ⟨v, hd, dicts_kept v⟩
    rw [h] at this
    simp at this
  · intro h
    cases hl : jsonLoads t with
    | none => rfl
    | some v =>
      obtain ⟨v0, hd, -⟩ := (C87_loads t v).1 hl
      exact absurd hd (h v0)

theorem kept_distinct {v v' : Json} (hk : Kept v v') : DistinctNames v' := by
  induction hk with
  | null => exact .null
  | bool b => exact .bool b
  | num t => exact .num t
  | str s => exact .str s
  | arr l l' hl _ ih =>
    refine .arr _ fun v' hv' => ?_
    obtain ⟨i, hi, rfl⟩ := List.getElem_of_mem hv'
    exact ih i l[i] l'[i] (List.getElem?_eq_getElem (by omega)) (List.getElem?_eq_getElem hi)
  | obj l l' hn _ ih =>
    refine .obj _ (hn ▸ namesOnce_nodup _) fun kv hkv => ?_
    have hk : kv.1 ∈ l.map Prod.fst := by
      rw [← namesOnce_mem, ← hn]
      exact List.mem_map.2 ⟨_, hkv, rfl⟩
    obtain ⟨v, hv⟩ := lastNamed_exists hk
    exact ih kv.1 v kv.2 hv hkv

/-- **C87, objects are dicts.** In what is read, at all levels, no name appears twice in an object; reading loses nothing from a document in which this is already so. -/
theorem C87_dicts (t : Str) (v : Json) : (jsonLoads t = some v → DistinctNames v) ∧ (JsonDocument t v → DistinctNames v → jsonLoads t = some v) := by
  constructor
  · intro h
    obtain ⟨v0, -, hk⟩ := (C87_loads t v).1 h
    exact kept_distinct hk
  · intro hd hn
    exact (C87_loads t v).2 ⟨v, hd, by simpa [dicts_distinct hn] using dicts_kept v⟩

theorem jsonWs_nil : JsonWs [] := by intro c hc; cases hc

theorem jsonText_last {t : Str} {v : Json} (h : JsonText t v) : ∃ u c, t = u ++ [c] ∧ ¬ (c = ' ' ∨ c = '\n' ∨ c = '\t' ∨ c = '\r') := by
  cases h with
  | word _ _ hw =>
    have h1 : t ≠ [] ∧ ∀ c ∈ t, c ∈ jsonWordChars := by
      cases hw with
      | null => exact ⟨by decide +kernel, by decide +kernel⟩
      | true => exact ⟨by decide +kernel, by decide +kernel⟩
      | false => exact ⟨by decide +kernel, by decide +kernel⟩
      | num _ hn => exact ⟨hn.wordChars.1, hn.wordChars.2.1⟩
    refine ⟨_, _, (List.dropLast_append_getLast h1.1).symm, ?_⟩
    have h2 := h1.2 _ (List.getLast_mem h1.1)
    intro hc
    rcases hc with hc | hc | hc | hc <;> rw [hc] at h2 <;> revert h2 <;> decide +kernel
  | str u s => exact ⟨_, _, rfl, by decide +kernel⟩
  | empty w => exact ⟨_, _, rfl, by decide +kernel⟩
  | arr w u l => exact ⟨_, _, rfl, by decide +kernel⟩
  | emptyObj w => exact ⟨_, _, rfl, by decide +kernel⟩
  | obj w u l => exact ⟨_, _, rfl, by decide +kernel⟩

/-- **C87, whitespace.** Whitespace around a document changes nothing. -/
theorem C87_whitespace (w t w' : Str) (hw : JsonWs w) (hw' : JsonWs w') : jsonLoads (w ++ t ++ w') = jsonLoads t := by
  have key : ∀ v, JsonDocument (w ++ t ++ w') v ↔ JsonDocument t v := by
    intro v
    constructor
    · rintro ⟨a, t', b, e, ha, ht', hb⟩
      obtain ⟨c, u, hcu, hopen⟩ := ht'.opens
      obtain ⟨u2, c2, hcu2, hlast⟩ := jsonText_last ht'
      rw [List.append_assoc, List.append_assoc] at e
      have h1 : ∃ m, JsonWs m ∧ t ++ w' = m ++ t' ++ b := by
        rcases List.append_eq_append_iff.1 e with ⟨m, h1, h2⟩ | ⟨m, h1, h2⟩
        · exact ⟨m, fun x hx => ha x (by rw [h1]; simp [hx]), by rw [h2, List.append_assoc]⟩
        · cases m with
          | nil => exact ⟨[], jsonWs_nil, by simpa using h2.symm⟩
          | cons y m =>
            rw [hcu] at h2
            simp only [List.cons_append, List.cons.injEq] at h2
            exact absurd (hw c (by rw [h1, h2.1]; simp)) hopen.facts.1
      obtain ⟨m, hm, e⟩ := h1
      rcases List.append_eq_append_iff.1 e with ⟨n, h1, h2⟩ | ⟨n, h1, h2⟩
      · rcases List.eq_nil_or_concat n with rfl | ⟨n, y, rfl⟩
        · exact ⟨m, t', [], by simpa using h1.symm, hm, ht', jsonWs_nil⟩
        · rw [hcu2, List.concat_eq_append, ← List.append_assoc, ← List.append_assoc] at h1
          have h3 := (List.append_inj' h1 rfl).2
          simp only [List.cons.injEq, and_true] at h3
          exact absurd (hw' y (by rw [h2]; simp)) (h3 ▸ hlast)
      · exact ⟨m, t', n, h1, hm, ht', fun x hx => hb x (by rw [h2]; simp [hx])⟩
    · rintro ⟨a, t', b, rfl, ha, ht', hb⟩
      refine ⟨w ++ a, t', b ++ w', by simp, ?_, ht', ?_⟩
      · intro c hc
        rcases List.mem_append.1 hc with h | h
        · exact hw c h
        · exact ha c h
      · intro c hc
        rcases List.mem_append.1 hc with h | h
        · exact hb c h
        · exact hw' c h
  apply Option.ext
  intro v
  rw [C87_loads, C87_loads]
  simp only [key]

/-- **C87, cut texts.** A list, an object or a string that is cut anywhere before its end is refused. -/
theorem C87_cut (t : Str) (v : Json) (ht : JsonText t v) (hv : (∃ s, v = .str s) ∨ (∃ l, v = .arr l) ∨ ∃ l, v = .obj l) (p : Str) (hp : p <+: t) (hne : p ≠ t) :
    jsonLoads p = none := by
  have hc : Closed t := by
    cases ht with
    | word _ _ hw => cases hw <;> simp at hv
    | str u s => exact ⟨'"', _, rfl, by decide +kernel⟩
    | empty w => exact ⟨'[', _, rfl, by decide +kernel⟩
    | arr w u l => exact ⟨'[', _, rfl, by decide +kernel⟩
    | emptyObj w => exact ⟨'{', _, rfl, by decide +kernel⟩
    | obj w u l => exact ⟨'{', _, rfl, by decide +kernel⟩
  unfold jsonLoads
  rw [loadsAll_cut ht hc hp hne]
  rfl

/-! ## What was written is read back -/

/-- **C87, round trip.** What a JSON library writes for Python data is read back as the value of this data, when keys of dicts have distinct names. -/
theorem C87_dumps (lib : JsonWriter) (hg : GoodWriter lib) (name : Ser → Str) (hn : ∀ k n, lib.key k = .ok n → name k = n) (s : Ser) (level : Nat) (t : Str)
    (h : lib.dumps level s = .ok t) (hd : DistinctNames (jsonOf lib.showF name s)) : jsonLoads t = some (jsonOf lib.showF name s) :=
  (C87_dicts t _).2 ⟨[], t, [], by simp, jsonWs_nil, C79_denotes lib hg name hn s level t h, jsonWs_nil⟩ hd

/-- **C87, exported BIN files.** The JSON text of a BIN file is read back as the data of this file. -/
theorem C87_bin_file {lib : JsonWriter} {name : Ser → Str} (hg : GoodWriter lib) (hn : KeyNames lib name) (ha : lib.ascii = true) (env : BinEnv)
    (btype : Option Nat) (data : Bytes) (f : BinFile) (h : parseBin btype data = .ok f) (hs : SimpleFile f) :
    ∃ s t b, f.ser env = .ok s ∧ lib.dumps 0 s = .ok t ∧ encodeAscii t = .ok b ∧ utf8 b = .ok t ∧ jsonLoads t = some (jsonOf lib.showF name s) := by
  obtain ⟨s, t, b, h1, h2, h3, h4, h5, h6⟩ := C79_bin_file hg hn ha env btype data f h hs
  exact ⟨s, t, b, h1, h2, h3, h4, C87_dumps lib hg name hn.given s 0 t h2 h6⟩

/-- **C87, exported string tables.** The file `<path>.json` of an exported string table is read back as its entries and its version. -/
theorem C87_export_rst {w : JsonWriter} (hg : GoodWriter w) (lib : ConvLib)
    (hl : ∀ e v, lib.rstJson e v = w.textBody (rstSer e v)) (p : Str) (d b : Bytes) (h : Converts lib .rst p d (p ++ ".json".toList) (.file b)) :
    ∃ r t, (parseRst lib.rstEnv lib.version).run d = .ok r ∧ utf8 b = .ok t ∧ jsonLoads t = some (Spec.rstJson (rstEntries lib.rstHashes r) r.version) := by
  obtain ⟨r, t, h1, h2, h3, h4⟩ := C79_export_rst hg lib hl p d b h
  exact ⟨r, t, h1, h2, (C87_dicts t _).2 ⟨[], t, [], by simp, jsonWs_nil, h3, jsonWs_nil⟩ h4⟩

/-! ## Releases -/

def relWriter : JsonWriter := stdJson true fun b => showInt b

theorem relWriter_good : GoodWriter relWriter := C79_libraries.1 true _ fun b => Or.inl (showInt_number b)

theorem relInfo_dumps (c g : Str) : ∃ t, relWriter.dumps 0 (.obj ((releaseInfo c g).map fun kv => (kv.1, .str kv.2))) = .ok t ∧ releaseJsonLib.dump (releaseInfo c g) = utf8Bytes t ∧
    JsonText t (.obj ((releaseInfo c g).map fun kv => (kv.1, .str kv.2))) ∧ ∀ x ∈ t, x.toNat < 128 := by
  have : ∃ t, relWriter.dumps 0 (.obj ((releaseInfo c g).map fun kv => (kv.1, .str kv.2))) = .ok t := ⟨_, rfl⟩
  obtain ⟨t, ht⟩ := this
  have h1 := C79_denotes relWriter relWriter_good (fun k => match relWriter.key k with | .ok n => n | .error _ => []) (fun k n hk => by rw [hk]) _ 0 t ht
  obtain ⟨b, hb, -, -⟩ := C79_ascii relWriter relWriter_good rfl _ 0 t ht
  refine ⟨t, ht, ?_, h1, ?_⟩
  · show dumpRelease (releaseInfo c g) = _
    unfold dumpRelease
    have : (stdJson true fun b => showInt b).dumps 0 (.obj ((releaseInfo c g).map fun kv => (kv.1, .str kv.2))) = .ok t := ht
    rw [this]
  · unfold encodeAscii at hb
    split at hb
    · rename_i hall
      rw [List.all_eq_true] at hall
      exact fun x hx => of_decide_eq_true (hall x hx)
    · simp at hb

/-- **C87, releases.** The data of a release is read back from the file in which it was written, whatever characters the URLs have. -/
theorem C87_release : releaseJsonLib.Faithful := by
  intro c g
  obtain ⟨t, -, h2, h3, -⟩ := relInfo_dumps c g
  rw [h2]
  show loadRelease _ = _
  unfold loadRelease
  have hd : DistinctNames (.obj ((releaseInfo c g).map fun kv => (kv.1, .str kv.2))) := by
    refine .obj _ ?_ ?_
    · simp only [releaseInfo, List.map_cons, List.map_nil, List.nodup_cons, List.mem_singleton, List.not_mem_nil, not_false_eq_true, List.nodup_nil, and_true]
      decide +kernel
    · intro kv hkv
      obtain ⟨x, -, rfl⟩ := List.mem_map.1 hkv
      exact .str _
  rw [utf8_utf8Bytes]
  simp only [bind, Except.bind]
  rw [(C87_dicts t _).2 ⟨[], t, [], by simp, jsonWs_nil, h3, jsonWs_nil⟩ hd]
  rfl

theorem utf8Bytes_small {t : Str} (h : ∀ x ∈ t, x.toNat < 128) : utf8Bytes t = t.map fun c => UInt8.ofNat c.toNat := by
  induction t with
  | nil => rfl
  | cons c t ih =>
    have hc : c.toNat < 128 := h c (by simp)
    have h1 : String.utf8EncodeChar c = [UInt8.ofNat c.toNat] := by
      unfold String.utf8EncodeChar
      have : c.val.toNat ≤ 127 := by
        have : c.val.toNat = c.toNat := rfl
        omega
      simp only [this, if_true]
      rfl
    have := ih fun x hx => h x (by simp [hx])
    unfold utf8Bytes at this ⊢
    rw [List.flatMap_cons, h1, this]
    rfl

/-- **C87, files cut by a crash.** When only the beginning of the file of a release was written, reading it raises `ValueError`: other URLs are never given. -/
theorem C87_release_cut (c g : Str) (k : Nat) (hk : k < (releaseJsonLib.dump (releaseInfo c g)).length) :
    releaseJsonLib.load ((releaseJsonLib.dump (releaseInfo c g)).take k) = .error .value := by
  obtain ⟨t, -, h2, h3, h4⟩ := relInfo_dumps c g
  rw [h2] at hk ⊢
  rw [utf8Bytes_small h4, List.length_map] at hk
  have h5 : (utf8Bytes t).take k = utf8Bytes (t.take k) := by
    rw [utf8Bytes_small h4, utf8Bytes_small (fun x hx => h4 x (List.mem_of_mem_take hx)), List.map_take]
  rw [h5]
  show loadRelease _ = _
  unfold loadRelease
  rw [utf8_utf8Bytes]
  simp only [bind, Except.bind]
  rw [C87_cut t _ h3 (Or.inr (Or.inr ⟨_, rfl⟩)) (t.take k) (List.take_prefix k t) (fun e => by have := congrArg List.length e; rw [List.length_take] at this; omega)]

/-- **C87, crash.** A fetch cut while the file of the release is written: the release that was being written cannot be read, at any point of the write. -/
theorem C87_crash (cfg : PCfg) (fs : FS) (c g : Str) (time : Int) (k : Nat) (hk : k < (releaseJsonLib.dump (releaseInfo c g)).length) :
    cfg.releaseData releaseJsonLib (cfg.recordCrash releaseJsonLib fs (releaseInfo c g) time (.first k)) time = .error .value := by
  unfold PCfg.releaseData FS.readFile PCfg.recordCrash
  simp only [FS.set_self, bind, Except.bind]
  exact C87_release_cut c g k hk

/-- **C87, history.** `C38_history` with the JSON of the standard library. -/
theorem C87_history (cfg : PCfg) (hpl : cfg.GoodPatchline) (fs fs' : FS) (envs : List FetchEnv)
    (urls : FetchEnv → Str × Str) (hurls : ∀ e ∈ envs, e.client = .ok (urls e).1 ∧ e.game = .ok (urls e).2)
    (hclock : (envs.map (·.time)).Pairwise (· < ·))
    (hempty : fs cfg.releasePath = none ∧ ∀ name, fs (cfg.releasePath ++ '/' :: name) = none)
    (h : cfg.fetchAll releaseJsonLib fs envs = (fs', .ok ())) (names : List Str) (hn : Listing cfg fs' names) :
    let recorded := changes none (envs.map fun e => (e.time, urls e))
    cfg.iterReleases releaseJsonLib fs' names = .ok (recorded.reverse.map fun r => (r.1, releaseInfo r.2.1 r.2.2)) ∧
    cfg.latestTimestamp fs' = .ok (recorded.getLast?.map (·.1)) :=
  C38_history cfg releaseJsonLib C87_release hpl fs fs' envs urls hurls hclock hempty h names hn

/-- **C87, latest release.** `C38_pointer` with the JSON of the standard library. -/
theorem C87_pointer (cfg : PCfg) (fs : FS) (evs : List FetchEvent) (hstart : PointerOk cfg releaseJsonLib fs)
    (hclock : (evs.map (·.env.time)).Pairwise (· < ·))
    (hold : ∀ t, cfg.latestTimestamp fs = .ok (some t) → ∀ ev ∈ evs, t < ev.env.time)
    (hrm : ∀ ev ∈ evs, ev.env.f2.remove = false) (hcr : ∀ env k, .crash env (.second k) ∉ evs) :
    PointerOk cfg releaseJsonLib (cfg.afterEvents releaseJsonLib fs evs) :=
  C38_pointer cfg releaseJsonLib C87_release fs evs hstart hclock hold hrm hcr

/-- **C87, updates.** A storage is updated from the texts of the two documents: if the client configuration and the game releases are the documents `t` and `t'`, an update
that returns leaves the URLs they contain as the latest release, and changes nothing if they already are. -/
theorem C87_update (cfg : PCfg) (web : Web) (cc : CVal) (time : Int) (f1 f2 : WriteFaults)
    (fs fs' : FS) (s : Source) (hs : SourceOf fs cc s) (t t' : Str) (v v' doc doc' : Json) (c g : Str)
    (hb : s.Gives fs web (utf8Bytes t)) (hd : JsonDocument t v) (hk : Kept v doc)
    (hc : ClientUrlIn cfg.patchline (if cfg.patchline = "pbe".toList then "PBE".toList else "EUW".toList) doc (.str c))
    (hb' : WebServes web (gameUrl cfg.patchline) (utf8Bytes t')) (hd' : JsonDocument t' v') (hk' : Kept v' doc') (hg : GameUrlIn doc' (.str g)) :
    (∀ t, Latest cfg releaseJsonLib fs t c g → cfg.fetchUpdate releaseJsonLib jsonLoads web cc time f1 f2 fs = (fs, .ok ())) ∧
    ((∀ t d, cfg.latestTimestamp fs = .ok (some t) → cfg.releaseData releaseJsonLib fs t = .ok d →
        ¬ (d.length = 2 ∧ d.get? "client_patch_url".toList = some c ∧ d.get? "game_patch_url".toList = some g)) →
      cfg.fetchUpdate releaseJsonLib jsonLoads web cc time f1 f2 fs = (fs', .ok ()) →
      Latest cfg releaseJsonLib fs' time c g ∧ ∀ q x, q ≠ cfg.latestPath → q ≠ cfg.releaseJson time → (fs' q = some (.file x) ↔ fs q = some (.file x))) :=
  C82_update cfg releaseJsonLib C87_release jsonLoads web cc time f1 f2 fs fs' s hs (utf8Bytes t) (utf8Bytes t') doc doc' c g hb
    ⟨t, utf8_utf8Bytes t, (C87_loads t doc).2 ⟨v, hd, hk⟩⟩ hc hb' ⟨t', utf8_utf8Bytes t', (C87_loads t' doc').2 ⟨v', hd', hk'⟩⟩ hg

/-- **C87, not a document.** If one of the two documents is not JSON (an error page, a text that was cut), the update raises and changes nothing. -/
theorem C87_update_refused (cfg : PCfg) (web : Web) (cc : CVal) (time : Int) (f1 f2 : WriteFaults) (fs : FS) (t : Str) (ht : ∀ v, ¬ JsonDocument t v)
    (h : (∃ s, SourceOf fs cc s ∧ s.Gives fs web (utf8Bytes t)) ∨ WebServes web (gameUrl cfg.patchline) (utf8Bytes t)) :
    (cfg.fetchUpdate releaseJsonLib jsonLoads web cc time f1 f2 fs).1 = fs ∧ ∃ e, (cfg.fetchUpdate releaseJsonLib jsonLoads web cc time f1 f2 fs).2 = .error e := by
  have hno : ∀ v, ¬ Document jsonLoads (utf8Bytes t) v := by
    rintro v ⟨s, h1, h2⟩
    rw [utf8_utf8Bytes] at h1
    obtain rfl := Except.ok.inj h1
    rw [(C87_refused t).2 ht] at h2
    simp at h2
  have hserve : ∀ u b b', WebServes web u b → WebServes web u b' → b = b' := by
    rintro u b b' ⟨r, h1, -, rfl⟩ ⟨r', h2, -, rfl⟩
    rw [h1] at h2
    obtain rfl := Except.ok.inj h2
    rfl
  have herr : ∀ (r : Res Json), (∀ u, r ≠ .ok u) → ∃ e, urlText r = .error e := by
    intro r hr
    cases r with
    | error e => exact ⟨e, rfl⟩
    | ok u => exact absurd rfl (hr u)
  unfold PCfg.fetchUpdate
  apply C38_no_urls
  rcases h with ⟨s, hs, hg⟩ | hg
  · refine Or.inl (herr _ fun u hu => ?_)
    obtain ⟨b, doc, h1, h2, -⟩ := (latestClient_ok fs web jsonLoads cfg.patchline cc s hs u).1 hu
    have : b = utf8Bytes t := by
      cases s with
      | file p =>
        have h3 : fs p = some (.file b) := h1
        have h4 : fs p = some (.file (utf8Bytes t)) := hg
        rw [h3] at h4
        simpa using h4
      | url x => exact hserve x _ _ h1 hg
    exact hno doc (this ▸ h2)
  · refine Or.inr (Or.inl (herr _ fun u hu => ?_))
    obtain ⟨b, doc, h1, h2, -⟩ := (latestGame_ok web jsonLoads cfg.patchline u).1 hu
    exact hno doc (hserve _ _ _ h1 hg ▸ h2)

/-! ## Cases that meet the hypotheses -/

def readDoc : Str := " {\"a\": -1.5e3,\n\"b\": [true, \"\\u00e9\\ud83d\\ude00/\"], \"a\": {\"c\": null}}\r\n".toList
def readValue : Json := .obj [("a".toList, .obj [("c".toList, .null)]), ("b".toList, .arr [.bool true, .str "é😀/".toList])]

/-- Escapes, whitespace, and a name given twice -/
theorem C87_case : jsonLoads readDoc = some readValue := sameAs_eq (by decide +kernel)

theorem keptCase : Kept (.obj [("a".toList, .num "-1.5e3".toList), ("b".toList, .arr [.bool true, .str "é😀/".toList]), ("a".toList, .obj [("c".toList, .null)])]) readValue := by
  have h : Json.same (Json.dicts (.obj [("a".toList, .num "-1.5e3".toList), ("b".toList, .arr [.bool true, .str "é😀/".toList]), ("a".toList, .obj [("c".toList, .null)])])) readValue =
    true := by decide +kernel
  exact same_eq h ▸ dicts_kept _

/-- `C87_loads` and `C87_determined` on this text: its value has the two members, and only the last one is kept. -/
theorem C87_case_all : JsonDocument readDoc (.obj [("a".toList, .num "-1.5e3".toList), ("b".toList, .arr [.bool true, .str "é😀/".toList]), ("a".toList, .obj [("c".toList, .null)])]) ∧
    Kept (.obj [("a".toList, .num "-1.5e3".toList), ("b".toList, .arr [.bool true, .str "é😀/".toList]), ("a".toList, .obj [("c".toList, .null)])]) readValue :=
  ⟨loadsAll_iff.1 (sameAs_eq (by decide +kernel)), keptCase⟩

/-- Texts that are refused: empty, single quotes, a comma at the end, a useless zero, two values, a line break in a string -/
theorem C87_case_refused : jsonLoads [] = none ∧ jsonLoads "{'a': 1}".toList = none ∧ jsonLoads "[1,]".toList = none ∧ jsonLoads "[01]".toList = none ∧
    jsonLoads "1 2".toList = none ∧ jsonLoads "\"a\nb\"".toList = none := by
  simp only [← Option.isNone_iff_eq_none]
  decide +kernel

/-- `C87_cut`, and a number, for which it is not so -/
theorem C87_case_cut : jsonLoads "[12]".toList = some (.arr [.num "12".toList]) ∧ jsonLoads "[12".toList = none ∧ jsonLoads "12".toList = some (.num "12".toList) ∧
    jsonLoads "1".toList = some (.num "1".toList) := by
  refine ⟨sameAs_eq (by decide +kernel), ?_, sameAs_eq (by decide +kernel), sameAs_eq (by decide +kernel)⟩
  rw [← Option.isNone_iff_eq_none]
  decide +kernel

/-- `C87_release` and `C87_release_cut` with a quote, an accent and an emoji in the URLs -/
theorem C87_case_release : releaseJsonLib.dump (releaseInfo "a\"é".toList "😀".toList) =
      utf8Bytes "{\"client_patch_url\": \"a\\\"\\u00e9\", \"game_patch_url\": \"\\ud83d\\ude00\"}".toList ∧
    releaseJsonLib.load (utf8Bytes "{\"client_patch_url\": \"a\", \"game_patch_url\": \"b\"".toList) = .error .value := by
  exact ⟨by decide +kernel, by decide +kernel⟩

def readWeb : Web := fun u =>
  if u = clientConfigUrl then .ok ⟨200, utf8Bytes "{\"keystone.products.league_of_legends.patchlines.live\": {\"platforms\": {\"win\": {\"configurations\": [{\"id\": \"EUW\", \"patch_url\": \"c\"}]}}}}".toList⟩
  else .ok ⟨200, utf8Bytes "{\"releases\": [{\"download\": {\"url\": \"g\"}}]}".toList⟩
def readCut : Web := fun u =>
  if u = clientConfigUrl then .ok ⟨200, utf8Bytes "{\"keystone.products.league_of_legends.patchlines.live\": {\"platforms\":".toList⟩
  else .ok ⟨200, utf8Bytes "{\"releases\": [{\"download\": {\"url\": \"g\"}}]}".toList⟩

/-- `C87_update`: an update from the texts of a server, and `C87_update_refused`: the same with a text that is cut -/
theorem C87_case_update : (demoRelCfg.fetchUpdate releaseJsonLib jsonLoads readWeb .null 7 {} {} fun _ => none).2 = .ok () ∧
    demoRelCfg.releaseData releaseJsonLib (demoRelCfg.fetchUpdate releaseJsonLib jsonLoads readWeb .null 7 {} {} fun _ => none).1 7 = .ok (releaseInfo "c".toList "g".toList) ∧
    (demoRelCfg.fetchUpdate releaseJsonLib jsonLoads readCut .null 7 {} {} fun _ => none).2 = .error .value := by
  decide +kernel

/-- `C87_dumps` with a dict -/
example : demoStd.dumps 0 (.obj [("a".toList, .list [.int (-3), .none]), ("é".toList, .str "\n".toList)]) = .ok "{\"a\": [-3, null], \"\\u00e9\": \"\\n\"}".toList := by decide +kernel

example : jsonLoads "{\"a\": [-3, null], \"\\u00e9\": \"\\n\"}".toList = some (.obj [("a".toList, .arr [.num "-3".toList, .null]), ("é".toList, .str "\n".toList)]) :=
  sameAs_eq (by decide +kernel)

end Cdtb
