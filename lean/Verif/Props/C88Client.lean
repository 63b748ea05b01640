import Verif.Props.C88
import Verif.Props.C70
/-!
# C88, text files of the client: what guessing hashes reads in JSON files
-/
namespace Cdtb
set_option autoImplicit false
open Py Spec

/-- **C88, values in text files.** With the parser of the standard library, the value of a text file of the client is the one of its document. -/
theorem C88_value (lib : TextLib) (hl : lib.loads = jsonLoads) (ext : Option Str) (t : Str) (v : Json) :
    ValueOf lib ext t v ↔ ext = some "json".toList ∧ v ≠ .null ∧ ∃ v0, JsonDocument t v0 ∧ Kept v0 v := by
  unfold ValueOf
  rw [hl, C87_loads]
  tauto

theorem jfield_last {l : List (Str × Json)} {k : Str} {v : Json} (h : LastNamed l k v) : JField k (Json.obj l).dicts v.dicts := by
  rw [Json.dicts]
  have hl : LastNamed (Json.dictsObj l) k v.dicts := by
    obtain ⟨a, b, rfl, hb⟩ := h
    refine ⟨Json.dictsObj a, Json.dictsObj b, ?_, by rw [dicts_fst]; exact hb⟩
    simp [dictsObj_eq]
  have hg := ofList_lastNamed hl
  have hm := (Dict.mem_iff_get? (Dict.WF.ofList (Json.dictsObj l))).2 hg
  obtain ⟨a, b, hab⟩ := List.append_of_mem hm
  refine ⟨a, b, by rw [hab], fun kv hkv hk => ?_⟩
  have hn : ((Dict.ofList (Json.dictsObj l)).map Prod.fst).Nodup := Dict.WF.ofList (Json.dictsObj l)
  rw [hab, List.map_append, List.map_cons, List.nodup_append] at hn
  exact hn.2.2 kv.1 (List.mem_map.2 ⟨kv, hkv, rfl⟩) k (by simp) hk

/-- The text of a document is the one of the file. -/
theorem document_textOf {cx : Codecs} {file : Bytes} {w : WadEntry} {t : Str} {v : Json} (hx : w.ext = some "json".toList)
    (hr : readData cx w file none = .ok (some (utf8Bytes t))) (hd : JsonDocument t v) (text : Str) : TextOf cx file w text ↔ text = t := by
  obtain ⟨-, c, t', rfl, h0, h1⟩ := document_chars hd
  have hb : ∀ r, utf8Bytes (c :: t') ≠ 0xef :: 0xbb :: 0xbf :: r := by
    intro r e
    have e1 : utf8Bytes (c :: t') = UInt8.ofNat c.toNat :: utf8Bytes t' := by
      show Utf.encode .utf8 (c :: t') = _
      rw [encode_cons, (char_ascii h1).1]
      rfl
    rw [e1] at e
    have := congrArg UInt8.toNat (List.cons.inj e).1
    rw [byte_toNat (by omega)] at this
    have : c.toNat = 0xef := this
    omega
  unfold TextOf
  rw [hr, hx]
  constructor
  · rintro ⟨-, -, b, hb', h⟩
    have := Option.some.inj (Except.ok.inj hb')
    subst this
    rcases h with ⟨r, hr', -⟩ | ⟨-, h⟩
    · exact absurd hr' (hb r)
    · rw [utf8_utf8Bytes] at h
      exact (Except.ok.inj h).symm
  · rintro rfl
    exact ⟨by decide +kernel, by simp, _, rfl, Or.inr ⟨hb, utf8_utf8Bytes _⟩⟩

/-- **C88, champions.** The summary of champions of the client gives the files of all its champions: once the archive was searched, the hashes of these paths are not unknown
any more, and those that were have a path with this hash. -/
theorem C88_champions (H : Str → Int) (lib : TextLib) (hl : lib.loads = jsonLoads) (cx : Codecs) (file : Bytes) (g : Guesser) (hg : Reached H g) (hdirs : g.dirs = none)
    (ws : List WadEntry) (w : WadEntry) (hw : w ∈ ws) (hf : ∀ w' ∈ ws, w' ≠ w → LcuFine lib cx file w')
    (hp : w.path = some summaryPath) (hx : w.ext = some "json".toList)
    (t : Str) (hr : readData cx w file none = .ok (some (utf8Bytes t)))
    (champions : List Json) (hd : JsonDocument t (.arr champions)) (hids : ∀ x ∈ champions, ∃ l i, x = .obj l ∧ LastNamed l "id".toList i)
    (l : List (Str × Json)) (hc : .obj l ∈ champions) (n : Str) (hn : LastNamed l "id".toList (.num n)) (q : Str)
    (hq : q = "plugins/rcp-be-lol-game-data/global/default/v1/champions/".toList ++ n ++ ".json".toList ∨
      q = "plugins/rcp-be-lol-game-data/global/default/v1/champion-splashes/".toList ++ n ++ "/metadata.json".toList) :
    (g.lcuGrepWad H lib cx file ws).2 = .ok () ∧ H q ∉ (g.lcuGrepWad H lib cx file ws).1.unknown ∧
    (H q ∈ g.unknown → ∃ p, (g.lcuGrepWad H lib cx file ws).1.known.get? (H q) = some p ∧ H p = H q) := by
  have hval : ∀ v, ValueOf lib w.ext t v ↔ v = (Json.arr champions).dicts := by
    intro v
    rw [C88_value lib hl]
    constructor
    · rintro ⟨-, -, v0, h0, hk⟩
      have h2 := (C87_loads t _).2 ⟨v0, h0, hk⟩
      rw [(C87_loads t _).2 ⟨_, hd, dicts_kept _⟩] at h2
      exact (Option.some.inj h2).symm
    · rintro rfl
      exact ⟨hx, by simp [Json.dicts], _, hd, dicts_kept _⟩
  have hdl : (Json.arr champions).dicts = .arr (champions.map Json.dicts) := by rw [Json.dicts, dictsList_eq]
  have hobj : ∀ y ∈ champions.map Json.dicts, ∃ l i, y = .obj l ∧ JField "id".toList y i := by
    intro y hy
    obtain ⟨x, hx', rfl⟩ := List.mem_map.1 hy
    obtain ⟨l, i, rfl, hi⟩ := hids x hx'
    exact ⟨_, _, by rw [Json.dicts], jfield_last hi⟩
  have hno : ∀ k, ¬ JHas k (.arr (champions.map Json.dicts)) := by
    rintro k (⟨_, _, h, _⟩ | ⟨l', h, hm⟩ | ⟨_, _, h⟩)
    · simp at h
    · obtain rfl := Json.arr.inj h
      obtain ⟨_, _, h, _⟩ := hobj _ hm
      simp at h
    · simp at h
  have hnp : ¬ IsPlugin (.arr (champions.map Json.dicts)) := fun h => hno _ h.1
  have hns : ¬ IsSplash (.arr (champions.map Json.dicts)) := fun h => hno _ h.2.1
  have hpl : some summaryPath ≠ some lootPath := by decide +kernel
  have hfw : LcuFine lib cx file w := by
    refine ⟨Or.inr (Or.inr ⟨_, hr⟩), fun text v ht hv => ?_⟩
    rw [document_textOf hx hr hd] at ht
    subst ht
    rw [hval, hdl] at hv
    subst hv
    refine ⟨Or.inr (Or.inl ⟨_, rfl⟩), fun _ => ?_⟩
    rw [if_neg hnp, if_neg hns, if_pos hp]
    rintro x (⟨_, _, _, h, _⟩ | ⟨l', h, hm⟩ | ⟨_, _, h, _⟩)
    · simp at h
    · obtain rfl := Json.arr.inj h
      obtain ⟨_, i, -, hi⟩ := hobj _ hm
      exact ⟨i, hi⟩
    · simp at h
  have hall : ∀ w' ∈ ws, LcuFine lib cx file w' := by
    intro w' hw'
    by_cases e : w' = w
    · rw [e]; exact hfw
    · exact hf w' hw' e
  have hcand : LcuCand lib cx file w q := by
    refine ⟨t, (document_textOf hx hr hd t).2 rfl, Or.inl ⟨_, (hval _).2 rfl, ?_⟩⟩
    rw [hdl]
    unfold JsonCand
    rw [hp, if_neg hpl, if_neg hnp, if_neg hns, if_pos rfl]
    have hi := jfield_last hn
    refine ⟨(Json.obj l).dicts, .num n, Or.inr (Or.inl ⟨_, rfl, List.mem_map.2 ⟨_, hc, rfl⟩⟩), ?_, hq⟩
    simpa [Json.dicts] using hi
  obtain ⟨h1, g1, hr1, hg1, hg2⟩ := C70_wad H lib cx file g hg hdirs ws hall
  have hex : ∃ p, (∃ w ∈ ws, LcuCand lib cx file w p) ∧ H p = H q := ⟨q, ⟨w, hw, hcand⟩, rfl⟩
  have hu1 : H q ∉ g1.unknown := fun h => ((hg1.unknown _).1 h).2 hex
  refine ⟨h1, fun h => hu1 ((hg2.unknown _).1 h).1, fun hu => ?_⟩
  obtain ⟨p, -, hp1, hp2⟩ := hg1.found _ hu hex
  exact ⟨p, by rw [hg2.kept _ (Or.inl hu1)]; exact hp2, hp1⟩

/-! ## Case -/

namespace C88ex

def summary : Str := "[{\"id\": 1, \"name\": \"Annie\"}, {\"id\": 9, \"id\": 2}]".toList
def summaryBytes : Bytes := utf8Bytes summary
def summaryEntry : WadEntry :=
  { pathHash := 0, offset := 0, compressedSize := summaryBytes.length, size := summaryBytes.length, type := 0, subchunkCount := 0, duplicate := false, firstSubchunk := none,
    sha256 := none, path := some summaryPath, ext := some "json".toList }
def textLib : TextLib := { loads := jsonLoads, repr := fun _ => [], uni := fun _ => false }
def codecs : Codecs := { gunzip := .ok, unzstd := .ok, xxh3 := leNat, isJson := fun _ => false }

/-- The hypotheses of `C88_champions` -/
example : JsonDocument summary (.arr [.obj [("id".toList, .num ['1']), ("name".toList, .str "Annie".toList)], .obj [("id".toList, .num ['9']), ("id".toList, .num ['2'])]]) ∧
    LastNamed [("id".toList, .num ['9']), ("id".toList, .num ['2'])] "id".toList (.num ['2']) ∧ readData codecs summaryEntry summaryBytes none = .ok (some (utf8Bytes summary)) :=
  ⟨loadsAll_iff.1 (sameAs_eq (by decide +kernel)), ⟨[("id".toList, .num ['9'])], [], rfl, by simp⟩, by decide +kernel⟩

end C88ex

open C88ex in
/-- Its conclusion: the last identifier counts. -/
theorem C88_case_champions : (Guesser.lcuGrepWad (fun s => (s.length : Int) + (if '2' ∈ s then 1000 else if '9' ∈ s then 2000 else 0)) textLib codecs summaryBytes
      (Guesser.init [] [1063, 2063]) [summaryEntry]).1.known =
    [(1063, "plugins/rcp-be-lol-game-data/global/default/v1/champions/2.json".toList)] := by
  decide +kernel

end Cdtb
