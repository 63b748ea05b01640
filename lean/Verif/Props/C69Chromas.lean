import Verif.Model.Chromas
import Verif.Spec.Chromas
import Verif.Props.C69
import Verif.Props.C88Client
/-!
# C69, groups of skins from `skins.json`
-/
namespace Cdtb
set_option autoImplicit false
open Py Spec

theorem field_last {l : List (Str × Json)} {k : Str} {v : Json} (h : LastNamed l k v) : (Json.obj l).dicts.field k = .ok v.dicts :=
  (field_iff _ _ _).2 (jfield_last h)

theorem field_none {l : List (Str × Json)} {k : Str} (h : k ∉ l.map Prod.fst) : (Json.obj l).dicts.field k = .error .key := by
  rw [Json.dicts, field_get]
  have : (Dict.ofList (Json.dictsObj l)).get? k = none := by
    rw [Dict.get?_ofList, Option.map_eq_none_iff, List.find?_eq_none]
    intro x hx he
    have hx' : x ∈ Json.dictsObj l := by simpa using hx
    have hk : x.1 = k := by simpa using he
    exact h (by rw [← dicts_fst, ← hk]; exact List.mem_map_of_mem hx')
  rw [this]

theorem chroma_ids {cs : List Json} {is : List Int} (h : List.Forall₂ ChromaId cs is) :
    ∃ ids, (Json.dictsList cs).mapM (Json.field "id".toList) = .ok ids ∧ ids.mapM jsonInt = .ok is := by
  induction h with
  | nil => exact ⟨[], rfl, rfl⟩
  | @cons c i cs is hc _ ih =>
    obtain ⟨o, n, rfl, hn, hi⟩ := hc
    obtain ⟨ids, h1, h2⟩ := ih
    refine ⟨.num n :: ids, ?_, ?_⟩
    · rw [Json.dictsList, List.mapM_cons, field_last hn, h1]; rfl
    · rw [List.mapM_cons, h2]
      simp only [jsonInt, hi, bind, Except.bind, pure, Except.pure]

theorem skinGroup_member {kv : Str × Json} {s : ChromaSkin} (h : SkinMember kv s) : skinGroup (kv.1, kv.2.dicts) = chromaGroup s := by
  obtain ⟨m, rfl, hp, hc⟩ := h
  have h1 : loadScreenPath (Json.obj m).dicts = .ok s.path := by
    unfold loadScreenPath
    rw [field_last hp]
    rfl
  have h2 : ∃ ids, chromaIds (Json.obj m).dicts = .ok ids ∧ ids.mapM jsonInt = .ok s.chromas := by
    unfold chromaIds
    rcases hc with ⟨he, hn⟩ | ⟨cs, hl, hf⟩
    · have : skinChromas (Json.obj m).dicts = .null := by
        unfold skinChromas
        rcases hn with hn | hn
        · rw [field_none hn]
        · rw [field_last hn]; rfl
      rw [this, he]
      exact ⟨[], rfl, rfl⟩
    · have : skinChromas (Json.obj m).dicts = .arr (Json.dictsList cs) := by
        unfold skinChromas
        rw [field_last hl, Json.dicts]
      rw [this]
      obtain ⟨ids, a, b⟩ := chroma_ids hf
      cases cs with
      | nil =>
        rw [List.forall₂_nil_left_iff] at hf
        rw [hf]
        exact ⟨[], rfl, rfl⟩
      | cons c cs =>
        refine ⟨ids, ?_, b⟩
        simp only [Json.dictsList, Json.truth, List.isEmpty_cons, Bool.not_false, if_true, Json.items, bind, Except.bind]
        rw [← Json.dictsList]
        exact a
  obtain ⟨ids, h2, h3⟩ := h2
  unfold skinGroup chromaGroup
  simp only [h1, h2, bind, Except.bind]
  cases chromaChar s.path with
  | error e => rfl
  | ok n =>
    simp only [List.mapM_cons, h3, jsonInt, bind, Except.bind, pure, Except.pure]
    cases int10 s.id <;> rfl

/-- **C69, skins of the server.** When the server gives a document with distinct names whose members are skins, in any encoding of JSON and whatever the status of the
response, groups of these skins are guessed. -/
theorem C69_chromas_document (H : Str → Int) (g : Guesser) (hg : Reached H g) (web : Web) (r : HttpResp) (hr : web skinsUrl = .ok r)
    (u : Utf) (t : Str) (hb : r.body = u.encode t ∨ r.body = u.encode (bom :: t)) (l : List (Str × Json)) (hd : JsonDocument t (.obj l))
    (hn : (l.map Prod.fst).Nodup) (skins : List ChromaSkin) (hs : List.Forall₂ SkinMember l skins)
    (hok : ∀ s ∈ skins, (∃ char, Spec.ChromaOf s char) ∧ (int10 s.id).isSome) :
    ∃ g', g.guessChromasWeb H web = (g', .ok ()) ∧ Spec.Guesses H g g' (fun q => ∃ (char : Str) (sel : List ChromaSkin) (root : Bool) (names : List Str),
      (∃ s ∈ skins, Spec.ChromaOf s char) ∧ List.Sublist sel skins ∧ (∀ s ∈ sel, Spec.ChromaOf s char) ∧ (sel ≠ [] ∨ root = true) ∧
      names.Perm (sel.flatMap Spec.chromaParts ++ if root then ["_skins_root".toList] else []) ∧ names.Pairwise (· ≤ ·) ∧
      q = "data/".toList ++ char ++ names.flatten ++ ".bin".toList) := by
  have hload := (C88_bytes r.body _).2 ⟨u, t, hb, (C87_loads t _).2 ⟨_, hd, dicts_kept (.obj l)⟩⟩
  have hdata : skinsData web = .ok (Json.obj l).dicts := by
    unfold skinsData
    simp only [hr, bind, Except.bind, hload]
  have hgroups : skinGroups (Json.obj l).dicts = skins.mapM chromaGroup := by
    rw [Json.dicts, Dict.ofList_of_nodup (by rw [dicts_fst]; exact hn)]
    show (Json.dictsObj l).mapM skinGroup = _
    clear hd hn hload hdata hok
    induction hs with
    | nil => rfl
    | @cons kv s l skins h _ ih =>
      obtain ⟨k, v⟩ := kv
      rw [Json.dictsObj, List.mapM_cons, List.mapM_cons, ih, skinGroup_member h]
  have : g.guessChromasWeb H web = g.guessChromas H skins := by
    unfold Guesser.guessChromasWeb Guesser.guessChromas
    rw [hdata]
    simp only
    rw [hgroups]
    cases skins.mapM chromaGroup <;> rfl
  rw [this]
  exact C69_chromas H g hg skins hok

/-- When the request fails, when the response is not a document or not an object, or when a skin has no path, nothing is guessed and an error is raised. -/
theorem C69_chromas_refused (H : Str → Int) (g : Guesser) (web : Web)
    (h : (∃ e, web skinsUrl = .error e) ∨ ∃ r, web skinsUrl = .ok r ∧
      ((∀ (u : Utf) (t : Str) (v : Json), (r.body = u.encode t ∨ r.body = u.encode (bom :: t)) → ¬ JsonDocument t v) ∨
       ∃ (u : Utf) (t : Str) (v : Json), (r.body = u.encode t ∨ r.body = u.encode (bom :: t)) ∧ JsonDocument t v ∧
        ((∀ l, v ≠ .obj l) ∨ ∃ (l : List (Str × Json)) (k : Str) (m : List (Str × Json)), v = .obj l ∧ LastNamed l k (.obj m) ∧
          "loadScreenPath".toList ∉ m.map Prod.fst))) :
    ∃ e, g.guessChromasWeb H web = (g, .error e) := by
  unfold Guesser.guessChromasWeb
  rcases h with ⟨e, he⟩ | ⟨r, hr, h⟩
  · exact ⟨e, by simp only [skinsData, he, bind, Except.bind]⟩
  · rcases h with h | ⟨u, t, v, hb, hd, h⟩
    · have : loadsBytes r.body = none := by
        cases hl : loadsBytes r.body with
        | none => rfl
        | some v =>
          obtain ⟨u, t, hb, hj⟩ := (C88_bytes _ _).1 hl
          obtain ⟨v0, hd, -⟩ := (C87_loads t v).1 hj
          exact absurd hd (h u t v0 hb)
      exact ⟨.value, by simp only [skinsData, hr, bind, Except.bind, this]⟩
    · have hload := (C88_bytes r.body _).2 ⟨u, t, hb, (C87_loads t _).2 ⟨_, hd, dicts_kept v⟩⟩
      have hdata : skinsData web = .ok v.dicts := by
        unfold skinsData
        simp only [hr, bind, Except.bind, hload]
      rw [hdata]
      have key : ∃ e, skinGroups v.dicts = .error e := by
        rcases h with h | ⟨l, k, m, rfl, hk, hm⟩
        · cases v with
          | obj l => exact absurd rfl (h l)
          | _ => exact ⟨.attribute, by simp [skinGroups, Json.dicts, skinItems, bind, Except.bind]⟩
        · have hf := (field_iff _ _ _).1 (field_last hk)
          obtain ⟨a, b, hab, -⟩ := hf
          have he : ∀ x, skinGroup (k, (Json.obj m).dicts) ≠ .ok x := by
            intro x hx
            have hl : loadScreenPath (Json.obj m).dicts = .error .key := by
              unfold loadScreenPath
              rw [field_none hm]
              rfl
            simp [skinGroup, hl, bind, Except.bind] at hx
          rw [hab]
          obtain ⟨-, -, e, -, h⟩ := mapM_chroma_error skinGroup (a ++ (k, (Json.obj m).dicts) :: b) _ (by simp) he
          exact ⟨e, h⟩
      obtain ⟨e, he⟩ := key
      exact ⟨e, by simp only [he]⟩

/-- A document with two skins of a character, one with a chroma, and one of another character -/
def skinsDoc : Str :=
  "{\"1001\": {\"chromas\": [{\"id\": 1007}], \"loadScreenPath\": \"/lol-game-data/ASSETS/Assets/Characters/Annie/Skins/a.jpg\"}, \"1000\": {\"loadScreenPath\": \"/lol-game-data/assets/assets/characters/annie/skins/\"}, \"2000\": {\"loadScreenPath\": \"/lol-game-data/assets/assets/characters/olaf/skins/\", \"chromas\": null}}".toList

def skinsWeb : Web := fun url => if url = skinsUrl then .ok ⟨404, utf8Bytes skinsDoc⟩ else .error (.http 404)

def skinsMembers : List (Str × Json) := [
  ("1001".toList, .obj [("chromas".toList, .arr [.obj [("id".toList, .num "1007".toList)]]), ("loadScreenPath".toList, .str "/lol-game-data/ASSETS/Assets/Characters/Annie/Skins/a.jpg".toList)]),
  ("1000".toList, .obj [("loadScreenPath".toList, .str "/lol-game-data/assets/assets/characters/annie/skins/".toList)]),
  ("2000".toList, .obj [("loadScreenPath".toList, .str "/lol-game-data/assets/assets/characters/olaf/skins/".toList), ("chromas".toList, .null)])]

def skinsRead : List ChromaSkin := [
  ⟨"1001".toList, "/lol-game-data/ASSETS/Assets/Characters/Annie/Skins/a.jpg".toList, [1007]⟩,
  ⟨"1000".toList, "/lol-game-data/assets/assets/characters/annie/skins/".toList, []⟩,
  ⟨"2000".toList, "/lol-game-data/assets/assets/characters/olaf/skins/".toList, []⟩]

theorem second_last (x : Str × Json) (k : Str) (v : Json) : LastNamed [x, (k, v)] k v := ⟨[x], [], rfl, by simp⟩

theorem C69_chromas_case : JsonDocument skinsDoc (.obj skinsMembers) ∧ (skinsMembers.map Prod.fst).Nodup ∧ List.Forall₂ SkinMember skinsMembers skinsRead ∧
    ∀ s ∈ skinsRead, (∃ char, Spec.ChromaOf s char) ∧ (int10 s.id).isSome := by
  refine ⟨loadsAll_iff.1 (sameAs_eq (by decide +kernel)), by decide +kernel, .cons ?_ (.cons ?_ (.cons ?_ .nil)), ?_⟩
  · exact ⟨_, rfl, second_last _ _ _, Or.inr ⟨_, ⟨[], _, rfl, by decide +kernel⟩, .cons ⟨_, "1007".toList, rfl, ⟨[], [], rfl, by simp⟩, by decide +kernel⟩ .nil⟩⟩
  · exact ⟨_, rfl, ⟨[], [], rfl, by simp⟩, Or.inl ⟨rfl, Or.inl (by decide +kernel)⟩⟩
  · exact ⟨_, rfl, ⟨[], _, rfl, by decide +kernel⟩, Or.inl ⟨rfl, Or.inr (second_last _ _ _)⟩⟩
  · intro s hs
    have key : ∀ s ∈ skinsRead, (chromaChar s.path).toBool = true ∧ (int10 s.id).isSome = true := by decide +kernel
    obtain ⟨h1, h2⟩ := key s hs
    refine ⟨?_, h2⟩
    cases hc : chromaChar s.path with
    | error e => rw [hc] at h1; simp [Except.toBool] at h1
    | ok n => exact ⟨n, (chromaChar_iff s n).1 hc⟩

example : let g := (Guesser.guessChromasWeb (fun s => s.length) (.init [] [24, 38, 37, 50, 99]) skinsWeb).1
    g.known.get? 24 = some "data/olaf_skins_root.bin".toList ∧ g.known.get? 38 = some "data/annie_skins_skin1_skins_skin7.bin".toList ∧
    g.known.get? 37 = some "data/annie_skins_root_skins_skin0.bin".toList ∧
    g.known.get? 50 = some "data/annie_skins_skin0_skins_skin1_skins_skin7.bin".toList ∧ g.unknown = [99] := by decide +kernel

end Cdtb
