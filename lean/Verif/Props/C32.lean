import Verif.Model.Info
import Verif.Spec.Info
import Verif.Lemmas.Struct
import Verif.Lemmas.Dict
/-!
# C32 Atlas and champion skin information decode to exactly what was encoded
-/
namespace Cdtb
set_option autoImplicit false
open Py Spec

theorem Reads.string {s : Str} (h : Fits32 s) : Reads unpackString (text32 s) s := by
  unfold unpackString text32
  refine Reads.bind (Reads.u h) ?_
  have := Reads.bind (f := fun b => Rd.lift (utf8 b)) (Reads.raw (utf8Bytes s)) (Reads.lift (utf8_utf8Bytes s))
  simpa using this

theorem Texture.tail_length {α : Type} (t : Texture α) : t.tail.length = 20 := by simp [Texture.tail]

/-- What is expected for a texture -/
def atlasOf {α : Type} (atlas : Str) (t : Texture α) : AtlasItem := ⟨atlas, t.startX, t.startY, t.endX, t.endY⟩

theorem Reads.atlasItem {α : Type} {t : Texture α} (ht : t.Fits) {atlases : List Str} {a : Str} (ha : atlases[t.atlas]? = some a) (name : Str) :
    Reads (Cdtb.atlasItem atlases name) t.tail (name, atlasOf a t) := by
  unfold Cdtb.atlasItem
  have h1 : (t.tail.drop 16).take 4 = le 4 t.atlas := by
    unfold Texture.tail
    rw [← List.append_assoc, ← List.append_assoc, ← List.append_assoc, List.drop_left' (by simp), List.take_of_length_le (by simp)]
  have h2 : t.tail.take 4 = le 4 t.startX := by unfold Texture.tail; rw [List.take_left' (by simp)]
  have h3 : (t.tail.drop 4).take 4 = le 4 t.startY := by
    unfold Texture.tail; rw [List.drop_left' (by simp), List.take_left' (by simp)]
  have h4 : (t.tail.drop 8).take 4 = le 4 t.endX := by
    unfold Texture.tail; rw [← List.append_assoc, List.drop_left' (by simp), List.take_left' (by simp)]
  have h5 : (t.tail.drop 12).take 4 = le 4 t.endY := by
    unfold Texture.tail; rw [← List.append_assoc, ← List.append_assoc, List.drop_left' (by simp), List.take_left' (by simp)]
  have hh : Reads (Rd.exact 20) t.tail t.tail := Reads.exact' (Texture.tail_length t).symm
  have := Reads.bind (cs := []) hh (f := fun b => (do
      let atlas ← Rd.lift (listItem atlases (leNat ((b.drop 16).take 4)))
      Pure.pure (name, (⟨atlas, leNat (b.take 4), leNat ((b.drop 4).take 4), leNat ((b.drop 8).take 4), leNat ((b.drop 12).take 4)⟩ : AtlasItem))))
    (b := (name, atlasOf a t)) (by
      refine Reads.map (a := a) (Reads.lift ?_) ?_
      · rw [h1, leNat_le _ _ ht.atlas]
        unfold listItem; rw [ha]
      · rw [h2, h3, h4, h5, leNat_le _ _ ht.startX, leNat_le _ _ ht.startY, leNat_le _ _ ht.endX, leNat_le _ _ ht.endY]
        rfl)
  simpa using this

theorem flatten_flatMap {α : Type} (f : α → Bytes) (l : List α) : (l.map f).flatten = l.flatMap f := by
  rw [List.flatMap_def]

theorem get?_ofList_map {α κ β : Type} [DecidableEq κ] (key : α → κ) (val : α → β) (l : List α) (k : κ) :
    (Dict.ofList (l.map (fun x => (key x, val x)))).get? k = (lastWith key l k).map val := by
  rw [Dict.get?_ofList]
  unfold lastWith
  rw [← List.map_reverse]
  generalize l.reverse = r
  induction r with
  | nil => rfl
  | cons x r ih =>
    rw [List.map_cons, List.find?_cons, List.find?_cons]
    simp only
    by_cases h : key x = k
    · simp [h]
    · simp only [decide_eq_false h]; exact ih

/-- Files with names: each texture gives its atlas and its coordinates, the last one wins. -/
theorem C32_atlas_text (hashes : Dict Nat Str) (atlases : List Str) (textures : List (Texture Str)) (post : Bytes)
    (hc : atlases.length < 256 ^ 4) (hm : atlases.length ≠ 0x41414d49) (ha : ∀ s ∈ atlases, Fits32 s)
    (hn : textures.length < 256 ^ 4) (ht : ∀ t ∈ textures, Fits32 t.name ∧ t.Fits ∧ t.atlas < atlases.length) :
    ∃ d, (parseAtlas hashes).run (atlasText atlases textures ++ post) = .ok d ∧ d.WF ∧
      ∀ name, d.get? name = (lastWith (fun t : Texture Str => t.name) textures name).map
        (fun t => ⟨convertCdragonPath (atlases[t.atlas]?.getD []), t.startX, t.startY, t.endX, t.endY⟩) := by
  let val : Texture Str → AtlasItem := fun t => ⟨convertCdragonPath (atlases[t.atlas]?.getD []), t.startX, t.startY, t.endX, t.endY⟩
  refine ⟨Dict.ofList (textures.map (fun t => (t.name, val t))), ?_, Dict.WF.ofList _, fun name => get?_ofList_map _ _ _ _⟩
  apply Reads.run
  unfold parseAtlas atlasText
  refine Reads.bind (Reads.raw' (by simp)) ?_
  rw [if_neg, if_pos (by simp)]
  · refine Reads.map (a := textures.map (fun t => (t.name, val t))) ?_ rfl
    rw [leNat_le _ _ hc]
    unfold parseAtlasStrings
    have e1 : Reads (Rd.times (do let s ← unpackString; pure (convertCdragonPath s)) atlases.length) (atlases.flatMap text32) (atlases.map convertCdragonPath) := by
      rw [← flatten_flatMap]
      exact Reads.timesMap (fun s hs => Reads.map (Reads.string (ha s hs)) rfl)
    refine Reads.bind e1 (Reads.bind (Reads.u hn) ?_)
    rw [← flatten_flatMap]
    refine Reads.timesMap (fun t h => ?_)
    obtain ⟨h1, h2, h3⟩ := ht t h
    refine Reads.bind (Reads.string h1) ?_
    have : (atlases.map convertCdragonPath)[t.atlas]? = some (convertCdragonPath (atlases[t.atlas]?.getD [])) := by
      rw [List.getElem?_map, List.getElem?_eq_getElem h3]; rfl
    exact Reads.atlasItem h2 this t.name
  · intro h
    have := congrArg leNat h
    rw [leNat_le _ _ hc] at this
    exact hm this

/-- The name of a hash -/
def nameOf (hashes : Dict Nat Str) (h : Nat) : Str := (hashes.get? h).getD (bracedHash h)

/-- Files with hashes: names are those of the hash file (atlas paths being converted), or the hash between braces. -/
theorem C32_atlas_hashed (hashes : Dict Nat Str) (atlases : List Nat) (textures : List (Texture Nat)) (post : Bytes)
    (hc : atlases.length < 256 ^ 4) (ha : ∀ h ∈ atlases, h < 256 ^ 8)
    (hn : textures.length < 256 ^ 4) (ht : ∀ t ∈ textures, t.name < 256 ^ 8 ∧ t.Fits ∧ t.atlas < atlases.length) :
    ∃ d, (parseAtlas hashes).run (atlasHashed atlases textures ++ post) = .ok d ∧ d.WF ∧
      ∀ name, d.get? name = (lastWith (fun t : Texture Nat => nameOf hashes t.name) textures name).map
        (fun t => ⟨match hashes.get? (atlases[t.atlas]?.getD 0) with
          | some p => convertCdragonPath p
          | none => bracedHash (atlases[t.atlas]?.getD 0), t.startX, t.startY, t.endX, t.endY⟩) := by
  let conv : Nat → Str := fun h => match hashes.get? h with
    | some p => convertCdragonPath p
    | none => bracedHash h
  let val : Texture Nat → AtlasItem := fun t => ⟨conv (atlases[t.atlas]?.getD 0), t.startX, t.startY, t.endX, t.endY⟩
  refine ⟨Dict.ofList (textures.map (fun t => (nameOf hashes t.name, val t))), ?_, Dict.WF.ofList _, fun name => get?_ofList_map _ _ _ _⟩
  apply Reads.run
  unfold parseAtlas atlasHashed
  refine Reads.bind (Reads.raw' rfl) ?_
  rw [if_pos rfl]
  refine Reads.map (a := textures.map (fun t => (nameOf hashes t.name, val t))) ?_ rfl
  unfold parseAtlasHashes
  refine Reads.bind (Reads.u hc) ?_
  have e1 : Reads (Rd.times (Rd.u 8) atlases.length) (atlases.flatMap (le 8)) atlases := by
    rw [← flatten_flatMap]
    exact Reads.times (fun s hs => Reads.u (ha s hs))
  refine Reads.bind e1 (Reads.bind (Reads.u hn) ?_)
  rw [← flatten_flatMap]
  refine Reads.timesMap (fun t h => ?_)
  obtain ⟨h1, h2, h3⟩ := ht t h
  refine Reads.bind (Reads.u h1) ?_
  have : (atlases.map conv)[t.atlas]? = some (conv (atlases[t.atlas]?.getD 0)) := by
    rw [List.getElem?_map, List.getElem?_eq_getElem h3]; rfl
  exact Reads.atlasItem h2 this _

/-- An atlas index out of range raises `IndexError`, when what comes before is valid. -/
theorem C32_atlas_index (hashes : Dict Nat Str) (atlases : List Str) (textures more : List (Texture Str)) (t : Texture Str) (post : Bytes)
    (hc : atlases.length < 256 ^ 4) (hm : atlases.length ≠ 0x41414d49) (ha : ∀ s ∈ atlases, Fits32 s)
    (hn : (textures ++ t :: more).length < 256 ^ 4) (ht : ∀ t ∈ textures, Fits32 t.name ∧ t.Fits ∧ t.atlas < atlases.length)
    (ht1 : Fits32 t.name) (ht2 : t.Fits) (ht3 : atlases.length ≤ t.atlas) :
    (parseAtlas hashes).run (atlasText atlases (textures ++ t :: more) ++ post) = .error .index := by
  have hfail : ∀ (p : Rd (Str × AtlasItem)) (ts : List (Texture Str)) (enc : Texture Str → Bytes) (dec : Texture Str → Str × AtlasItem) (n : Nat)
      (bad : Bytes) (pre post : Bytes), (∀ t ∈ ts, Reads p (enc t) (dec t)) →
      (∀ pre post, p (pre ++ bad ++ post) pre.length = .error .index) →
      Rd.times p (ts.length + (n + 1)) (pre ++ (ts.map enc).flatten ++ bad ++ post) pre.length = .error .index := by
    intro p ts enc dec n bad
    induction ts with
    | nil =>
      intro pre post _ hb
      simp only [List.length_nil, Nat.zero_add, Rd.times, List.map_nil, List.flatten_nil, List.append_nil]
      exact Rd.bind_error (hb pre post)
    | cons x ts ih =>
      intro pre post hr hb
      rw [List.length_cons, Nat.add_right_comm, Rd.times]
      have h1 := hr x (by simp) pre ((ts.map enc).flatten ++ bad ++ post)
      have e : pre ++ ((x :: ts).map enc).flatten ++ bad ++ post = pre ++ enc x ++ ((ts.map enc).flatten ++ bad ++ post) := by simp
      rw [e, Rd.bind_ok h1]
      have h2 := ih (pre ++ enc x) post (fun t ht => hr t (by simp [ht])) hb
      apply Rd.bind_error
      rw [← h2]
      simp
  unfold Rd.run
  have : parseAtlas hashes (atlasText atlases (textures ++ t :: more) ++ post) 0 = .error .index := by
    unfold parseAtlas
    have e0 : Reads (Rd.raw 4) (le 4 atlases.length) (le 4 atlases.length) := Reads.raw' (by simp)
    unfold atlasText
    have h0 := e0 [] (atlases.flatMap text32 ++ (le 4 (textures ++ t :: more).length ++ (textures ++ t :: more).flatMap (fun t => text32 t.name ++ t.tail)) ++ post)
    simp only [List.nil_append, List.length_nil, ← List.append_assoc] at h0
    simp only [← List.append_assoc]
    rw [Rd.bind_ok h0, if_neg, if_pos (by simp)]
    · apply Rd.bind_error
      rw [leNat_le _ _ hc]
      unfold parseAtlasStrings
      have e1 : Reads (Rd.times (do let s ← unpackString; pure (convertCdragonPath s)) atlases.length) (atlases.flatMap text32) (atlases.map convertCdragonPath) := by
        rw [← flatten_flatMap]
        exact Reads.timesMap (fun s hs => Reads.map (Reads.string (ha s hs)) rfl)
      have h1 := e1 (le 4 atlases.length) (le 4 (textures ++ t :: more).length ++ (textures ++ t :: more).flatMap (fun t => text32 t.name ++ t.tail) ++ post)
      simp only [← List.append_assoc] at h1
      rw [Nat.zero_add, Rd.bind_ok h1]
      have e2 : Reads (Rd.u 4) (le 4 (textures ++ t :: more).length) (textures ++ t :: more).length := Reads.u hn
      have h2 := e2 (le 4 atlases.length ++ atlases.flatMap text32) ((textures ++ t :: more).flatMap (fun t => text32 t.name ++ t.tail) ++ post)
      simp only [← List.append_assoc, List.length_append] at h2
      rw [List.length_append, Rd.bind_ok h2]
      have h3 := hfail (do let name ← unpackString; Cdtb.atlasItem (atlases.map convertCdragonPath) name) textures (fun t => text32 t.name ++ t.tail)
        (fun t => (t.name, atlasOf (convertCdragonPath (atlases[t.atlas]?.getD [])) t)) more.length (text32 t.name ++ t.tail)
        (le 4 atlases.length ++ atlases.flatMap text32 ++ le 4 (textures ++ t :: more).length) (more.flatMap (fun t => text32 t.name ++ t.tail) ++ post)
        (by
          intro t h
          obtain ⟨h1, h2, h3⟩ := ht t h
          refine Reads.bind (Reads.string h1) ?_
          have : (atlases.map convertCdragonPath)[t.atlas]? = some (convertCdragonPath (atlases[t.atlas]?.getD [])) := by
            rw [List.getElem?_map, List.getElem?_eq_getElem h3]; rfl
          exact Reads.atlasItem h2 this t.name)
        (by
          intro pre post
          have h := Reads.string ht1 pre (t.tail ++ post)
          rw [← List.append_assoc] at h
          rw [← List.append_assoc, Rd.bind_ok h]
          unfold Cdtb.atlasItem
          have h := (Reads.exact' (n := 20) (Texture.tail_length t).symm) (pre ++ text32 t.name) post
          rw [List.length_append] at h
          rw [Rd.bind_ok h]
          apply Rd.bind_error
          have h1 : (t.tail.drop 16).take 4 = le 4 t.atlas := by
            unfold Texture.tail
            rw [← List.append_assoc, ← List.append_assoc, ← List.append_assoc, List.drop_left' (by simp), List.take_of_length_le (by simp)]
          rw [h1, leNat_le _ _ ht2.atlas]
          unfold Rd.lift listItem
          rw [List.getElem?_eq_none (by simpa using ht3)])
      have el : (textures ++ t :: more).length = textures.length + (more.length + 1) := by simp
      simp only [List.length_append, ← List.append_assoc, flatten_flatMap] at h3
      simp only [List.flatMap_append, List.flatMap_cons, ← List.append_assoc, List.length_append, List.length_cons]
      exact h3
    · intro h
      have := congrArg leNat h
      rw [leNat_le _ _ hc] at this
      exact hm this
  rw [this]

/-- Champion skins: each champion gives its skins by id, the last one wins; a skin is a prestige one when its flag is 4. -/
theorem C32_skins (l : List Champion) (post : Bytes) (hn : l.length < 256 ^ 4) (hl : ∀ c ∈ l, c.Fits) :
    ∃ d, parseChampionSkins.run (skinsFile l ++ post) = .ok d ∧ d.WF ∧
      (∀ name, (d.get? name).isSome = (lastWith (fun c : Champion => c.name) l name).isSome) ∧
      ∀ name c, lastWith (fun c : Champion => c.name) l name = some c → ∃ skins, d.get? name = some skins ∧ skins.WF ∧
        ∀ id, skins.get? id = (lastWith (fun s : Skin => s.id) c.skins id).map (fun s => ⟨s.name, decide (s.flag = 4)⟩) := by
  let sk : Champion → Dict Nat SkinInfo := fun c => Dict.ofList (c.skins.map (fun s => (s.id, (⟨s.name, decide (s.flag = 4)⟩ : SkinInfo))))
  refine ⟨Dict.ofList (l.map (fun c => (c.name, sk c))), ?_, Dict.WF.ofList _, ?_, ?_⟩
  · apply Reads.run
    unfold parseChampionSkins skinsFile
    refine Reads.bind (Reads.exact' rfl) (Reads.bind (a := ()) ?_ (Reads.bind (Reads.u hn) ?_))
    · unfold checkSkins
      rw [if_neg (by simp)]
      have := Reads.map (f := fun version => if version ≠ 2 then Rd.fail (α := Unit) .value else pure ()) (b := ()) (Reads.u (w := 4) (n := 2) (by decide)) rfl
      exact this
    · refine Reads.map (a := l.map (fun c => (c.name, sk c))) ?_ rfl
      rw [← flatten_flatMap]
      refine Reads.timesMap (fun c hc => ?_)
      have hf := hl c hc
      unfold parseChampion Champion.bytes
      refine Reads.bind (Reads.string hf.name) (Reads.bind (Reads.u hf.count) ?_)
      refine Reads.map (a := c.skins.map (fun s => (s.id, (⟨s.name, decide (s.flag = 4)⟩ : SkinInfo)))) ?_ rfl
      rw [← flatten_flatMap]
      refine Reads.timesMap (fun s hs => ?_)
      have hs' := hf.skins s hs
      unfold parseSkin Skin.bytes
      exact Reads.bind (Reads.u hs'.id) (Reads.bind (Reads.u hs'.flag) (Reads.map (Reads.string hs'.name) rfl))
  · intro name
    rw [get?_ofList_map]; simp
  · intro name c h
    refine ⟨sk c, ?_, Dict.WF.ofList _, fun id => get?_ofList_map _ _ _ _⟩
    rw [get?_ofList_map, h]; rfl

/-- Wrong magic code or version -/
theorem C32_skins_errors :
    (∀ data, 4 ≤ data.length → data.take 4 ≠ [0x6d, 0x61, 0x68, 0x43] → parseChampionSkins.run data = .error .value) ∧
    (∀ version post, version < 256 ^ 4 → version ≠ 2 →
      parseChampionSkins.run ([0x6d, 0x61, 0x68, 0x43] ++ le 4 version ++ post) = .error .value) ∧
    (∀ data, data.length < 4 → parseChampionSkins.run data = .error .struct) := by
  refine ⟨?_, ?_, ?_⟩
  · intro data h1 h2
    unfold Rd.run parseChampionSkins
    have : Rd.exact 4 data 0 = .ok (data.take 4, 4) := by
      simp only [Rd.exact, Nat.zero_add, h1, if_true, List.drop_zero]
    rw [Rd.bind_ok this]
    rw [Rd.bind_error (e := .value)]
    unfold checkSkins
    rw [if_pos h2]; rfl
  · intro version post h1 h2
    unfold Rd.run parseChampionSkins
    have h := (Reads.exact' (n := 4) (bs := [0x6d, 0x61, 0x68, 0x43]) rfl) [] (le 4 version ++ post)
    simp only [List.nil_append, List.length_nil, ← List.append_assoc] at h
    rw [Rd.bind_ok h]
    rw [Rd.bind_error (e := .value)]
    unfold checkSkins
    rw [if_neg (by simp)]
    have h := (Reads.u h1) [0x6d, 0x61, 0x68, 0x43] post
    rw [Nat.zero_add, Rd.bind_ok h, if_pos h2]; rfl
  · intro data h
    unfold Rd.run parseChampionSkins
    rw [Rd.bind_error (e := .struct)]
    simp only [Rd.exact]
    rw [if_neg (by omega)]

/-- A text that is cut by the end of the file is silently shortened. -/
theorem C32_truncated (s t : Str) (h : Fits32 (s ++ t)) :
    unpackString.run (le 4 (utf8Bytes (s ++ t)).length ++ utf8Bytes s) = .ok s := by
  apply ReadsEnd.run
  unfold unpackString
  refine Reads.bindEnd (Reads.u h) ?_
  intro pre
  have h1 : Rd.raw (utf8Bytes (s ++ t)).length (pre ++ utf8Bytes s) pre.length = .ok (utf8Bytes s, pre.length + (utf8Bytes s).length) := by
    simp only [Rd.raw, List.drop_left, utf8Bytes_append]
    rw [List.take_of_length_le (by simp)]
  rw [Rd.bind_ok h1]
  simp [Rd.lift, utf8_utf8Bytes]

/-! Non-vacuity -/
example : (parseAtlas []).run (atlasText ["A/B.dds".toList] [⟨"t".toList, 1, 2, 3, 4, 0⟩]) = .ok [("t".toList, ⟨"a/b.png".toList, 1, 2, 3, 4⟩)] := by
  decide +kernel
example : (parseAtlas [(5, "x.tex".toList)]).run (atlasHashed [5, 6] [⟨5, 1, 2, 3, 4, 0⟩, ⟨7, 1, 2, 3, 4, 1⟩]) =
    .ok [("x.tex".toList, ⟨"x.png".toList, 1, 2, 3, 4⟩), ("{0000000000000007}".toList, ⟨"{0000000000000006}".toList, 1, 2, 3, 4⟩)] := by decide +kernel
example : parseChampionSkins.run (skinsFile [⟨"Annie".toList, [⟨1000, 0, "base".toList⟩, ⟨1001, 4, "p".toList⟩]⟩]) =
    .ok [("Annie".toList, [(1000, ⟨"base".toList, false⟩), (1001, ⟨"p".toList, true⟩)])] := by decide +kernel

/-! ## Cases that meet the hypotheses -/

/-- `C32_atlas_index`, `C32_truncated` -/
example : (parseAtlas []).run (atlasText ["a".toList] [⟨"t".toList, 1, 2, 3, 4, 1⟩]) = .error .index ∧
    unpackString.run [5, 0, 0, 0, 0x61, 0x62] = .ok "ab".toList := by decide +kernel

end Cdtb
