import Verif.Lemmas.GameJson
import Verif.Props.C72
import Verif.Props.C74
import Verif.Props.C79
import Verif.Props.C81
/-!
# C83: the JSON files of TFT and Arena data, and the two scripts
-/
namespace Cdtb
set_option autoImplicit false
open Py Spec

/-! ## Text -/

theorem Spec.KeyNames.str {w : JsonWriter} {name : Ser → Str} (hn : KeyNames w name) (s : Str) : name (.str s) = s := hn.given (.str s) s rfl
theorem Spec.KeyNames.int {w : JsonWriter} {name : Ser → Str} (hn : KeyNames w name) (n : Int) : name (.int n) = showInt n := hn.given (.int n) _ (hn.ints n)

/-- **C83, sorted members.** Written with `sort_keys`, data give a JSON text with the same value up to the order of members, which are sorted at all levels. -/
theorem C83_sorted (w : JsonWriter) (hg : GoodWriter w) (name : Ser → Str) (hn : KeyNames w name) (s s' : Ser) (level : Nat) (t : Str)
    (hs : sortKeys s = .ok s') (h : w.dumps level s' = .ok t) : ∃ v, JsonText t v ∧ SameJson (jsonOf w.showF name s) v ∧ OrderedJson v :=
  ⟨_, C79_denotes w hg name hn.given s' level t h, sortKeys_sorted w.showF name hn.str hn.int s s' hs⟩

theorem sortedBody_holds (w : JsonWriter) (hg : GoodWriter w) (name : Ser → Str) (hn : KeyNames w name) (r : Res Ser) (h : bodyErr (w.sortedBody r) = none) :
    ∃ s, r = .ok s ∧ HoldsSorted (bodyBytes (w.sortedBody r)) (jsonOf w.showF name s) := by
  cases r with
  | error e => exact absurd h (by simp [JsonWriter.sortedBody, Except.bind, bodyErr])
  | ok s =>
    refine ⟨s, rfl, ?_⟩
    cases hs : sortKeys s with
    | error e => exact absurd h (by simp [JsonWriter.sortedBody, Except.bind, hs, bodyErr])
    | ok s' =>
      cases ht : w.dumps 0 s' with
      | error e => exact absurd h (by simp [JsonWriter.sortedBody, Except.bind, hs, JsonWriter.textBody, ht, bodyErr])
      | ok t =>
        obtain ⟨v, h1, h2, h3⟩ := C83_sorted w hg name hn s s' 0 t hs ht
        have hb : bodyBytes (w.sortedBody (.ok s)) = utf8Bytes t := by
          simp [JsonWriter.sortedBody, Except.bind, hs, JsonWriter.textBody, ht, bodyBytes]
        exact ⟨t, v, by rw [hb, utf8_utf8Bytes], h1, h2, h3⟩

/-! ## Data -/

/-- **C83, Arena.** What is given to the JSON library is the list of augments with all their attributes; it exists exactly when no attribute is an object
that JSON cannot hold. -/
theorem C83_arena_data (num : Nat → Str) (name : Ser → Str) (hs : ∀ s, name (.str s) = s) (hi : ∀ n, name (.int n) = showInt n) (as : List Augment) (v : Json) :
    (∃ s, arenaSer as = .ok s ∧ jsonOf num name s = v) ↔ ArenaJson num name as v := arenaSer_rel hs hi as v

/-- **C83, TFT.** The same for sets, traits, champions and items. -/
theorem C83_tft_data (num : Nat → Str) (name : Ser → Str) (hs : ∀ s, name (.str s) = s) (hi : ∀ n, name (.int n) = showInt n) (t : TftTemplate TftPart) (v : Json) :
    (∃ s, tftSer t = .ok s ∧ jsonOf num name s = v) ↔ TftJson num (name .none) t v := tftSer_rel hs hi t v

/-! ## Files -/

/-- **C83, files of Arena.** After a successful export, the file of each language is a JSON text in UTF-8, with sorted members, for all the augments with the texts of
this language. -/
theorem C83_arena_files (lib : ArenaLib) (w : JsonWriter) (hg : GoodWriter w) (name : Ser → Str) (hn : KeyNames w name) (hl : lib.json = w.arenaBody)
    (version : Nat) (ls : Str → List Str) (input output : Str) (langs : Option (List Str)) (mk : Option (Nat × Err))
    (f : Nat → WriteFaults) (fs : FS) (tables : Dict Str Str) (ht : stringTables fs ls input "lol".toList = .ok tables)
    (hnd : (langs.getD tables.keys).Nodup) (hs : ∀ l ∈ langs.getD tables.keys, '/' ∉ l)
    (hsep : ∀ l ∈ langs.getD tables.keys, ∀ l' path, tables.get? l' = some path → Spec.langFile output l ≠ path)
    (hok : (arenaExport lib version ls input output langs mk f fs).2 = .ok ()) :
    ∃ as, Spec.ArenaData lib fs input as ∧ ∀ l ∈ langs.getD tables.keys, ∃ path data r bs bytes v, tables.get? l = some path ∧ fs path = some (.file data) ∧
      (parseRst lib.rst version).run data = .ok r ∧ List.Forall₂ (Spec.AugmentIn lib.rst r) as bs ∧ ArenaJson w.showF name bs v ∧
      (arenaExport lib version ls input output langs mk f fs).1 (Spec.langFile output l) = some (.file bytes) ∧ HoldsSorted bytes v := by
  rcases (C72_export lib version ls input output langs mk f fs tables ht hnd hs hsep).2 with ⟨-, as, h1, h2⟩ | ⟨e, he, -⟩ | ⟨e, _, _, _, _, he, -⟩
  · refine ⟨as, h1, fun l hl' => ?_⟩
    obtain ⟨path, data, r, bs, p1, p2, p3, p4, p5, p6⟩ := h2 l hl'
    rw [hl] at p5 p6
    obtain ⟨s, q1, q2⟩ := sortedBody_holds w hg name hn (arenaSer bs) p5
    exact ⟨path, data, r, bs, _, _, p1, p2, p3, p4, (C83_arena_data _ _ hn.str hn.int _ _).1 ⟨s, q1, rfl⟩, p6, q2⟩
  · rw [hok] at he; cases he
  · rw [hok] at he; cases he

/-- **C83, files of TFT.** The same for TFT. -/
theorem C83_tft_files (lib : TftOutLib) (w : JsonWriter) (hg : GoodWriter w) (name : Ser → Str) (hn : KeyNames w name) (hl : lib.json = w.tftBody)
    (version : Nat) (order : List Nat → List Nat) (hord : ∀ l, (order l).Perm l) (ls : Str → List Str) (input output : Str)
    (langs : Option (List Str)) (mk : Option (Nat × Err)) (f : Nat → WriteFaults) (fs : FS) (tables : Dict Str Str)
    (ht : stringTables fs ls input "tft".toList = .ok tables)
    (hnd : (langs.getD tables.keys).Nodup) (hs : ∀ l ∈ langs.getD tables.keys, '/' ∉ l)
    (hsep : ∀ l ∈ langs.getD tables.keys, ∀ l' path, tables.get? l' = some path → Spec.langFile output l ≠ path)
    (hok : (tftExportFiles lib version order ls input output langs mk f fs).2 = .ok ()) :
    ∃ t, Spec.TftData lib.tft fs input t ∧ ∀ l ∈ langs.getD tables.keys, ∃ path data table u bytes v, tables.get? l = some path ∧ fs path = some (.file data) ∧
      loadTranslations lib.rst version data = .ok table ∧ Spec.TftTranslated (Spec.tableText lib.rst table) t u ∧ TftJson w.showF (name .none) u v ∧
      (tftExportFiles lib version order ls input output langs mk f fs).1 (Spec.langFile output l) = some (.file bytes) ∧ HoldsSorted bytes v := by
  rcases (C74_export lib version order hord ls input output langs mk f fs tables ht hnd hs hsep).2 with ⟨-, t, h1, h2⟩ | ⟨e, he, -⟩ | ⟨e, _, _, _, _, he, -⟩
  · refine ⟨t, h1, fun l hl' => ?_⟩
    obtain ⟨path, data, table, u, p1, p2, p3, p4, p5, p6⟩ := h2 l hl'
    rw [hl] at p5 p6
    obtain ⟨s, q1, q2⟩ := sortedBody_holds w hg name hn (tftSer u) p5
    exact ⟨path, data, table, u, _, _, p1, p2, p3, p4, (C83_tft_data _ _ hn.str hn.int _ _).1 ⟨s, q1, rfl⟩, p6, q2⟩
  · rw [hok] at he; cases he
  · rw [hok] at he; cases he

/-! ## Writing succeeds -/

theorem dumpsObj_map (w : JsonWriter) (level : Nat) (l : List (Str × Ser)) (h : ∀ kv ∈ l, ∃ t, w.dumps level kv.2 = .ok t) : ∃ ts, w.dumpsObj level l = .ok ts := by
  induction l with
  | nil => exact ⟨_, rfl⟩
  | cons kv l ih =>
    obtain ⟨k, s⟩ := kv
    obtain ⟨t, ht⟩ := h (k, s) (by simp)
    obtain ⟨ts, hts⟩ := ih fun kv hkv => h kv (by simp [hkv])
    exact ⟨w.member k t :: ts, by rw [JsonWriter.dumpsObj, show w.dumps level s = .ok t from ht, hts]; rfl⟩

theorem dumpsDict_map (w : JsonWriter) (level : Nat) (l : List (Ser × Ser)) (hk : ∀ kv ∈ l, ∃ n, w.key kv.1 = .ok n) (h : ∀ kv ∈ l, ∃ t, w.dumps level kv.2 = .ok t) :
    ∃ ts, w.dumpsDict level l = .ok ts := by
  induction l with
  | nil => exact ⟨_, rfl⟩
  | cons kv l ih =>
    obtain ⟨k, s⟩ := kv
    obtain ⟨n, hn⟩ := hk (k, s) (by simp)
    obtain ⟨t, ht⟩ := h (k, s) (by simp)
    obtain ⟨ts, hts⟩ := ih (fun kv hkv => hk kv (by simp [hkv])) fun kv hkv => h kv (by simp [hkv])
    exact ⟨w.member n t :: ts, by
      rw [JsonWriter.dumpsDict, show w.key k = .ok n from hn, show w.dumps level s = .ok t from ht, hts]; rfl⟩

theorem dumpsList_map (w : JsonWriter) (level : Nat) (l : List Ser) (h : ∀ s ∈ l, ∃ t, w.dumps level s = .ok t) : ∃ ts, w.dumpsList level l = .ok ts := by
  induction l with
  | nil => exact ⟨_, rfl⟩
  | cons s l ih =>
    obtain ⟨t, ht⟩ := h s (by simp)
    obtain ⟨ts, hts⟩ := ih fun s hs => h s (by simp [hs])
    exact ⟨t :: ts, by rw [JsonWriter.dumpsList, ht, hts]; rfl⟩

theorem plain_dumps (w : JsonWriter) {name : Ser → Str} (hn : KeyNames w name) {s : Ser} (h : PlainKeys s) : ∀ level, ∃ t, w.dumps level s = .ok t := by
  induction h with
  | none | int | float | tuple | floats | matrix | str => exact fun _ => ⟨_, rfl⟩
  | bool b => intro _; cases b <;> exact ⟨_, rfl⟩
  | list l _ ih =>
    intro level
    obtain ⟨ts, hts⟩ := dumpsList_map w (level + 1) l fun s hs => ih s hs _
    exact ⟨w.brackets '[' ']' level ts, by rw [JsonWriter.dumps, hts]; rfl⟩
  | obj d _ ih =>
    intro level
    obtain ⟨ts, hts⟩ := dumpsObj_map w (level + 1) d fun s hs => ih s hs _
    exact ⟨w.brackets '{' '}' level ts, by rw [JsonWriter.dumps, hts]; rfl⟩
  | dict d hk _ ih =>
    intro level
    obtain ⟨ts, hts⟩ := dumpsDict_map w (level + 1) d (by
      intro kv hkv
      rcases hk with hk | hk
      · obtain ⟨s, hs⟩ := hk kv hkv
        rw [hs]; exact ⟨_, rfl⟩
      · obtain ⟨n, hs⟩ := hk kv hkv
        rw [hs]; exact ⟨_, hn.ints n⟩) fun s hs => ih s hs _
    exact ⟨w.brackets '{' '}' level ts, by rw [JsonWriter.dumps, hts]; rfl⟩

theorem sortList_map (l : List Ser) (h : ∀ s ∈ l, ∃ s', sortKeys s = .ok s' ∧ PlainKeys s') : ∃ l', sortList l = .ok l' ∧ ∀ s ∈ l', PlainKeys s := by
  induction l with
  | nil => exact ⟨[], rfl, by simp⟩
  | cons s l ih =>
    obtain ⟨s', h1, h2⟩ := h s (by simp)
    obtain ⟨l', h3, h4⟩ := ih fun s hs => h s (by simp [hs])
    refine ⟨s' :: l', by rw [sortList, h1, h3]; rfl, fun x hx => ?_⟩
    rcases List.mem_cons.1 hx with rfl | hx
    · exact h2
    · exact h4 x hx

theorem sortObj_map (l : List (Str × Ser)) (h : ∀ kv ∈ l, ∃ s', sortKeys kv.2 = .ok s' ∧ PlainKeys s') : ∃ l', sortObj l = .ok l' ∧ ∀ kv ∈ l', PlainKeys kv.2 := by
  induction l with
  | nil => exact ⟨[], rfl, by simp⟩
  | cons kv l ih =>
    obtain ⟨k, s⟩ := kv
    obtain ⟨s', h1, h2⟩ := h (k, s) (by simp)
    obtain ⟨l', h3, h4⟩ := ih fun s hs => h s (by simp [hs])
    refine ⟨(k, s') :: l', by rw [sortObj, show sortKeys s = .ok s' from h1, h3]; rfl, fun x hx => ?_⟩
    rcases List.mem_cons.1 hx with rfl | hx
    · exact h2
    · exact h4 x hx

theorem sortDict_map (l : List (Ser × Ser)) (h : ∀ kv ∈ l, ∃ s', sortKeys kv.2 = .ok s' ∧ PlainKeys s') :
    ∃ l', sortDict l = .ok l' ∧ (∀ kv ∈ l', PlainKeys kv.2) ∧ ∀ kv ∈ l', ∃ x, (kv.1, x) ∈ l := by
  induction l with
  | nil => exact ⟨[], rfl, by simp, by simp⟩
  | cons kv l ih =>
    obtain ⟨k, s⟩ := kv
    obtain ⟨s', h1, h2⟩ := h (k, s) (by simp)
    obtain ⟨l', h3, h4, h5⟩ := ih fun s hs => h s (by simp [hs])
    refine ⟨(k, s') :: l', by rw [sortDict, show sortKeys s = .ok s' from h1, h3]; rfl, fun x hx => ?_, fun x hx => ?_⟩
    · rcases List.mem_cons.1 hx with rfl | hx
      · exact h2
      · exact h4 x hx
    · rcases List.mem_cons.1 hx with rfl | hx
      · exact ⟨s, by simp⟩
      · obtain ⟨y, hy⟩ := h5 x hx
        exact ⟨y, by simp [hy]⟩

theorem plain_sorts {s : Ser} (h : PlainKeys s) : ∃ s', sortKeys s = .ok s' ∧ PlainKeys s' := by
  induction h with
  | none => exact ⟨_, rfl, .none⟩
  | int => exact ⟨_, rfl, .int _⟩
  | float => exact ⟨_, rfl, .float _⟩
  | tuple => exact ⟨_, rfl, .tuple _⟩
  | floats => exact ⟨_, rfl, .floats _⟩
  | matrix => exact ⟨_, rfl, .matrix _⟩
  | str => exact ⟨_, rfl, .str _⟩
  | bool => exact ⟨_, rfl, .bool _⟩
  | list l _ ih =>
    obtain ⟨l', h1, h2⟩ := sortList_map l ih
    exact ⟨.list l', by rw [sortKeys, h1]; rfl, .list _ h2⟩
  | obj d _ ih =>
    obtain ⟨l', h1, h2⟩ := sortObj_map d ih
    refine ⟨.obj (l'.insertionSort fun a b => a.1 ≤ b.1), by rw [sortKeys, h1]; rfl, .obj _ fun kv hkv => h2 kv ?_⟩
    exact (List.perm_insertionSort _ _).subset hkv
  | dict d hk _ ih =>
    obtain ⟨l', h1, h2, h3⟩ := sortDict_map d ih
    have hk' : (∀ kv ∈ l', ∃ s, kv.1 = .str s) ∨ ∀ kv ∈ l', ∃ n, kv.1 = .int n := by
      rcases hk with hk | hk
      · exact .inl fun kv hkv => by obtain ⟨x, hx⟩ := h3 kv hkv; exact hk (kv.1, x) hx
      · exact .inr fun kv hkv => by obtain ⟨x, hx⟩ := h3 kv hkv; exact hk (kv.1, x) hx
    have hsort : ∃ d', sortItems l' = .ok d' := by
      unfold sortItems
      split
      · exact ⟨_, rfl⟩
      · rcases hk' with hk' | hk'
        · rw [if_pos (by
            rw [List.all_eq_true]
            intro kv hkv
            obtain ⟨s, hs⟩ := hk' kv hkv
            rw [hs]; rfl)]
          exact ⟨_, rfl⟩
        · split
          · exact ⟨_, rfl⟩
          · rw [if_pos (by
              rw [List.all_eq_true]
              intro kv hkv
              obtain ⟨s, hs⟩ := hk' kv hkv
              rw [hs]; rfl)]
            exact ⟨_, rfl⟩
    obtain ⟨d', hd⟩ := hsort
    have hp := sortItems_perm hd
    refine ⟨.dict d', by rw [sortKeys, h1]; simp only [bind, Except.bind, hd], .dict _ ?_ fun kv hkv => h2 kv (hp.symm.subset hkv)⟩
    exact hk'.imp (fun h kv hkv => h kv (hp.symm.subset hkv)) fun h kv hkv => h kv (hp.symm.subset hkv)

/-- **C83, writing succeeds** when keys of each dict are texts, or are integers: nothing else stops the writing of data. -/
theorem C83_writes (w : JsonWriter) (name : Ser → Str) (hn : KeyNames w name) (s : Ser) (h : PlainKeys s) : bodyErr (w.sortedBody (.ok s)) = none := by
  obtain ⟨s', h1, h2⟩ := plain_sorts h
  obtain ⟨t, ht⟩ := plain_dumps w hn h2 0
  simp [JsonWriter.sortedBody, Except.bind, h1, JsonWriter.textBody, ht, bodyErr]

/-- **C83, keys of different types.** A dict with a text and an integer among its keys cannot be written: `TypeError`, and nothing is written in the file. -/
theorem C83_mixed (w : JsonWriter) (d : List (Ser × Ser)) (s : Str) (n : Int) (x y : Ser) (hs : (.str s, x) ∈ d) (hi : (.int n, y) ∈ d)
    (hp : ∀ kv ∈ d, PlainKeys kv.2) : w.sortedBody (.ok (.dict d)) = [.raise .type] := by
  obtain ⟨l', h1, -, h3⟩ := sortDict_map d fun kv hkv => plain_sorts (hp kv hkv)
  have hk := (sortDict_sorted (fun _ => []) (fun k => match k with | .str s => s | .int n => showInt n | _ => []) (fun _ => rfl) (fun _ => rfl) d l' h1).1
  have m1 : Ser.str s ∈ l'.map Prod.fst := by rw [← hk]; exact List.mem_map.2 ⟨_, hs, rfl⟩
  have m2 : Ser.int n ∈ l'.map Prod.fst := by rw [← hk]; exact List.mem_map.2 ⟨_, hi, rfl⟩
  obtain ⟨a, ha, ea⟩ := List.mem_map.1 m1
  obtain ⟨b, hb, eb⟩ := List.mem_map.1 m2
  have hsort : sortItems l' = .error .type := by
    unfold sortItems
    rw [if_neg, if_neg, if_neg]
    · rw [List.all_eq_true]
      intro h
      have := h a ha
      rw [ea] at this
      cases this
    · rw [List.all_eq_true]
      intro h
      have := h b hb
      rw [eb] at this
      cases this
    · intro hl
      match l', hl with
      | [], _ => cases ha
      | [z], _ =>
        simp only [List.mem_singleton] at ha hb
        rw [ha] at ea
        rw [hb, ea] at eb
        cases eb
  simp only [JsonWriter.sortedBody, Except.bind, sortKeys, h1, bind, hsort]

/-! ## Scripts -/

theorem scriptParser_ok (dir : Str) : ParserOk (scriptParser dir) := (parserOk_of_check (p := scriptParser dir) (by rfl)).1

theorem patchVersion_main {s : Str} {v : Version} (h : patchVersion (.str s) = .ok v) (hv : v.t = .main) : s = "main".toList := by
  by_contra hs
  unfold patchVersion at h
  rw [if_neg (by intro e; injection e with e; exact hs e), gj_bind] at h
  obtain ⟨w, -, h⟩ := h
  generalize hb : w.t = t at h
  cases t with
  | main => cases h
  | nums t =>
    simp only at h
    split at h
    · rename_i t' ht'
      split at h
      · cases h
        rw [hv] at ht'
        cases ht'
      · cases h
    · cases h

theorem scriptVersion_cases (arg : Option Str) :
    ((arg = none ∨ arg = some [] ∨ arg = some "main".toList) ∧ scriptVersion arg = .ok 9999) ∨
    (∃ s v a b, arg = some s ∧ patchVersion (.str s) = .ok v ∧ v.t = .nums [a, b] ∧ scriptVersion arg = .ok (100 * a + b)) ∨
    ∃ s e, arg = some s ∧ s ≠ [] ∧ patchVersion (.str s) = .error e ∧ scriptVersion arg = .error e := by
  have hmain : patchVersion (.str "main".toList) = .ok ⟨"main".toList, .main⟩ := by rfl
  match arg with
  | none => exact .inl ⟨.inl rfl, by unfold scriptVersion; simp only [hmain]; rfl⟩
  | some [] => exact .inl ⟨.inr (.inl rfl), by unfold scriptVersion; simp only [hmain]; rfl⟩
  | some (c :: s) =>
    unfold scriptVersion
    cases hv : patchVersion (.str (c :: s)) with
    | error e => exact .inr (.inr ⟨c :: s, e, rfl, by simp, hv, rfl⟩)
    | ok v =>
      rcases patchVersion_cases hv with ⟨h1, h2⟩ | ⟨a, b, h1, h2⟩
      · left
        refine ⟨.inr (.inr ?_), by simp only [hv, bind, Except.bind, Version.asInt, h1]⟩
        rw [patchVersion_main hv h1]
      · exact .inr (.inl ⟨_, v, a, b, rfl, hv, h1, by simp only [hv, bind, Except.bind, Version.asInt, h1]; rw [Int.mul_comm]⟩)

/-- The value of an option of the scripts -/
theorem script_tells {dir : Str} {gs : List GivenOpt} (hg : ∀ g ∈ gs, g.Fits (scriptParser dir).opts) {attr : Str} {d v : ArgVal}
    (h : Tells gs attr d v) : v = d ∨ ∃ s, v = .str s := by
  have hk : ∀ g ∈ gs, g.opt.kind = .help ∨ ∃ c, g.opt.kind = .one c := by
    intro g hgm
    have := (hg g hgm).1
    simp only [scriptParser, List.mem_cons, List.not_mem_nil, or_false] at this
    rcases this with h | h | h <;> rw [h]
    · exact .inl rfl
    · exact .inr ⟨_, rfl⟩
    · exact .inr ⟨_, rfl⟩
  cases h with
  | default _ => exact .inl rfl
  | last a g b _ he hd _ hs =>
    right
    unfold GivenOpt.Says at hs
    rcases hk g (by rw [he]; simp) with h | ⟨c, h⟩ <;> rw [h] at hs
    · cases hs
    · obtain ⟨s, -, rfl⟩ := hs
      exact ⟨s, rfl⟩
  | all h1 h2 =>
    obtain ⟨g, hgm, hd⟩ := h1
    rcases hk g hgm with h | ⟨c, h⟩ <;> rw [h2 g hgm hd] at h <;> cases h

/-- What the scripts do with the arguments -/
theorem script_args (dir : Str) (before after : List GivenOpt) (input : Str) (hg : ∀ g ∈ before ++ after, g.Fits (scriptParser dir).opts) (hw : PlainWord input) :
    ∃ ns output version, (scriptParser dir).parse (optWords before ++ input :: optWords after) = .ok ns ∧ scriptArgs ns = (input, output, version) ∧
      Tells (before ++ after) "output".toList (.str dir) (.str output) ∧
      Tells (before ++ after) "patch_version".toList .none (version.elim .none .str) := by
  have hp := scriptParser_ok dir
  obtain ⟨ns, h1, h2, h3⟩ := parse_plain hp before after (fun g h => hg g (by simp [h])) (fun g h => hg g (by simp [h])) [input] (by simpa using hw)
    (by
      rintro - ⟨g, hl, hm⟩
      have := (hg g (by simp [List.mem_of_getLast? hl])).1
      simp only [scriptParser, List.mem_cons, List.not_mem_nil, or_false] at this
      rcases this with h | h | h <;> rw [h] at hm <;> cases hm) (.str input) ⟨input, rfl, rfl⟩
  rw [List.append_assoc] at h1
  have ht := tells_all hp (before ++ after) hg ns h2
  have hdef : ∀ attr d, DefaultOf (scriptParser dir).opts attr d → (attr = "output".toList ∧ d = .str dir) ∨ (attr = "patch_version".toList ∧ d = .none) := by
    rintro attr d ⟨a, o, b, he, hd, hk, rfl, -⟩
    have : o ∈ (scriptParser dir).opts := by rw [he]; simp
    simp only [scriptParser, List.mem_cons, List.not_mem_nil, or_false] at this
    rcases this with h | h | h
    · rw [h] at hk; exact absurd rfl hk
    · rw [h] at hd; exact .inl ⟨hd.symm, by rw [h]; rfl⟩
    · rw [h] at hd; exact .inr ⟨hd.symm, by rw [h]; rfl⟩
  obtain ⟨d1, v1, e1, g1, t1⟩ := ht (optOne ["-o", "--output"] "output" (.str dir)) (by simp [scriptParser]) (by simp [optOne])
  obtain ⟨d2, v2, e2, g2, t2⟩ := ht (optOne ["-V", "--patch-version"] "patch_version") (by simp [scriptParser]) (by simp [optOne])
  have hi := h3 _ rfl
  have e1' : d1 = .str dir := by
    rcases hdef _ _ e1 with ⟨-, h⟩ | ⟨h, -⟩
    · exact h
    · exact absurd (show "output".toList = "patch_version".toList from h) (by decide)
  have e2' : d2 = .none := by
    rcases hdef _ _ e2 with ⟨h, -⟩ | ⟨-, h⟩
    · exact absurd (show "patch_version".toList = "output".toList from h) (by decide)
    · exact h
  subst e1' e2'
  have o1 : ∃ out, v1 = .str out := by
    rcases script_tells hg t1 with h | h
    · exact ⟨dir, h⟩
    · exact h
  have o2 : ∃ ver : Option Str, v2 = ver.elim .none .str := by
    rcases script_tells hg t2 with h | ⟨s, h⟩
    · exact ⟨none, h⟩
    · exact ⟨some s, h⟩
  obtain ⟨out, rfl⟩ := o1
  obtain ⟨ver, rfl⟩ := o2
  refine ⟨ns, out, ver, h1, ?_, t1, t2⟩
  show (((ns.get? "input".toList).bind ArgVal.text?).getD [], ((ns.get? "output".toList).bind ArgVal.text?).getD [],
    (ns.get? "patch_version".toList).bind ArgVal.text?) = _
  rw [show ns.get? "input".toList = some (.str input) from hi, show ns.get? "output".toList = some (.str out) from g1,
    show ns.get? "patch_version".toList = some _ from g2]
  cases ver <;> rfl

/-- **C83, `arenadata.py`.** With an input directory and options in any order: the augments are exported to the directory of the last `-o` (`arena` by default), for
the last version given by `-V` (the latest one by default), or nothing is done when this is not a version. -/
theorem C83_arena_script (lib : ArenaLib) (ls : Str → List Str) (mk : Option (Nat × Err)) (f : Nat → WriteFaults) (fs : FS)
    (before after : List GivenOpt) (input : Str) (hg : ∀ g ∈ before ++ after, g.Fits (scriptParser "arena".toList).opts) (hw : PlainWord input) :
    ∃ output version, Tells (before ++ after) "output".toList (.str "arena".toList) (.str output) ∧ Tells (before ++ after) "patch_version".toList .none version ∧
      (((version = .none ∨ version = .str [] ∨ version = .str "main".toList) ∧
          arenaMain lib ls mk f (optWords before ++ input :: optWords after) fs = .ok (arenaExport lib 9999 ls input output none mk f fs)) ∨
       (∃ s v a b, version = .str s ∧ patchVersion (.str s) = .ok v ∧ v.t = .nums [a, b] ∧
          arenaMain lib ls mk f (optWords before ++ input :: optWords after) fs = .ok (arenaExport lib (100 * a + b).toNat ls input output none mk f fs)) ∨
       ∃ s e, version = .str s ∧ s ≠ [] ∧ patchVersion (.str s) = .error e ∧
          arenaMain lib ls mk f (optWords before ++ input :: optWords after) fs = .ok (fs, .error e)) := by
  obtain ⟨ns, output, version, h1, h2, h3, h4⟩ := script_args _ before after input hg hw
  refine ⟨output, version.elim .none .str, h3, h4, ?_⟩
  unfold arenaMain
  simp only [h1, bind, Except.bind, h2]
  rcases scriptVersion_cases version with ⟨hv, h⟩ | ⟨s, v, a, b, rfl, hv, hv', h⟩ | ⟨s, e, rfl, hs, hv, h⟩
  · left
    rw [h]
    refine ⟨?_, rfl⟩
    rcases hv with rfl | rfl | rfl
    · exact .inl rfl
    · exact .inr (.inl rfl)
    · exact .inr (.inr rfl)
  · right; left
    rw [h]
    exact ⟨s, v, a, b, rfl, hv, hv', rfl⟩
  · right; right
    rw [h]
    exact ⟨s, e, rfl, hs, hv, rfl⟩

/-- **C83, `tftdata.py`.** The same for TFT, with `tft` as default output directory. -/
theorem C83_tft_script (lib : TftOutLib) (order : List Nat → List Nat) (ls : Str → List Str) (mk : Option (Nat × Err)) (f : Nat → WriteFaults) (fs : FS)
    (before after : List GivenOpt) (input : Str) (hg : ∀ g ∈ before ++ after, g.Fits (scriptParser "tft".toList).opts) (hw : PlainWord input) :
    ∃ output version, Tells (before ++ after) "output".toList (.str "tft".toList) (.str output) ∧ Tells (before ++ after) "patch_version".toList .none version ∧
      (((version = .none ∨ version = .str [] ∨ version = .str "main".toList) ∧
          tftMain lib order ls mk f (optWords before ++ input :: optWords after) fs = .ok (tftExportFiles lib 9999 order ls input output none mk f fs)) ∨
       (∃ s v a b, version = .str s ∧ patchVersion (.str s) = .ok v ∧ v.t = .nums [a, b] ∧
          tftMain lib order ls mk f (optWords before ++ input :: optWords after) fs =
            .ok (tftExportFiles lib (100 * a + b).toNat order ls input output none mk f fs)) ∨
       ∃ s e, version = .str s ∧ s ≠ [] ∧ patchVersion (.str s) = .error e ∧
          tftMain lib order ls mk f (optWords before ++ input :: optWords after) fs = .ok (fs, .error e)) := by
  obtain ⟨ns, output, version, h1, h2, h3, h4⟩ := script_args _ before after input hg hw
  refine ⟨output, version.elim .none .str, h3, h4, ?_⟩
  unfold tftMain
  simp only [h1, bind, Except.bind, h2]
  rcases scriptVersion_cases version with ⟨hv, h⟩ | ⟨s, v, a, b, rfl, hv, hv', h⟩ | ⟨s, e, rfl, hs, hv, h⟩
  · left
    rw [h]
    refine ⟨?_, rfl⟩
    rcases hv with rfl | rfl | rfl
    · exact .inl rfl
    · exact .inr (.inl rfl)
    · exact .inr (.inr rfl)
  · right; left
    rw [h]
    exact ⟨s, v, a, b, rfl, hv, hv', rfl⟩
  · right; right
    rw [h]
    exact ⟨s, e, rfl, hs, hv, rfl⟩

/-- **C83, no input.** Without the input directory, the scripts stop with a usage error. -/
theorem C83_no_input (aLib : ArenaLib) (tLib : TftOutLib) (order : List Nat → List Nat) (ls : Str → List Str) (mk : Option (Nat × Err)) (f : Nat → WriteFaults) (fs : FS)
    (gs : List GivenOpt) :
    ((∀ g ∈ gs, g.Fits (scriptParser "arena".toList).opts) → arenaMain aLib ls mk f (optWords gs) fs = .error .usage) ∧
    ((∀ g ∈ gs, g.Fits (scriptParser "tft".toList).opts) → tftMain tLib order ls mk f (optWords gs) fs = .error .usage) := by
  have key : ∀ dir, (∀ g ∈ gs, g.Fits (scriptParser dir).opts) → (scriptParser dir).parse (optWords gs) = .error .usage := fun dir h =>
    parse_missing (scriptParser_ok dir) rfl (.inl ⟨_, rfl⟩) gs h
  exact ⟨fun h => by unfold arenaMain; rw [key _ h]; rfl, fun h => by unfold tftMain; rw [key _ h]; rfl⟩

/-! ## Examples -/

/-- The standard library -/
def gameWriter : JsonWriter := stdJson4 fun _ => "0.0".toList
def arenaJsonLib : ArenaLib := { arenaExLib with json := gameWriter.arenaBody }
def tftJsonLib : TftOutLib := { tftOutLib with json := gameWriter.tftBody }

/-- Hypotheses on the library: the standard one -/
theorem gameWriter_good : GoodWriter gameWriter ∧ KeyNames gameWriter (fun k => match gameWriter.key k with | .ok n => n | .error _ => []) := by
  have hw : ∀ n, JsonWs ('\n' :: List.replicate (4 * n) ' ') := by
    intro n c hc
    rcases List.mem_cons.1 hc with rfl | hc
    · exact .inr (.inl rfl)
    · exact .inl (List.eq_of_mem_replicate hc)
  refine ⟨⟨fun _ => .inl ⟨[], ['0'], ['.', '0'], [], rfl, .inl rfl, ⟨⟨by simp, by simp⟩, .inl rfl⟩, .inr ⟨['0'], rfl, by simp, by simp⟩, .inl rfl⟩,
    ⟨(by intro c hc; cases hc), by intro c hc; exact .inl (by simpa [gameWriter, stdJson4, stdJson] using hc)⟩, hw, hw, hw⟩, ⟨?_, fun _ => rfl, ?_⟩⟩
  · intro k n h
    simp only [h]
  · exact ⟨"true".toList, "false".toList, rfl, rfl, by decide⟩

/-- The script on a directory with an augment: the whole text of the file -/
theorem C83_arena_met : (match arenaMain arenaJsonLib arenaExLs none (fun _ => {}) ["-o".toList, "out".toList, "in".toList] arenaExFS with
    | .ok (fs, .ok ()) => fs "out/fr_fr.json".toList
    | _ => none) = some (.file (utf8Bytes (join ['\n'] (["{", "    \"augments\": [", "        {", "            \"apiName\": null,", "            \"calculations\": {},",
      "            \"dataValues\": {},", "            \"desc\": null,", "            \"iconLarge\": \"none\",", "            \"iconSmall\": \"a/b.png\",",
      "            \"id\": null,", "            \"name\": \"Hi\",", "            \"rarity\": 0,", "            \"tooltip\": null", "        }", "    ]", "}"].map
        String.toList)))) := by decide +kernel

/-- TFT -/
theorem C83_tft_met : (match tftMain tftJsonLib id tftOutLs none (fun _ => {}) ["d/game".toList, "-V".toList, "14.2".toList] tftOutFS with
    | .ok (fs, .ok ()) => (fs "tft/fr_fr.json".toList).map fun n => match n with
      | .file b => List.isPrefixOf (utf8Bytes (join ['\n'] (["{", "    \"items\": [", "        {", "            \"apiName\": \"I\","].map String.toList))) b
      | .dir => false
    | _ => none) = some true := by decide +kernel

/-- Integers are sorted as integers, texts by code points; mixed keys are refused -/
example : (gameWriter.sortedBody (.ok (.dict [(.int 10, .none), (.int 9, .obj [("b".toList, .int 1), ("B".toList, .int 2)])]))) =
      [.write (utf8Bytes "{\n    \"9\": {\n        \"B\": 2,\n        \"b\": 1\n    },\n    \"10\": null\n}".toList)] ∧
    gameWriter.sortedBody (.ok (.dict [(.int 10, .none), (.str "a".toList, .none)])) = [.raise .type] := by decide +kernel

end Cdtb
