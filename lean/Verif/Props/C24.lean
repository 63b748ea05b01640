import Verif.Spec.BinSer
import Verif.Lemmas.Hex
import Verif.Lemmas.Dict
import Mathlib.Data.List.Forall2
/-!
# C24 JSON serialization of BIN objects
-/
namespace Cdtb
set_option autoImplicit false
open Py Spec

/-- The displayed text of a hash, in the model -/
def BinEnv.show' (env : BinEnv) (kind : BinHashKind) (h : Nat) : Str := (env.mk' kind h).str

/-- Hashed names are displayed as the known text, or their hexadecimal hash between braces. -/
theorem C24_display (env : BinEnv) (kind : BinHashKind) (h : Nat) :
    (env.mk' kind h).str = displayed (fun k n => (env.known k).get? n) kind h := by
  unfold BinHash.str BinEnv.mk' displayed BinHash.hex
  simp only
  rcases (env.known kind).get? h with _ | s
  · cases kind <;> rfl
  · rfl

/-- Distinct unresolved hashes of a kind are displayed differently, and those that fit are displayed with 8 digits
(16 for paths) -/
theorem C24_display_distinct (env : BinEnv) (kind : BinHashKind) (a b : Nat)
    (ha : (env.known kind).get? a = none) (hb : (env.known kind).get? b = none)
    (h : (env.mk' kind a).str = (env.mk' kind b).str) : a = b := by
  rw [C24_display, C24_display] at h
  unfold displayed at h
  simp only [ha, hb, List.cons_append, List.nil_append, List.cons.injEq, true_and] at h
  have h := List.append_cancel_right h
  rw [← hexValue_hexW (if kind = .path then 16 else 8) a, h, hexValue_hexW]

theorem C24_display_length (env : BinEnv) (kind : BinHashKind) (a : Nat) (ha : (env.known kind).get? a = none) :
    (kind ≠ .path → a < 2 ^ 32 → (env.mk' kind a).str.length = 10) ∧
    (kind = .path → a < 2 ^ 64 → (env.mk' kind a).str.length = 18) := by
  rw [C24_display]
  unfold displayed
  simp only [ha]
  constructor
  · intro hk h
    rw [if_neg hk]
    have : (hexW 8 a).length = 8 := hexW_length (w := 7) (n := a) (by norm_num; omega)
    simp only [List.length_append, List.length_cons, List.length_nil]; omega
  · intro hk h
    rw [if_pos hk]
    have : (hexW 16 a).length = 16 := hexW_length (w := 15) (n := a) (by norm_num; omega)
    simp only [List.length_append, List.length_cons, List.length_nil]; omega

theorem serFields_eq (env : BinEnv) (d : Dict Str Ser) (fields : List BinField) (ss : List Ser)
    (h : List.Forall₂ (fun f s => ser env f.value = .ok s) fields ss) :
    serFields env d fields = .ok (((fields.map (fun f => (env.mk' .field f.name).str)).zip ss).foldl (fun d kv => d.set kv.1 kv.2) d) := by
  induction h generalizing d with
  | nil => rfl
  | @cons f s fields ss h1 _ ih =>
    obtain ⟨name, t, v⟩ := f
    rw [serFields]
    have h1 : ser env v = .ok s := h1
    rw [h1]
    exact ih _

/-- The serialized form of an object (struct, embedded object, entry) has exactly one key per distinct displayed
field name, plus `__type`; under a name, the value of the last field with this displayed name. -/
theorem C24_object (env : BinEnv) (htype : Nat) (fields : List BinField) (ss : List Ser)
    (h : List.Forall₂ (fun f s => ser env f.value = .ok s) fields ss) :
    ∃ d : Dict Str Ser, ser env (.embedded htype fields) = .ok (.obj d) ∧
      (htype ≠ 0 → ser env (.struct htype fields) = .ok (.obj d)) ∧
      (∀ path, BinEntry.ser env ⟨path, htype, fields⟩ = .ok (.obj d)) ∧
      d.keys.Nodup ∧
      (∀ k, k ∈ d.keys ↔ k = "__type".toList ∨ ∃ f ∈ fields, k = (env.mk' .field f.name).str) ∧
      d.get? "__type".toList = some (.str (env.mk' .type htype).str) ∧
      (∀ before f s after sb sa, fields = before ++ f :: after → ss = sb ++ s :: sa → sb.length = before.length →
        (env.mk' .field f.name).str ≠ "__type".toList →
        (∀ g ∈ after, (env.mk' .field g.name).str ≠ (env.mk' .field f.name).str) →
        d.get? (env.mk' .field f.name).str = some s) := by
  have he := serFields_eq env [] fields ss h
  have hlen := h.length_eq
  generalize hd : ((fields.map (fun f => (env.mk' .field f.name).str)).zip ss).foldl (fun d kv => Dict.set d kv.1 kv.2) ([] : Dict Str Ser) = d at he
  refine ⟨d.set "__type".toList (.str (env.mk' .type htype).str), ?_, ?_, ?_, ?_, ?_, ?_, ?_⟩
  · rw [ser, he]; rfl
  · intro h0; rw [ser, he]; simp only [Bind.bind, Except.bind, if_neg h0]; rfl
  · intro path; unfold BinEntry.ser; rw [he]; rfl
  · apply Dict.WF.set
    rw [← hd]
    exact Dict.WF.foldl_set (f := fun x : Str × Ser => x.1) (g := fun x => x.2) _ [] .nil
  · intro k
    have hk : k ∈ d.keys ↔ ∃ f ∈ fields, k = (env.mk' .field f.name).str := by
      rw [← hd, Dict.mem_keys_foldl_set, List.map_fst_zip (by simp [hlen])]
      simp only [Dict.keys, List.map_nil, List.not_mem_nil, false_or, List.mem_map]
      constructor
      · rintro ⟨f, hf, e⟩; exact ⟨f, hf, e.symm⟩
      · rintro ⟨f, hf, e⟩; exact ⟨f, hf, e.symm⟩
    rw [Dict.keys_set, ← hk]
    by_cases hm : "__type".toList ∈ d.keys
    · rw [if_pos hm]
      constructor
      · exact Or.inr
      · rintro (rfl | h); exact hm; exact h
    · rw [if_neg hm, List.mem_append, List.mem_singleton]
      exact or_comm
  · exact Dict.get?_set_self _ _ _
  · intro before f s after sb sa e1 e2 e3 hne hl
    rw [Dict.get?_set_ne _ _ hne, ← hd, Dict.get?_foldl_set, e1, e2, List.map_append, List.map_cons,
      List.zip_append (by simp [e3]), List.zip_cons_cons, List.reverse_append, List.find?_append,
      List.reverse_cons, List.find?_append]
    have : List.find? (fun kv : Str × Ser => decide (kv.1 = (env.mk' .field f.name).str))
        ((after.map (fun f => (env.mk' .field f.name).str)).zip sa).reverse = none := by
      rw [List.find?_eq_none]
      intro x hx
      have hx := List.of_mem_zip (List.mem_reverse.1 hx)
      obtain ⟨g, hg, e⟩ := List.mem_map.1 hx.1
      rw [decide_eq_true_eq, ← e]
      exact hl g hg
    rw [this, List.find?_cons_of_pos (by simp)]
    rfl

/-- A null struct is serialized as null. -/
theorem C24_null (env : BinEnv) : ser env (.struct 0 []) = .ok .none := by
  rw [ser, serFields]; rfl

theorem hashable_of_not_container {s : Ser} (h : ¬ Ser.IsContainer s) : s.hashable = true := by
  cases s <;> first | rfl | exact absurd trivial h

theorem serSet_new (d : List (Ser × Ser)) (k v : Ser) (h : ∀ kv ∈ d, ¬ kv.1.sameKey k) : serSet d k v = d ++ [(k, v)] := by
  induction d with
  | nil => rfl
  | cons x d ih =>
    obtain ⟨k', v'⟩ := x
    rw [serSet, if_neg (h (k', v') (List.mem_cons_self)), ih (fun kv hkv => h kv (List.mem_cons_of_mem _ hkv))]
    rfl

theorem foldl_set_nodup (l : List (Str × Ser)) (h : (l.map (·.1)).Nodup) :
    l.foldl (fun d kv => Dict.set d kv.1 kv.2) [] = l := Dict.ofList_of_nodup h

theorem object_items (env : BinEnv) (fields : List BinField) (ss : List Ser) (htype : Nat)
    (h : List.Forall₂ (fun f s => ser env f.value = .ok s) fields ss)
    (hc : NoClash (fields.map (fun f => env.show' .field f.name))) :
    ∃ d, serFields env [] fields = .ok d ∧ d.set "__type".toList (.str (env.mk' .type htype).str) =
      objectItems (fields.map (fun f => env.show' .field f.name)) ss (env.show' .type htype) := by
  refine ⟨_, serFields_eq env [] fields ss h, ?_⟩
  have hl : (fields.map (fun f => (env.mk' .field f.name).str)).length ≤ ss.length := by simp [h.length_eq]
  have hk : ((fields.map (fun f => (env.mk' .field f.name).str)).zip ss).map (·.1) = fields.map (fun f => (env.mk' .field f.name).str) :=
    List.map_fst_zip hl
  rw [foldl_set_nodup _ (by rw [hk]; exact hc.1), Dict.set_of_not_mem]
  · rfl
  · unfold Dict.keys; rw [hk]; exact hc.2

mutual
theorem shows_ser (env : BinEnv) (v : BinValue) (s : Ser) (h : Shows env.show' v s) : ser env v = .ok s := by
  cases h with
  | tuple l => rfl
  | bool b => rfl
  | int n => rfl
  | float b => rfl
  | floats l => rfl
  | matrix l => rfl
  | str s => rfl
  | hashed k h => rfl
  | list t vs ss h => rw [ser, showsList_ser env vs ss h]; rfl
  | null => exact C24_null env
  | struct htype fs ss h0 h hc =>
    obtain ⟨d, e1, e2⟩ := object_items env fs ss htype (showsFields_ser env fs ss h) hc
    rw [ser, e1]
    simp only [Bind.bind, Except.bind, if_neg h0, e2]
    rfl
  | embedded htype fs ss h hc =>
    obtain ⟨d, e1, e2⟩ := object_items env fs ss htype (showsFields_ser env fs ss h) hc
    rw [ser, e1]
    simp only [Bind.bind, Except.bind, e2]
    rfl
  | nothing t => rfl
  | some t v s h => rw [ser]; exact shows_ser env v s h
  | map kt vt ps d h hh hp =>
    rw [ser, showsPairs_ser env ps d h [] hh hp (by simp)]
    rfl
theorem showsList_ser (env : BinEnv) (vs : List BinValue) (ss : List Ser) (h : ShowsList env.show' vs ss) :
    serList env vs = .ok ss := by
  cases h with
  | nil => rfl
  | cons v s vs ss h1 h2 => rw [serList, shows_ser env v s h1, showsList_ser env vs ss h2]; rfl
theorem showsFields_ser (env : BinEnv) (fs : List BinField) (ss : List Ser) (h : ShowsFields env.show' fs ss) :
    List.Forall₂ (fun f s => ser env f.value = .ok s) fs ss := by
  cases h with
  | nil => exact .nil
  | cons name t v s fs ss h1 h2 => exact .cons (shows_ser env v s h1) (showsFields_ser env fs ss h2)
theorem showsPairs_ser (env : BinEnv) (ps : List BinPair) (d : List (Ser × Ser)) (h : ShowsPairs env.show' ps d)
    (d0 : List (Ser × Ser)) (hh : ∀ kv ∈ d, ¬ Ser.IsContainer kv.1) (hp : d.Pairwise (fun a b => ¬ a.1.sameKey b.1))
    (h0 : ∀ a ∈ d0, ∀ b ∈ d, ¬ a.1.sameKey b.1) : serPairs env d0 ps = .ok (d0 ++ d) := by
  cases h with
  | nil => rw [serPairs, List.append_nil]
  | cons k v sk sv ps d h1 h2 h3 =>
    rw [serPairs, shows_ser env k sk h1, shows_ser env v sv h2]
    simp only [Bind.bind, Except.bind]
    rw [if_pos (hashable_of_not_container (hh (sk, sv) (List.mem_cons_self))),
      serSet_new d0 sk sv (fun kv hkv => h0 kv hkv (sk, sv) (List.mem_cons_self)),
      showsPairs_ser env ps d h3 (d0 ++ [(sk, sv)]) (fun kv hkv => hh kv (List.mem_cons_of_mem _ hkv))
        (List.pairwise_cons.1 hp).2 ?_, List.append_assoc]
    · rfl
    · intro a ha b hb
      rcases List.mem_append.1 ha with ha | ha
      · exact h0 a ha b (List.mem_cons_of_mem _ hb)
      · rw [List.mem_singleton.1 ha]
        exact (List.pairwise_cons.1 hp).1 b hb
end

/-- Nothing is lost, at any depth: when displayed field names of each object are distinct and are not `__type`, and
keys of each map stay different, the serialized value shows the whole value. -/
theorem C24_lossless (env : BinEnv) (v : BinValue) (s : Ser)
    (h : Shows (displayed (fun k n => (env.known k).get? n)) v s) : ser env v = .ok s := by
  apply shows_ser
  have : env.show' = displayed (fun k n => (env.known k).get? n) := by
    funext k n; exact C24_display env k n
  rw [this]; exact h

theorem plainKey_ser (env : BinEnv) (v : BinValue) (h : PlainKey v) : ∃ s, ser env v = .ok s ∧ s.hashable = true := by
  induction h with
  | tuple l => exact ⟨_, rfl, rfl⟩
  | bool b => exact ⟨_, rfl, rfl⟩
  | int n => exact ⟨_, rfl, rfl⟩
  | float b => exact ⟨_, rfl, rfl⟩
  | floats l => exact ⟨_, rfl, rfl⟩
  | matrix l => exact ⟨_, rfl, rfl⟩
  | str s => exact ⟨_, rfl, rfl⟩
  | hashed k h => exact ⟨_, rfl, rfl⟩
  | null => exact ⟨_, C24_null env, rfl⟩
  | nothing t => exact ⟨_, rfl, rfl⟩
  | some t v _ ih => rw [ser]; exact ih

mutual
theorem plain_ser (env : BinEnv) (v : BinValue) (h : PlainMaps v) : ∃ s, ser env v = .ok s := by
  cases h with
  | tuple l => exact ⟨_, rfl⟩
  | bool b => exact ⟨_, rfl⟩
  | int n => exact ⟨_, rfl⟩
  | float b => exact ⟨_, rfl⟩
  | floats l => exact ⟨_, rfl⟩
  | matrix l => exact ⟨_, rfl⟩
  | str s => exact ⟨_, rfl⟩
  | hashed k h => exact ⟨_, rfl⟩
  | list t vs h => obtain ⟨l, e⟩ := plainList_ser env vs h; exact ⟨.list l, by rw [ser, e]; rfl⟩
  | struct htype fs h => obtain ⟨d, e⟩ := plainFields_ser env fs h []; exact ⟨_, by rw [ser, e]; rfl⟩
  | embedded htype fs h => obtain ⟨d, e⟩ := plainFields_ser env fs h []; exact ⟨_, by rw [ser, e]; rfl⟩
  | nothing t => exact ⟨_, rfl⟩
  | some t v h => rw [ser]; exact plain_ser env v h
  | map kt vt ps h => obtain ⟨d, e⟩ := plainPairs_ser env ps h []; exact ⟨_, by rw [ser, e]; rfl⟩
theorem plainList_ser (env : BinEnv) (vs : List BinValue) (h : PlainMapsList vs) : ∃ s, serList env vs = .ok s := by
  cases h with
  | nil => exact ⟨_, rfl⟩
  | cons v vs h1 h2 =>
    obtain ⟨s, e1⟩ := plain_ser env v h1
    obtain ⟨l, e2⟩ := plainList_ser env vs h2
    exact ⟨s :: l, by rw [serList, e1, e2]; rfl⟩
theorem plainFields_ser (env : BinEnv) (fs : List BinField) (h : PlainMapsFields fs) (d : Dict Str Ser) :
    ∃ s, serFields env d fs = .ok s := by
  cases h with
  | nil => exact ⟨_, rfl⟩
  | cons name t v fs h1 h2 =>
    obtain ⟨s, e1⟩ := plain_ser env v h1
    obtain ⟨l, e2⟩ := plainFields_ser env fs h2 (d.set (env.mk' .field name).str s)
    exact ⟨l, by rw [serFields, e1]; exact e2⟩
theorem plainPairs_ser (env : BinEnv) (ps : List BinPair) (h : PlainMapsPairs ps) (d : List (Ser × Ser)) :
    ∃ s, serPairs env d ps = .ok s := by
  cases h with
  | nil => exact ⟨_, rfl⟩
  | cons k v ps h0 h1 h2 =>
    obtain ⟨sk, e0, e0'⟩ := plainKey_ser env k h0
    obtain ⟨s, e1⟩ := plain_ser env v h1
    obtain ⟨l, e2⟩ := plainPairs_ser env ps h2 (serSet d sk s)
    exact ⟨l, by rw [serPairs, e0, e1]; simp only [Bind.bind, Except.bind]; rw [if_pos e0']; exact e2⟩
end

/-- Serialization succeeds on all values whose map keys are plain. -/
theorem C24_total (env : BinEnv) (v : BinValue) (h : PlainMaps v) : ∃ s, ser env v = .ok s := plain_ser env v h

/-- Boundary: a map that has a list, an object or a map as a key cannot be serialized: `TypeError`. -/
theorem C24_container_key (env : BinEnv) (kt vt : BinType) (k v : BinValue) (sk sv : Ser) (l : List BinPair)
    (hk : ser env k = .ok sk) (hv : ser env v = .ok sv) (hc : Ser.IsContainer sk) :
    ser env (.map kt vt (.mk k v :: l)) = .error .type := by
  rw [ser, serPairs, hk, hv]
  have : sk.hashable = false := by
    cases sk <;> first | rfl | exact absurd hc (by simp [Ser.IsContainer])
  simp only [Bind.bind, Except.bind, this]
  rfl

/-- Boundary: two keys of a map that are displayed the same are one key once serialized; the last value is kept. -/
theorem C24_map_collision (env : BinEnv) (kt vt : BinType) (k k' v v' : BinValue) (s sv sv' : Ser)
    (hk : ser env k = .ok s) (hk' : ser env k' = .ok s) (hv : ser env v = .ok sv) (hv' : ser env v' = .ok sv')
    (hs : s.sameKey s = true) : ser env (.map kt vt [.mk k v, .mk k' v']) = .ok (.dict [(s, sv')]) := by
  have hh : s.hashable = true := by
    cases s <;> first | rfl | (exfalso; revert hs; simp [Ser.sameKey])
  simp only [ser, serPairs, hk, hk', hv, hv', Bind.bind, Except.bind, hh, if_true]
  simp [serSet, hs]
  rfl

/-- Files: one item per distinct displayed entry path, the last one winning; no entry is lost when they are distinct. -/
theorem C24_file (env : BinEnv) (f : BinFile) (ss : List Ser)
    (h : List.Forall₂ (fun e s => BinEntry.ser env e = .ok s) f.entries ss)
    (hn : (f.entries.map (fun e => (env.mk' .entry e.path).str)).Nodup)
    (hl : "__linked".toList ∉ f.entries.map (fun e => (env.mk' .entry e.path).str)) (hp : f.patches = none) :
    f.ser env = .ok (.obj ((f.entries.map (fun e => (env.mk' .entry e.path).str)).zip ss ++
      match f.linked with | some l => [("__linked".toList, .list (l.map .str))] | none => [])) := by
  have he : ∀ (es : List BinEntry) (ss : List Ser) (d : Dict Str Ser), List.Forall₂ (fun e s => BinEntry.ser env e = .ok s) es ss →
      serEntries env (·.path) (BinEntry.ser env) d es =
        .ok (((es.map (fun e => (env.mk' .entry e.path).str)).zip ss).foldl (fun d kv => d.set kv.1 kv.2) d) := by
    intro es ss d h
    induction h generalizing d with
    | nil => rfl
    | @cons e s es ss h1 _ ih => rw [serEntries, h1]; exact ih _
  have hk : ((f.entries.map (fun e => (env.mk' .entry e.path).str)).zip ss).map (·.1) = f.entries.map (fun e => (env.mk' .entry e.path).str) :=
    List.map_fst_zip (by simp [h.length_eq])
  unfold BinFile.ser
  rw [he f.entries ss [] h, foldl_set_nodup _ (by rw [hk]; exact hn), hp]
  simp only [Bind.bind, Except.bind, serPatches, serLinked]
  rcases f.linked with _ | l
  · simp only [List.append_nil]; rfl
  · simp only
    rw [Dict.set_of_not_mem (by unfold Dict.keys; rw [hk]; exact hl)]
    rfl

/-- Non-vacuity: an embedded object with a list, a null struct and a map. -/
example : Shows (displayed (fun _ n => if n = 1 then some "mName".toList else none))
    (.embedded 7 [.mk 1 .list (.list .u8 [.int 1, .int 2]), .mk 2 .struct (.struct 0 []),
      .mk 3 .map (.map .hash .u8 [.mk (.hashed .hash 5) (.int 1), .mk (.hashed .hash 6) (.int 1)])])
    (.obj [("mName".toList, .list [.int 1, .int 2]), ("{00000002}".toList, .none),
      ("{00000003}".toList, .dict [(.str "{00000005}".toList, .int 1), (.str "{00000006}".toList, .int 1)]),
      ("__type".toList, .str "{00000007}".toList)]) := by
  have h5 : displayed (fun _ n => if n = 1 then some "mName".toList else none) .hash 5 = "{00000005}".toList := by decide +kernel
  have h6 : displayed (fun _ n => if n = 1 then some "mName".toList else none) .hash 6 = "{00000006}".toList := by decide +kernel
  have h7 : displayed (fun _ n => if n = 1 then some "mName".toList else none) .type 7 = "{00000007}".toList := by decide +kernel
  have hf : [1, 2, 3].map (fun n => displayed (fun _ n => if n = 1 then some "mName".toList else none) .field n) =
      ["mName".toList, "{00000002}".toList, "{00000003}".toList] := by decide +kernel
  have h56 : "{00000005}".toList ≠ "{00000006}".toList := by decide +kernel
  have key := Shows.embedded (display := displayed (fun _ n => if n = 1 then some "mName".toList else none)) 7
    [.mk 1 .list (.list .u8 [.int 1, .int 2]), .mk 2 .struct (.struct 0 []),
      .mk 3 .map (.map .hash .u8 [.mk (.hashed .hash 5) (.int 1), .mk (.hashed .hash 6) (.int 1)])]
    [.list [.int 1, .int 2], .none, .dict [(.str "{00000005}".toList, .int 1), (.str "{00000006}".toList, .int 1)]]
    (.cons _ _ _ _ _ _ (.list _ _ _ (.cons _ _ _ _ (.int _) (.cons _ _ _ _ (.int _) .nil)))
      (.cons _ _ _ _ _ _ .null (.cons _ _ _ _ _ _ (.map _ _ _ _
        (.cons _ _ _ _ _ _ (h5 ▸ .hashed _ _) (.int _) (.cons _ _ _ _ _ _ (h6 ▸ .hashed _ _) (.int _) .nil)) (by simp [Ser.IsContainer])
        (by simp [Ser.sameKey])) .nil)))
  simp only [List.map_cons, List.map_nil, BinField.name] at key hf
  rw [hf, h7] at key
  exact key ⟨by decide +kernel, by decide +kernel⟩

/-! ## Cases that meet the hypotheses -/

/-- `C24_container_key`: lists as keys; `C24_map_collision`: two hashes with the same name -/
example :
    let env : BinEnv := { known := fun _ => [(1, "a".toList), (2, "a".toList)], xxh64Lower := fun _ => 0 }
    ser env (.map .list .u8 [.mk (.list .u8 [.int 1]) (.int 2)]) = .error .type ∧
    ser env (.map .hash .u8 [.mk (.hashed .hash 1) (.int 5), .mk (.hashed .hash 2) (.int 6)]) = .ok (.dict [(.str "a".toList, .int 6)]) := by
  intro env
  constructor
  · exact C24_container_key env .list .u8 (.list .u8 [.int 1]) (.int 2) (.list [.int 1]) (.int 2) [] rfl rfl (by first | trivial | simp [Ser.IsContainer])
  · exact C24_map_collision env .hash .u8 (.hashed .hash 1) (.hashed .hash 2) (.int 5) (.int 6) (.str "a".toList) (.int 5) (.int 6) rfl rfl rfl rfl
      (by decide +kernel)

end Cdtb
