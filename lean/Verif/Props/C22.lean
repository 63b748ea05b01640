import Verif.Lemmas.Bin
import Mathlib.Data.List.Forall2
/-!
# C22 BIN files
-/
namespace Cdtb
set_option autoImplicit false
open Py Spec

/-! ## Values -/

/-- At any nesting depth, the value read is the one encoded, and exactly its bytes are consumed: reading from
any position of a file where a representation starts gives the value and the position where it ends. -/
theorem C22_value (version : Nat) (t : BinType) (v : BinValue) (bs : Bytes) (h : Encodes version t v bs)
    (pre post : Bytes) :
    binValue version ((pre ++ bs ++ post).length + 1) t (pre ++ bs ++ post) pre.length =
      .ok (v, pre.length + bs.length) :=
  binValue_reads h _ (by simp only [List.length_append]; omega) pre post

/-! ## Files -/

theorem patchGroup_get? (items : List (Nat × BinPatchField)) (d : Dict Nat (List BinPatchField)) (p : Nat) :
    (items.foldl patchGroup d).get? p =
      match (items.filter (fun x => decide (x.1 = p))).map (·.2) with
      | [] => d.get? p
      | l => some ((d.get? p).getD [] ++ l) := by
  induction items generalizing d with
  | nil => rfl
  | cons x items ih =>
    rw [List.foldl_cons, ih]
    unfold patchGroup
    rw [Dict.get?_set]
    by_cases h : x.1 = p
    · subst h
      simp only [if_true]
      rw [List.filter_cons_of_pos (by simp), List.map_cons]
      generalize (items.filter (fun y => decide (y.1 = x.1))).map (·.2) = o
      rcases o with _ | ⟨a, l⟩
      · rfl
      · simp
    · rw [if_neg (Ne.symm h), List.filter_cons_of_neg (by simpa using h)]

theorem patchGroup_keys (items : List (Nat × BinPatchField)) (d : Dict Nat (List BinPatchField)) :
    (items.foldl patchGroup d).keys = d.keys ++ (firsts (items.map (·.1))).filter (fun p => decide (p ∉ d.keys)) := by
  induction items generalizing d with
  | nil => simp [firsts]
  | cons x items ih =>
    rw [List.foldl_cons, ih]
    unfold patchGroup
    rw [Dict.keys_set, List.map_cons, firsts]
    by_cases h : x.1 ∈ d.keys
    · rw [if_pos h, List.filter_cons_of_neg (by simpa using h), List.filter_filter]
      congr 1
      apply List.filter_congr
      intro y _
      by_cases hy : y ∈ d.keys
      · simp [hy]
      · have : y ≠ x.1 := by rintro rfl; exact hy h
        simp [hy, this]
    · rw [if_neg h, List.filter_cons_of_pos (by simpa using h), List.filter_filter, List.append_assoc, List.singleton_append]
      congr 2
      apply List.filter_congr
      intro y _
      by_cases hy : y ∈ d.keys <;> by_cases hx : y = x.1 <;> simp [hy, hx, List.mem_append]

theorem patchFirsts_nodup (l : List Nat) : (firsts l).Nodup := by
  induction l with
  | nil => simp [firsts]
  | cons x l ih =>
    rw [firsts, List.nodup_cons]
    exact ⟨by simp, ih.filter _⟩

theorem mem_patchFirsts (l : List Nat) (y : Nat) : y ∈ firsts l ↔ y ∈ l := by
  induction l with
  | nil => simp [firsts]
  | cons x l ih =>
    rw [firsts]
    by_cases h : y = x
    · simp [h]
    · simp [h, ih]

theorem groupPatches_eq (items : List (Nat × BinPatchField)) :
    (items.foldl patchGroup []).map (fun x => ({ path := x.1, fields := x.2 } : BinPatchEntry)) = groupPatches items := by
  have hk := patchGroup_keys items []
  have hk' : (items.foldl patchGroup []).keys = firsts (items.map (·.1)) := by
    rw [hk]; simp [Dict.keys]
  have hwf : Dict.WF (items.foldl patchGroup []) := by
    unfold Dict.WF; rw [hk']; exact patchFirsts_nodup _
  unfold groupPatches
  rw [← hk']
  unfold Dict.keys
  rw [List.map_map]
  apply List.map_congr_left
  intro x hx
  have h1 := Dict.get?_of_mem hwf (k := x.1) (v := x.2) hx
  rw [patchGroup_get?] at h1
  simp only [Function.comp]
  congr 1
  rcases hl : (items.filter (fun y => decide (y.1 = x.1))).map (·.2) with _ | ⟨a, l⟩
  · rw [hl] at h1; simp [Dict.get?] at h1
  · rw [hl] at h1; simp only [Dict.get?, Option.getD_none, List.nil_append, Option.some.injEq] at h1
    rw [← h1]
    exact hl.symm

theorem Reads.forall2 {α : Type} {p : Rd α} {R : α → Bytes → Prop} (h : ∀ a b, R a b → Reads p b a)
    {as : List α} {bs : List Bytes} (hf : List.Forall₂ R as bs) : Reads (p.times as.length) bs.flatten as := by
  induction hf with
  | nil => exact Reads.pure _
  | cons h1 _ ih => exact Reads.bind (h _ _ h1) (Reads.map ih rfl)

theorem Reads.forList {α β : Type} {p : β → Rd α} {key : α → β} {R : α → Bytes → Prop}
    (h : ∀ a b, R a b → Reads (p (key a)) b a)
    {as : List α} {bs : List Bytes} (hf : List.Forall₂ R as bs) : Reads (Rd.forList p (as.map key)) bs.flatten as := by
  induction hf with
  | nil => exact Reads.pure _
  | cons h1 _ ih => exact Reads.bind (h _ _ h1) (Reads.map ih rfl)

theorem Rd.tell_ok : ∀ data pos, Rd.tell data pos = .ok (pos, pos) := fun _ _ => rfl

theorem flatten_length_mem {b : Bytes} {bs : List Bytes} (h : b ∈ bs) : b.length ≤ bs.flatten.length := by
  induction bs with
  | nil => simp at h
  | cons c bs ih =>
    rw [List.flatten_cons, List.length_append]
    rcases List.mem_cons.1 h with rfl | h
    · omega
    · have := ih h; omega

/-- Reading an entry with its recorded length: it succeeds exactly when the length is right. -/
theorem binEntry_run {version : Nat} {fs : List BinField} {bs : Bytes} {path type length fuel : Nat}
    (hp : path < 256 ^ 4) (hn : fs.length < 256 ^ 2) (hl : length < 256 ^ 4) (hf : bs.length < fuel)
    (h : EncodesFields version fs bs) (pre post : Bytes) :
    binEntry (binField version (binValue version fuel)) type
      (pre ++ (le 4 length ++ (le 4 path ++ (le 2 fs.length ++ bs))) ++ post) pre.length =
      if length = bs.length + 6 then .ok ({ path, type, fields := fs }, pre.length + (10 + bs.length))
      else .error .assertion := by
  have h1 : Reads (do
      let length ← Rd.u 4
      let path ← Rd.u 4
      let count ← Rd.u 2
      let fields ← Rd.times (binField version (binValue version fuel)) count
      pure (length, path, fields)) (le 4 length ++ (le 4 path ++ (le 2 fs.length ++ bs))) (length, path, fs) :=
    Reads.bind (Reads.u hl) (Reads.bind (Reads.u hp) (Reads.bind (Reads.u hn) (Reads.map (binFields_reads h fuel hf) rfl)))
  have h1 := h1 pre post
  unfold binEntry
  rw [Rd.bind_ok (Rd.tell_ok _ _)]
  generalize hdata : pre ++ (le 4 length ++ (le 4 path ++ (le 2 fs.length ++ bs))) ++ post = data at h1 ⊢
  have hlen : (le 4 length ++ (le 4 path ++ (le 2 fs.length ++ bs))).length = 10 + bs.length := by
    simp only [List.length_append, le_length]; omega
  rw [hlen] at h1
  rcases e1 : Rd.u 4 data pre.length with e | ⟨l, p1⟩
  · rw [Rd.bind_error e1] at h1; cases h1
  rw [Rd.bind_ok e1] at h1 ⊢
  rcases e2 : Rd.u 4 data p1 with e | ⟨pa, p2⟩
  · rw [Rd.bind_error e2] at h1; cases h1
  rw [Rd.bind_ok e2] at h1 ⊢
  rcases e3 : Rd.u 2 data p2 with e | ⟨n, p3⟩
  · rw [Rd.bind_error e3] at h1; cases h1
  rw [Rd.bind_ok e3] at h1 ⊢
  rcases e4 : Rd.times (binField version (binValue version fuel)) n data p3 with e | ⟨fl, p4⟩
  · rw [Rd.bind_error e4] at h1; cases h1
  rw [Rd.bind_ok e4] at h1 ⊢
  simp only [Pure.pure, Except.ok.injEq, Prod.mk.injEq] at h1
  obtain ⟨⟨rfl, rfl, rfl⟩, rfl⟩ := h1
  rw [Rd.bind_ok (Rd.tell_ok _ _)]
  by_cases hl' : l = bs.length + 6
  · rw [if_pos hl']
    have e5 : ∀ d p, rdAssert (decide (((pre.length + (10 + bs.length) : Nat) : Int) - ((pre.length + 4 : Nat) : Int) = (l : Int))) d p = .ok ((), p) := by
      intro d p
      have : decide (((pre.length + (10 + bs.length) : Nat) : Int) - ((pre.length + 4 : Nat) : Int) = (l : Int)) = true := by
        apply decide_eq_true; push_cast; omega
      rw [this]; rfl
    rw [Rd.bind_ok (e5 _ _)]
    rfl
  · rw [if_neg hl']
    have e5 : ∀ d p, rdAssert (decide (((pre.length + (10 + bs.length) : Nat) : Int) - ((pre.length + 4 : Nat) : Int) = (l : Int))) d p = .error .assertion := by
      intro d p
      have : decide (((pre.length + (10 + bs.length) : Nat) : Int) - ((pre.length + 4 : Nat) : Int) = (l : Int)) = false := by
        apply decide_eq_false; push_cast; omega
      rw [this]; rfl
    rw [Rd.bind_error (e5 _ _)]

theorem binEntry_reads {version : Nat} {e : BinEntry} {bs : Bytes} (h : EncodesEntry version e bs) {fuel : Nat}
    (hf : bs.length < fuel) : Reads (binEntry (binField version (binValue version fuel)) e.type) bs e := by
  cases h with
  | mk path type fs b hp ht hn hl hb =>
    intro pre post
    have hlen : (le 4 (b.length + 6) ++ (le 4 path ++ (le 2 fs.length ++ b))).length = 10 + b.length := by
      simp only [List.length_append, le_length]; omega
    rw [binEntry_run hp hn hl (by omega) hb, if_pos rfl, hlen]

theorem binPatchItem_reads {version : Nat} {x : Nat × BinPatchField} {bs : Bytes} (h : EncodesPatch version x bs)
    {fuel : Nat} (hf : bs.length < fuel) : Reads (binPatchItem version (binValue version fuel)) bs x := by
  cases h with
  | mk hpath unused c f b h1 h2 h3 h4 h5 =>
    refine Reads.bind (Reads.u h1) (Reads.bind (Reads.u h2) (Reads.bind (code_reads h3) ?_))
    refine Reads.bind_nil (Reads.lift (parse_typeCode h3)) ?_
    refine Reads.bind (binString_reads h4) ?_
    refine Reads.map (binValue_reads h5 fuel ?_) rfl
    simp only [List.length_append, le_length] at hf; omega

/-- The start of a file, up to the types of the entries. -/
def binHead (isPatch : Bool) (version : Nat) (linked : List Str) (types : List Nat) : Bytes :=
  binPrefix isPatch ++ ([80, 82, 79, 80] ++ (le 4 version ++ (linkedBytes version linked ++
    (le 4 types.length ++ types.flatMap (le 4)))))

theorem binHead_bind {β : Type} {isPatch : Bool} {version : Nat} {linked : List Str} {types : List Nat}
    (hv : version < 256 ^ 4) (hl : linked.length < 256 ^ 4) (hl' : ∀ s ∈ linked, TextFits s)
    (hn : types.length < 256 ^ 4) (ht : ∀ t ∈ types, t < 256 ^ 4)
    (f : Bool → Nat → Option (List Str) → List Nat → Rd β) (post : Bytes) :
    (do
      let magic ← Rd.raw 4
      let isPatch := decide (magic = [80, 84, 67, 72])
      let magic ← binMagic magic
      binCheckMagic magic
      let version ← Rd.u 4
      let linked ← binLinked version
      let count ← Rd.u 4
      let types ← Rd.times (Rd.u 4) count
      f isPatch version linked types) (binHead isPatch version linked types ++ post) 0 =
    f isPatch version (if version ≥ 2 then some linked else none) types (binHead isPatch version linked types ++ post)
      (binHead isPatch version linked types).length := by
  have hlinked : Reads (binLinked version) (linkedBytes version linked) (if version ≥ 2 then some linked else none) := by
    unfold binLinked linkedBytes
    by_cases h : version ≥ 2
    · rw [if_pos h, if_pos h, if_pos h]
      refine Reads.bind (Reads.u hl) (Reads.map ?_ rfl)
      rw [List.flatMap_def]
      exact Reads.times (fun s hs => binString_reads (hl' s hs))
    · rw [if_neg h, if_neg h, if_neg h]; exact Reads.pure _
  have hmagic : Reads (do
      let magic ← Rd.raw 4
      let isPatch := decide (magic = [80, 84, 67, 72])
      let magic ← binMagic magic
      binCheckMagic magic
      pure isPatch) (binPrefix isPatch ++ [80, 82, 79, 80]) isPatch := by
    cases isPatch with
    | false =>
      exact Reads.map (Reads.raw' (bs := [80, 82, 79, 80]) rfl) rfl
    | true =>
      change Reads _ ([80, 84, 67, 72] ++ (le 4 1 ++ le 4 0) ++ [80, 82, 79, 80]) true
      rw [List.append_assoc]
      refine Reads.bind (Reads.raw' rfl) ?_
      have h1 : Reads (binMagic [80, 84, 67, 72]) ((le 4 1 ++ le 4 0) ++ [80, 82, 79, 80]) [80, 82, 79, 80] := by
        rw [List.append_assoc]
        exact Reads.bind (Reads.u (by decide)) (Reads.bind (Reads.u (by decide)) (Reads.bind_nil (Reads.pure ()) (Reads.raw' rfl)))
      exact Reads.map h1 rfl
  have hhead : Reads (do
      let magic ← Rd.raw 4
      let isPatch := decide (magic = [80, 84, 67, 72])
      let magic ← binMagic magic
      binCheckMagic magic
      let version ← Rd.u 4
      let linked ← binLinked version
      let count ← Rd.u 4
      let types ← Rd.times (Rd.u 4) count
      pure (isPatch, version, linked, types)) (binHead isPatch version linked types)
      (isPatch, version, (if version ≥ 2 then some linked else none), types) := by
    have h2 := Reads.bind (f := fun isPatch => do
      let version ← Rd.u 4
      let linked ← binLinked version
      let count ← Rd.u 4
      let types ← Rd.times (Rd.u 4) count
      pure (isPatch, version, linked, types)) hmagic
      (Reads.bind (Reads.u hv) (Reads.bind hlinked (Reads.bind (Reads.u hn) (Reads.map (listU_reads ht) rfl))))
    unfold binHead
    rw [← List.append_assoc]
    intro pre post
    rw [← h2 pre post]
    simp only [Bind.bind, Pure.pure]
    rcases Rd.raw 4 _ _ with e | ⟨m, p⟩
    · rfl
    simp only
    rcases binMagic m _ _ with e | ⟨m', p'⟩
    · rfl
    simp only
    rcases binCheckMagic m' _ _ with e | ⟨_, p''⟩ <;> rfl
  have h3 := hhead [] post
  simp only [List.nil_append, List.length_nil, Nat.zero_add] at h3
  generalize binHead isPatch version linked types ++ post = data at h3 ⊢
  simp only [Bind.bind, Pure.pure] at h3 ⊢
  rcases e1 : Rd.raw 4 data 0 with e | ⟨m, p1⟩
  · rw [e1] at h3; cases h3
  rw [e1] at h3
  simp only at h3 ⊢
  rcases e2 : binMagic m data p1 with e | ⟨m', p2⟩
  · rw [e2] at h3; cases h3
  rw [e2] at h3
  simp only at h3 ⊢
  rcases e3 : binCheckMagic m' data p2 with e | ⟨_, p3⟩
  · rw [e3] at h3; cases h3
  rw [e3] at h3
  simp only at h3 ⊢
  rcases e4 : Rd.u 4 data p3 with e | ⟨v, p4⟩
  · rw [e4] at h3; cases h3
  rw [e4] at h3
  simp only at h3 ⊢
  rcases e5 : binLinked v data p4 with e | ⟨l, p5⟩
  · rw [e5] at h3; cases h3
  rw [e5] at h3
  simp only at h3 ⊢
  rcases e6 : Rd.u 4 data p5 with e | ⟨n, p6⟩
  · rw [e6] at h3; cases h3
  rw [e6] at h3
  simp only at h3 ⊢
  rcases e7 : Rd.times (Rd.u 4) n data p6 with e | ⟨ts, p7⟩
  · rw [e7] at h3; cases h3
  rw [e7] at h3
  simp only [Except.ok.injEq, Prod.mk.injEq] at h3 ⊢
  obtain ⟨⟨h31, h32, h33, h34⟩, h35⟩ := h3
  rw [h31, h32, h33, h34, h35]

/-- A file laid out per the format, of any version and game version, with any number of linked files, entries and
patches nested at any depth, is read as exactly what it contains. Anything may follow. -/
theorem C22_file (btype : Option Nat) (isPatch : Bool) (version : Nat) (linked : List Str) (entries : List BinEntry)
    (eb : List Bytes) (items : List (Nat × BinPatchField)) (ib : List Bytes) (trailing : Bytes)
    (hv : version < 256 ^ 4) (hl : linked.length < 256 ^ 4) (hl' : ∀ s ∈ linked, TextFits s)
    (hn : entries.length < 256 ^ 4) (he : List.Forall₂ (EncodesEntry (btypeVersion btype)) entries eb)
    (hm : items.length < 256 ^ 4) (hi : List.Forall₂ (EncodesPatch (btypeVersion btype)) items ib) :
    parseBin btype (binFileBytes isPatch version linked (entries.map (·.type)) eb ib ++ trailing) =
      .ok { isPatch := isPatch
            version := version
            linked := if version ≥ 2 then some linked else none
            entries := entries
            patches := if isPatch ∧ version ≥ 3 then some (groupPatches items) else none } := by
  have hsplit : binFileBytes isPatch version linked (entries.map (·.type)) eb ib ++ trailing =
      binHead isPatch version linked (entries.map (·.type)) ++ (eb.flatten ++ (patchBytes isPatch version ib ++ trailing)) := by
    unfold binFileBytes binHead
    simp only [List.append_assoc]
  unfold parseBin
  rw [hsplit]
  generalize hfuel : (binHead isPatch version linked (entries.map (·.type)) ++
    (eb.flatten ++ (patchBytes isPatch version ib ++ trailing))).length + 1 = fuel
  have hfe : eb.flatten.length < fuel := by
    rw [← hfuel]; simp only [List.length_append]; omega
  have hfi : (patchBytes isPatch version ib).length < fuel := by
    rw [← hfuel]; simp only [List.length_append]; omega
  have htypes : ∀ t ∈ entries.map (·.type), t < 256 ^ 4 := by
    clear hsplit hfuel hfe hn
    induction he with
    | nil => simp
    | cons h1 _ ih =>
      intro t ht
      rw [List.map_cons, List.mem_cons] at ht
      rcases ht with rfl | ht
      · cases h1; assumption
      · exact ih t ht
  have hhead := binHead_bind (β := BinFile) (isPatch := isPatch) hv hl hl' (by simpa using hn) htypes
    (fun isPatch version linked types => do
      let entries ← Rd.forList (binEntry (binField (btypeVersion btype) (binValue (btypeVersion btype) fuel))) types
      let patches ← binPatchSection (btypeVersion btype) (binValue (btypeVersion btype) fuel) (isPatch && decide (version ≥ 3))
      pure { isPatch, version, linked, entries, patches })
    (eb.flatten ++ (patchBytes isPatch version ib ++ trailing))
  have hrest : Reads (do
      let entries ← Rd.forList (binEntry (binField (btypeVersion btype) (binValue (btypeVersion btype) fuel)))
        (entries.map (·.type))
      let patches ← binPatchSection (btypeVersion btype) (binValue (btypeVersion btype) fuel) (isPatch && decide (version ≥ 3))
      pure ({ isPatch, version, linked := if version ≥ 2 then some linked else none, entries, patches } : BinFile))
      (eb.flatten ++ patchBytes isPatch version ib)
      { isPatch := isPatch
        version := version
        linked := if version ≥ 2 then some linked else none
        entries := entries
        patches := if isPatch ∧ version ≥ 3 then some (groupPatches items) else none } := by
    refine Reads.bind (Reads.forList (R := fun e b => EncodesEntry (btypeVersion btype) e b ∧ b.length < fuel) ?_ ?_) ?_
    · rintro a b ⟨h1, h2⟩; exact binEntry_reads h1 h2
    · clear hhead hsplit hfuel hn htypes
      induction he with
      | nil => exact .nil
      | cons h1 _ ih =>
        rw [List.flatten_cons, List.length_append] at hfe
        exact .cons ⟨h1, by omega⟩ (ih (by omega))
    · refine Reads.map (a := if isPatch ∧ version ≥ 3 then some (groupPatches items) else none) ?_ rfl
      unfold patchBytes at hfi ⊢
      by_cases h : (isPatch : Bool) = true ∧ version ≥ 3
      · rw [if_pos h, if_pos h]
        have : (isPatch && decide (version ≥ 3)) = true := by simp [h.1, h.2]
        rw [this]
        rw [if_pos h, List.length_append] at hfi
        refine Reads.map (a := groupPatches items) ?_ rfl
        rw [← hi.length_eq]
        refine Reads.bind (Reads.u hm) ?_
        refine Reads.map (Reads.forall2 (R := fun e b => EncodesPatch (btypeVersion btype) e b ∧ b.length < fuel) ?_ ?_) ?_
        · rintro a b ⟨h1, h2⟩; exact binPatchItem_reads h1 h2
        · have hfi' : ib.flatten.length < fuel := by omega
          clear hfi hhead hsplit hfuel hm
          induction hi with
          | nil => exact .nil
          | cons h1 _ ih =>
            rw [List.flatten_cons, List.length_append] at hfi'
            exact .cons ⟨h1, by omega⟩ (ih (by omega))
        · rw [← groupPatches_eq]
      · rw [if_neg h, if_neg h]
        have : (isPatch && decide (version ≥ 3)) = false := by
          rw [Bool.and_eq_false_iff, decide_eq_false_iff_not]
          rcases Classical.em (isPatch = true) with hp | hp
          · exact Or.inr (fun hv => h ⟨hp, hv⟩)
          · exact Or.inl (by simpa using hp)
        rw [this]
        exact Reads.pure _
  have hrest' := hrest (binHead isPatch version linked (entries.map (·.type))) trailing
  have e : binHead isPatch version linked (entries.map (·.type)) ++ (eb.flatten ++ patchBytes isPatch version ib) ++ trailing =
      binHead isPatch version linked (entries.map (·.type)) ++ (eb.flatten ++ (patchBytes isPatch version ib ++ trailing)) := by
    simp only [List.append_assoc]
  rw [e] at hrest'
  have hall : parseBinFuel fuel btype (binHead isPatch version linked (entries.map (·.type)) ++
      (eb.flatten ++ (patchBytes isPatch version ib ++ trailing))) 0 = _ := hhead.trans hrest'
  unfold Rd.run
  rw [hall]

/-- An entry whose recorded length is not the number of bytes of its content raises `AssertionError`, wherever
it is in the file. -/
theorem C22_wrong_length (btype : Option Nat) (isPatch : Bool) (version : Nat) (linked : List Str)
    (before : List BinEntry) (eb : List Bytes) (path type length : Nat) (fs : List BinField) (bs : Bytes)
    (after : List Nat) (trailing : Bytes)
    (hv : version < 256 ^ 4) (hl : linked.length < 256 ^ 4) (hl' : ∀ s ∈ linked, TextFits s)
    (hn : before.length + 1 + after.length < 256 ^ 4)
    (he : List.Forall₂ (EncodesEntry (btypeVersion btype)) before eb)
    (ht : type < 256 ^ 4) (ha : ∀ t ∈ after, t < 256 ^ 4)
    (hp : path < 256 ^ 4) (hfn : fs.length < 256 ^ 2) (hlen : length < 256 ^ 4)
    (hb : EncodesFields (btypeVersion btype) fs bs) (hbad : length ≠ bs.length + 6) :
    parseBin btype (binHead isPatch version linked (before.map (·.type) ++ (type :: after)) ++ (eb.flatten ++
      ((le 4 length ++ (le 4 path ++ (le 2 fs.length ++ bs))) ++ trailing))) = .error .assertion := by
  unfold parseBin
  generalize hfuel : (binHead isPatch version linked (before.map (·.type) ++ (type :: after)) ++ (eb.flatten ++
      ((le 4 length ++ (le 4 path ++ (le 2 fs.length ++ bs))) ++ trailing))).length + 1 = fuel
  have hfe : eb.flatten.length < fuel := by rw [← hfuel]; simp only [List.length_append]; omega
  have hfb : bs.length < fuel := by rw [← hfuel]; simp only [List.length_append]; omega
  have htypes : ∀ t ∈ before.map (·.type) ++ (type :: after), t < 256 ^ 4 := by
    intro t h
    rcases List.mem_append.1 h with h | h
    · clear hfuel hfe hn
      induction he with
      | nil => simp at h
      | cons h1 _ ih =>
        rw [List.map_cons, List.mem_cons] at h
        rcases h with rfl | h
        · cases h1; assumption
        · exact ih (List.mem_append_left _ h) h
    · rcases List.mem_cons.1 h with rfl | h
      · exact ht
      · exact ha t h
  have hhead := binHead_bind (β := BinFile) (isPatch := isPatch) hv hl hl' (by simp; omega) htypes
    (fun isPatch version linked types => do
      let entries ← Rd.forList (binEntry (binField (btypeVersion btype) (binValue (btypeVersion btype) fuel))) types
      let patches ← binPatchSection (btypeVersion btype) (binValue (btypeVersion btype) fuel) (isPatch && decide (version ≥ 3))
      pure { isPatch, version, linked, entries, patches })
    (eb.flatten ++ ((le 4 length ++ (le 4 path ++ (le 2 fs.length ++ bs))) ++ trailing))
  have herr : ∀ pre, Rd.forList (binEntry (binField (btypeVersion btype) (binValue (btypeVersion btype) fuel)))
      (before.map (·.type) ++ (type :: after)) (pre ++ (eb.flatten ++
      ((le 4 length ++ (le 4 path ++ (le 2 fs.length ++ bs))) ++ trailing))) pre.length = .error .assertion := by
    clear hhead hfuel htypes hn
    induction he with
    | nil =>
      intro pre
      have := binEntry_run (type := type) hp hfn hlen hfb hb pre trailing
      rw [if_neg hbad] at this
      simp only [List.map_nil, List.nil_append, List.flatten_nil, Rd.forList]
      rw [← List.append_assoc]
      exact Rd.bind_error this
    | @cons e b es bs' h1 _ ih =>
      intro pre
      rw [List.flatten_cons, List.length_append] at hfe
      have e1 := binEntry_reads h1 (show b.length < fuel by omega) pre
        (bs'.flatten ++ ((le 4 length ++ (le 4 path ++ (le 2 fs.length ++ bs))) ++ trailing))
      rw [List.append_assoc] at e1
      simp only [List.map_cons, List.cons_append, List.flatten_cons, Rd.forList]
      rw [List.append_assoc b, Rd.bind_ok e1]
      have e2 := ih (by omega) (pre ++ b)
      rw [List.append_assoc pre, List.length_append] at e2
      exact Rd.bind_error e2
  have hall : parseBinFuel fuel btype _ 0 = _ := hhead.trans (Rd.bind_error (herr _))
  unfold Rd.run
  rw [hall]

/-- A file that starts with something else than `PROP` or `PTCH` raises `ValueError`. -/
theorem C22_magic (btype : Option Nat) (data : Bytes) (h1 : data.take 4 ≠ [80, 82, 79, 80])
    (h2 : data.take 4 ≠ [80, 84, 67, 72]) : parseBin btype data = .error .value := by
  have e1 : Rd.raw 4 data 0 = .ok (data.take 4, 0 + (data.take 4).length) := rfl
  have e2 : ∀ d p, binMagic (data.take 4) d p = .ok (data.take 4, p) := by
    intro d p; unfold binMagic; rw [if_neg h2]; rfl
  have e3 : ∀ d p, binCheckMagic (data.take 4) d p = .error .value := by
    intro d p; unfold binCheckMagic; rw [if_pos h1]; rfl
  unfold parseBin Rd.run parseBinFuel
  rw [Rd.bind_ok e1]
  simp only
  rw [Rd.bind_ok (e2 _ _), Rd.bind_error (e3 _ _)]

/-! ## Maps -/

/-- When the keys of a map are such that equal keys are the same key (see `C22_keys`), the dict made from the pairs
read maps each key to the value of its last pair. -/
theorem C22_map_last (ps : List BinPair) (k : BinValue)
    (hk : ∀ p ∈ ps, ∀ q ∈ ps, p.key.sameKey q.key = true ↔ p.key = q.key) (hr : ∃ p ∈ ps, p.key = k) :
    ((mapOfList ps).find? (fun p => p.key.sameKey k)).map (·.value) =
      (ps.reverse.find? (fun p => p.key.sameKey k)).map (·.value) := by
  obtain ⟨p0, hp0, rfl⟩ := hr
  have key : ∀ (l d : List BinPair), (∀ p ∈ d, p ∈ ps ∨ ∃ q ∈ ps, p.key = q.key) → (∀ p ∈ l, p ∈ ps) →
      ((l.foldl (fun d p => mapSet d p.key p.value) d).find? (fun p => p.key.sameKey p0.key)).map (·.value) =
      ((l.reverse.find? (fun p => p.key.sameKey p0.key)).or (d.find? (fun p => p.key.sameKey p0.key))).map (·.value) := by
    intro l
    induction l with
    | nil => intro d _ _; rfl
    | cons p l ih =>
      intro d hd hl
      have hset : ∀ d : List BinPair, (∀ p ∈ d, p ∈ ps ∨ ∃ q ∈ ps, p.key = q.key) →
          (∀ x ∈ mapSet d p.key p.value, x ∈ ps ∨ ∃ q ∈ ps, x.key = q.key) ∧
          ((mapSet d p.key p.value).find? (fun q => q.key.sameKey p0.key)).map (·.value) =
            if p.key.sameKey p0.key then some p.value else (d.find? (fun q => q.key.sameKey p0.key)).map (·.value) := by
        intro d
        induction d with
        | nil =>
          intro _
          refine ⟨?_, ?_⟩
          · intro x hx
            rw [mapSet, List.mem_singleton] at hx
            subst hx
            exact Or.inr ⟨p, hl p (List.mem_cons_self), rfl⟩
          · rw [mapSet, List.find?_cons]
            change (match p.key.sameKey p0.key with | true => _ | false => _ : Option BinPair).map _ = _
            by_cases h : p.key.sameKey p0.key = true
            · rw [h]; rfl
            · rw [Bool.not_eq_true] at h; rw [h]; rfl
        | cons x d ihd =>
          intro hd
          obtain ⟨xk, xv⟩ := x
          obtain ⟨i1, i2⟩ := ihd (fun p hp => hd p (List.mem_cons_of_mem _ hp))
          have hx : ∃ q ∈ ps, xk = q.key := by
            rcases hd _ (List.mem_cons_self) with h | h
            · exact ⟨_, h, rfl⟩
            · exact h
          obtain ⟨q, hq, hxq⟩ := hx
          rw [mapSet]
          by_cases hsame : xk.sameKey p.key = true
          · rw [if_pos hsame]
            have heq : xk = p.key := by
              rw [hxq] at hsame ⊢
              exact (hk q hq p (hl p (List.mem_cons_self))).1 hsame
            refine ⟨?_, ?_⟩
            · intro y hy
              rcases List.mem_cons.1 hy with rfl | hy
              · exact Or.inr ⟨q, hq, hxq⟩
              · exact hd y (List.mem_cons_of_mem _ hy)
            · rw [List.find?_cons, List.find?_cons]
              change (match xk.sameKey p0.key with | true => _ | false => _ : Option BinPair).map _ =
                if p.key.sameKey p0.key then some p.value else (match xk.sameKey p0.key with | true => _ | false => _ : Option BinPair).map _
              rw [heq]
              by_cases h : p.key.sameKey p0.key = true
              · rw [h]; rfl
              · rw [Bool.not_eq_true] at h; rw [h]; rfl
          · rw [if_neg hsame]
            refine ⟨?_, ?_⟩
            · intro y hy
              rcases List.mem_cons.1 hy with rfl | hy
              · exact Or.inr ⟨q, hq, hxq⟩
              · exact i1 y hy
            · rw [List.find?_cons, List.find?_cons]
              change (match xk.sameKey p0.key with | true => _ | false => _ : Option BinPair).map _ =
                if p.key.sameKey p0.key then some p.value else (match xk.sameKey p0.key with | true => _ | false => _ : Option BinPair).map _
              by_cases h : xk.sameKey p0.key = true
              · rw [h]
                have h1 : xk = p0.key := by
                  rw [hxq] at h ⊢
                  exact (hk q hq p0 hp0).1 h
                have h2 : p.key.sameKey p0.key = false := by
                  rw [← Bool.not_eq_true]
                  intro h3
                  have h4 := (hk p (hl p (List.mem_cons_self)) p0 hp0).1 h3
                  apply hsame
                  rw [hxq]
                  exact (hk q hq p (hl p (List.mem_cons_self))).2 (by rw [← hxq, h1, h4])
                rw [h2]; rfl
              · rw [Bool.not_eq_true] at h; rw [h]; exact i2
      obtain ⟨s1, s2⟩ := hset d hd
      rw [List.foldl_cons, ih _ s1 (fun q hq => hl q (List.mem_cons_of_mem _ hq)), List.reverse_cons, List.find?_append]
      generalize l.reverse.find? (fun p => p.key.sameKey p0.key) = o
      rcases o with _ | y
      · simp only [Option.none_or]
        rw [s2, List.find?_cons]
        by_cases h : p.key.sameKey p0.key = true
        · rw [h]; rfl
        · rw [Bool.not_eq_true] at h; rw [h]; rfl
      · rfl
  have := key ps [] (by simp) (fun p hp => hp)
  simpa [mapOfList] using this

/-- Keys that are integers, booleans, texts, tuples of integers or hashes of a kind are the same exactly when they
are equal; lists, structs, options and maps are never the same key. -/
theorem C22_keys :
    (∀ a b, (BinValue.int a).sameKey (.int b) = true ↔ BinValue.int a = .int b) ∧
    (∀ a b, (BinValue.bool a).sameKey (.bool b) = true ↔ BinValue.bool a = .bool b) ∧
    (∀ a b, (BinValue.str a).sameKey (.str b) = true ↔ BinValue.str a = .str b) ∧
    (∀ a b, (BinValue.tuple a).sameKey (.tuple b) = true ↔ BinValue.tuple a = .tuple b) ∧
    (∀ k a b, (BinValue.hashed k a).sameKey (.hashed k b) = true ↔ BinValue.hashed k a = .hashed k b) ∧
    (∀ t l v, (BinValue.list t l).sameKey v = false) ∧ (∀ h f v, (BinValue.struct h f).sameKey v = false) ∧
    (∀ h f v, (BinValue.embedded h f).sameKey v = false) ∧ (∀ t o v, (BinValue.option t o).sameKey v = false) ∧
    (∀ k t m v, (BinValue.map k t m).sameKey v = false) := by
  refine ⟨?_, ?_, ?_, ?_, ?_, ?_, ?_, ?_, ?_, ?_⟩ <;> intros <;> simp [BinValue.sameKey]

/-- Boundary: float keys. Both zeros are the same key; NaN is never the same key, not even as itself. -/
theorem C22_float_keys : floatEq 0 0x80000000 = true ∧
    ∀ n, 0x7f800000 < n % 2 ^ 31 → ∀ m, floatEq n m = false ∧ floatEq m n = false := by
  refine ⟨by decide, ?_⟩
  intro n hn m
  unfold floatEq
  simp only [hn, decide_true, Bool.not_true, Bool.false_and, Bool.and_false, and_self]

/-! ## Termination -/

/-- Readers that never go backward. -/
def Forward {α : Type} (p : Rd α) : Prop := ∀ data pos a pos', p data pos = .ok (a, pos') → pos ≤ pos'

/-- With at most `n` bytes left, the reader does not run out of fuel. -/
def NoDiv {α : Type} (n : Nat) (p : Rd α) : Prop := ∀ data pos, data.length - pos ≤ n → p data pos ≠ .error .diverge

section
variable {α β : Type}

theorem Forward.pure (a : α) : Forward (Pure.pure a : Rd α) := by
  intro data pos b pos' h
  simp only [Pure.pure, Except.ok.injEq, Prod.mk.injEq] at h
  omega

theorem NoDiv.pure (n : Nat) (a : α) : NoDiv n (Pure.pure a : Rd α) := by
  intro data pos _ h; simp [Pure.pure] at h

theorem Forward.bind {p : Rd α} {f : α → Rd β} (h1 : Forward p) (h2 : ∀ a, Forward (f a)) : Forward (p >>= f) := by
  intro data pos b pos' h
  rcases e : p data pos with er | ⟨a, pos1⟩
  · rw [Rd.bind_error e] at h; cases h
  · rw [Rd.bind_ok e] at h
    exact Nat.le_trans (h1 _ _ _ _ e) (h2 a _ _ _ _ h)

theorem NoDiv.bind {n : Nat} {p : Rd α} {f : α → Rd β} (h0 : NoDiv n p) (h1 : Forward p) (h2 : ∀ a, NoDiv n (f a)) :
    NoDiv n (p >>= f) := by
  intro data pos hn h
  rcases e : p data pos with er | ⟨a, pos1⟩
  · rw [Rd.bind_error e] at h; cases h; exact h0 data pos hn e
  · rw [Rd.bind_ok e] at h
    have := h1 _ _ _ _ e
    exact h2 a data pos1 (by omega) h

theorem Forward.u (w : Nat) : Forward (Rd.u w) := by
  intro data pos a pos' h
  rw [Fixed.u w data pos] at h
  split at h
  · simp only [Except.ok.injEq, Prod.mk.injEq] at h; omega
  · cases h

theorem NoDiv.u (n w : Nat) : NoDiv n (Rd.u w) := by
  intro data pos _ h
  rw [Fixed.u w data pos] at h
  split at h <;> cases h

/-- After reading at least one byte, fewer bytes are left. -/
theorem NoDiv.u_bind {n w : Nat} (hw : 0 < w) {f : Nat → Rd β} (h2 : ∀ m, n = m + 1 → ∀ a, NoDiv m (f a)) :
    NoDiv n (Rd.u w >>= f) := by
  intro data pos hn h
  have e := Fixed.u w data pos
  by_cases hd : pos + w ≤ data.length
  · rw [if_pos hd] at e
    rw [Rd.bind_ok e] at h
    obtain ⟨m, rfl⟩ : ∃ m, n = m + 1 := ⟨n - 1, by omega⟩
    exact h2 m rfl _ data (pos + w) (by omega) h
  · rw [if_neg hd] at e
    rw [Rd.bind_error e] at h; cases h

theorem Forward.i (w : Nat) : Forward (Rd.i w) := by
  intro data pos a pos' h
  simp only [Rd.i, Bind.bind, Rd.exact] at h
  split at h
  · cases h
  · rename_i h1
    split at h1
    · cases h1; simp only [Pure.pure, Except.ok.injEq, Prod.mk.injEq] at h; omega
    · cases h1

theorem NoDiv.i (n w : Nat) : NoDiv n (Rd.i w) := by
  intro data pos _ h
  simp only [Rd.i, Bind.bind, Rd.exact] at h
  split at h
  · rename_i h1
    split at h1
    · cases h1
    · cases h1; cases h
  · cases h

theorem Forward.lift (r : Res α) : Forward (Rd.lift r) := by
  intro data pos a pos' h
  unfold Rd.lift at h
  split at h
  · cases h; omega
  · cases h

theorem NoDiv.lift (n : Nat) {r : Res α} (hr : r ≠ .error .diverge) : NoDiv n (Rd.lift r) := by
  intro data pos _ h
  unfold Rd.lift at h
  split at h
  · cases h
  · cases h; exact hr rfl

theorem Forward.raw (w : Nat) : Forward (Rd.raw w) := by
  intro data pos a pos' h
  unfold Rd.raw at h
  cases h; omega

theorem NoDiv.raw (n w : Nat) : NoDiv n (Rd.raw w) := by
  intro data pos _ h; cases h

theorem Forward.times {p : Rd α} (h : Forward p) (k : Nat) : Forward (p.times k) := by
  induction k with
  | zero => exact Forward.pure _
  | succ k ih => exact Forward.bind h (fun _ => Forward.bind ih (fun _ => Forward.pure _))

theorem NoDiv.times {n : Nat} {p : Rd α} (h0 : NoDiv n p) (h : Forward p) (k : Nat) : NoDiv n (p.times k) := by
  induction k with
  | zero => exact NoDiv.pure _ _
  | succ k ih => exact NoDiv.bind h0 h (fun _ => NoDiv.bind ih (Forward.times h k) (fun _ => NoDiv.pure _ _))

theorem Forward.as {p : Rd α} (h : Forward p) (f : α → β) : Forward (Rd.as p f) := Forward.bind h (fun _ => Forward.pure _)
theorem NoDiv.as {n : Nat} {p : Rd α} (h0 : NoDiv n p) (h : Forward p) (f : α → β) : NoDiv n (Rd.as p f) :=
  NoDiv.bind h0 h (fun _ => NoDiv.pure _ _)
theorem NoDiv.mono {n m : Nat} {p : Rd α} (h : NoDiv n p) (hm : m ≤ n) : NoDiv m p :=
  fun data pos hp => h data pos (by omega)

theorem Forward.bool : Forward Rd.bool := Forward.bind (Forward.u 1) (fun _ => Forward.pure _)
theorem NoDiv.bool (n : Nat) : NoDiv n Rd.bool := NoDiv.bind (NoDiv.u n 1) (Forward.u 1) (fun _ => NoDiv.pure _ _)

end

theorem utf8_ne_diverge (b : Bytes) : utf8 b ≠ .error .diverge := by
  unfold utf8; split <;> simp

theorem parseBinType_ne_diverge (v c : Nat) : parseBinType v c ≠ .error .diverge := by
  have : ∀ n, BinType.ofCode n ≠ .error .diverge := by
    intro n h
    unfold BinType.ofCode at h
    split at h <;> simp at h
  exact this _

theorem Forward.binString : Forward Cdtb.binString :=
  Forward.bind (Forward.u 2) (fun _ => Forward.bind (Forward.raw _) (fun _ => Forward.lift _))
theorem NoDiv.binString (n : Nat) : NoDiv n Cdtb.binString :=
  NoDiv.bind (NoDiv.u n 2) (Forward.u 2) (fun _ => NoDiv.bind (NoDiv.raw _ _) (Forward.raw _)
    (fun _ => NoDiv.lift _ (utf8_ne_diverge _)))

theorem Forward.binField {version : Nat} {rv : BinType → Rd BinValue} (h : ∀ t, Forward (rv t)) :
    Forward (Cdtb.binField version rv) :=
  Forward.bind (Forward.u 4) (fun _ => Forward.bind (Forward.u 1) (fun _ => Forward.bind (Forward.lift _)
    (fun _ => Forward.bind (h _) (fun _ => Forward.pure _))))

theorem NoDiv.binField {n version : Nat} {rv : BinType → Rd BinValue} (h0 : ∀ t, NoDiv n (rv t)) (h : ∀ t, Forward (rv t)) :
    NoDiv n (Cdtb.binField version rv) :=
  NoDiv.bind (NoDiv.u _ 4) (Forward.u 4) (fun _ => NoDiv.bind (NoDiv.u _ 1) (Forward.u 1) (fun _ =>
    NoDiv.bind (NoDiv.lift _ (parseBinType_ne_diverge _ _)) (Forward.lift _) (fun _ =>
      NoDiv.bind (h0 _) (h _) (fun _ => NoDiv.pure _ _))))

theorem Forward.binStructCount (htype : Nat) : Forward (Cdtb.binStructCount htype) := by
  unfold Cdtb.binStructCount
  split
  · exact Forward.pure _
  · exact Forward.bind (Forward.u 4) (fun _ => Forward.u 2)

theorem NoDiv.binStructCount (n htype : Nat) : NoDiv n (Cdtb.binStructCount htype) := by
  unfold Cdtb.binStructCount
  split
  · exact NoDiv.pure _ _
  · exact NoDiv.bind (NoDiv.u _ 4) (Forward.u 4) (fun _ => NoDiv.u _ 2)

theorem Forward.binOptional {rv : Rd BinValue} (h : Forward rv) (b : Bool) : Forward (Cdtb.binOptional rv b) := by
  cases b
  · exact Forward.pure _
  · exact Forward.bind h (fun _ => Forward.pure _)

theorem NoDiv.binOptional {n : Nat} {rv : Rd BinValue} (h0 : NoDiv n rv) (h : Forward rv) (b : Bool) :
    NoDiv n (Cdtb.binOptional rv b) := by
  cases b
  · exact NoDiv.pure _ _
  · exact NoDiv.bind h0 h (fun _ => NoDiv.pure _ _)

theorem Forward.binValue (version fuel : Nat) (t : BinType) : Forward (Cdtb.binValue version fuel t) := by
  induction fuel generalizing t with
  | zero => intro data pos a pos' h; cases h
  | succ fuel ih =>
    have hl : Forward (Cdtb.binList version (Cdtb.binValue version fuel)) :=
      Forward.bind (Forward.u 1) (fun _ => Forward.bind (Forward.u 4) (fun _ => Forward.bind (Forward.u 4) (fun _ =>
        Forward.bind (Forward.lift _) (fun _ => Forward.bind (Forward.times (ih _) _) (fun _ => Forward.pure _)))))
    have hs : Forward (Cdtb.binStruct version (Cdtb.binValue version fuel)) :=
      Forward.bind (Forward.u 4) (fun _ => Forward.bind (Forward.binStructCount _) (fun _ =>
        Forward.bind (Forward.times (Forward.binField ih) _) (fun _ => Forward.pure _)))
    have he : Forward (Cdtb.binEmbedded version (Cdtb.binValue version fuel)) :=
      Forward.bind (Forward.u 4) (fun _ => Forward.bind (Forward.u 4) (fun _ => Forward.bind (Forward.u 2) (fun _ =>
        Forward.bind (Forward.times (Forward.binField ih) _) (fun _ => Forward.pure _))))
    have ho : Forward (Cdtb.binOption version (Cdtb.binValue version fuel)) :=
      Forward.bind (Forward.u 1) (fun _ => Forward.bind Forward.bool (fun _ => Forward.bind (Forward.lift _) (fun _ =>
        Forward.bind (Forward.binOptional (ih _) _) (fun _ => Forward.pure _))))
    have hm : Forward (Cdtb.binMap version (Cdtb.binValue version fuel)) :=
      Forward.bind (Forward.u 1) (fun _ => Forward.bind (Forward.u 1) (fun _ => Forward.bind (Forward.u 4) (fun _ =>
        Forward.bind (Forward.u 4) (fun _ => Forward.bind (Forward.lift _) (fun _ => Forward.bind (Forward.lift _) (fun _ =>
          Forward.bind (Forward.times (Forward.bind (ih _) (fun _ => Forward.bind (ih _) (fun _ => Forward.pure _))) _)
            (fun _ => Forward.pure _)))))))
    cases t with
    | empty => exact Forward.as (Forward.times (Forward.u 2) 3) _
    | bool => exact Forward.as Forward.bool _
    | s8 => exact Forward.as (Forward.i _) _
    | u8 => exact Forward.as (Forward.u _) _
    | s16 => exact Forward.as (Forward.i _) _
    | u16 => exact Forward.as (Forward.u _) _
    | s32 => exact Forward.as (Forward.i _) _
    | u32 => exact Forward.as (Forward.u _) _
    | s64 => exact Forward.as (Forward.i _) _
    | u64 => exact Forward.as (Forward.u _) _
    | float => exact Forward.as (Forward.u _) _
    | vec2 => exact Forward.as (Forward.times (Forward.u _) _) _
    | vec3 => exact Forward.as (Forward.times (Forward.u _) _) _
    | vec4 => exact Forward.as (Forward.times (Forward.u _) _) _
    | matrix => exact Forward.as (Forward.times (Forward.times (Forward.u _) _) _) _
    | rgba => exact Forward.as (Forward.times (Forward.u _) _) _
    | string => exact Forward.as Forward.binString _
    | hash => exact Forward.as (Forward.u _) _
    | path => exact Forward.as (Forward.u _) _
    | list => exact hl
    | list2 => exact hl
    | struct => exact hs
    | embedded => exact he
    | link => exact Forward.as (Forward.u _) _
    | option => exact ho
    | map => exact hm
    | flag => exact Forward.as (Forward.u _) _

theorem NoDiv.binValue (version fuel : Nat) (t : BinType) : NoDiv fuel (Cdtb.binValue version (fuel + 1) t) := by
  induction fuel using Nat.strongRecOn generalizing t with
  | ind fuel ih =>
    have ih' : ∀ m, fuel = m + 1 → ∀ t, NoDiv m (Cdtb.binValue version fuel t) := by
      rintro m rfl t; exact ih m (by omega) t
    have fw := Forward.binValue version fuel
    have hl : NoDiv fuel (Cdtb.binList version (Cdtb.binValue version fuel)) :=
      NoDiv.u_bind (by decide) (fun m hm _ => NoDiv.bind (NoDiv.u _ 4) (Forward.u 4) (fun _ =>
        NoDiv.bind (NoDiv.u _ 4) (Forward.u 4) (fun _ =>
          NoDiv.bind (NoDiv.lift _ (parseBinType_ne_diverge _ _)) (Forward.lift _) (fun _ =>
            NoDiv.bind (NoDiv.times (ih' m hm _) (fw _) _) (Forward.times (fw _) _) (fun _ => NoDiv.pure _ _)))))
    have hs : NoDiv fuel (Cdtb.binStruct version (Cdtb.binValue version fuel)) :=
      NoDiv.u_bind (by decide) (fun m hm _ => NoDiv.bind (NoDiv.binStructCount _ _) (Forward.binStructCount _) (fun _ =>
        NoDiv.bind (NoDiv.times (NoDiv.binField (ih' m hm) fw) (Forward.binField fw) _) (Forward.times (Forward.binField fw) _)
          (fun _ => NoDiv.pure _ _)))
    have he : NoDiv fuel (Cdtb.binEmbedded version (Cdtb.binValue version fuel)) :=
      NoDiv.u_bind (by decide) (fun m hm _ => NoDiv.bind (NoDiv.u _ 4) (Forward.u 4) (fun _ =>
        NoDiv.bind (NoDiv.u _ 2) (Forward.u 2) (fun _ =>
          NoDiv.bind (NoDiv.times (NoDiv.binField (ih' m hm) fw) (Forward.binField fw) _) (Forward.times (Forward.binField fw) _)
            (fun _ => NoDiv.pure _ _))))
    have ho : NoDiv fuel (Cdtb.binOption version (Cdtb.binValue version fuel)) :=
      NoDiv.u_bind (by decide) (fun m hm _ => NoDiv.bind (NoDiv.bool _) Forward.bool (fun _ =>
        NoDiv.bind (NoDiv.lift _ (parseBinType_ne_diverge _ _)) (Forward.lift _) (fun _ =>
          NoDiv.bind (NoDiv.binOptional (ih' m hm _) (fw _) _) (Forward.binOptional (fw _) _) (fun _ => NoDiv.pure _ _))))
    have hm : NoDiv fuel (Cdtb.binMap version (Cdtb.binValue version fuel)) := by
      refine NoDiv.u_bind (by decide) (fun m hm _ => ?_)
      have hp : ∀ kt vt, Forward (binPair (Cdtb.binValue version fuel kt) (Cdtb.binValue version fuel vt)) :=
        fun kt vt => Forward.bind (fw _) (fun _ => Forward.bind (fw _) (fun _ => Forward.pure _))
      have hn : ∀ kt vt, NoDiv m (binPair (Cdtb.binValue version fuel kt) (Cdtb.binValue version fuel vt)) :=
        fun kt vt => NoDiv.bind (ih' m hm _) (fw _) (fun _ => NoDiv.bind (ih' m hm _) (fw _) (fun _ => NoDiv.pure _ _))
      exact NoDiv.bind (NoDiv.u _ 1) (Forward.u 1) (fun _ => NoDiv.bind (NoDiv.u _ 4) (Forward.u 4) (fun _ =>
        NoDiv.bind (NoDiv.u _ 4) (Forward.u 4) (fun _ =>
          NoDiv.bind (NoDiv.lift _ (parseBinType_ne_diverge _ _)) (Forward.lift _) (fun _ =>
            NoDiv.bind (NoDiv.lift _ (parseBinType_ne_diverge _ _)) (Forward.lift _) (fun _ =>
              NoDiv.bind (NoDiv.times (hn _ _) (hp _ _) _) (Forward.times (hp _ _) _) (fun _ => NoDiv.pure _ _))))))
    have hu : ∀ w, NoDiv fuel (Rd.u w) := fun w => NoDiv.u _ w
    have ht : ∀ w k, NoDiv fuel (Rd.times (Rd.u w) k) := fun w k => NoDiv.times (NoDiv.u _ w) (Forward.u w) k
    have ft : ∀ w k, Forward (Rd.times (Rd.u w) k) := fun w k => Forward.times (Forward.u w) k
    cases t with
    | empty => exact NoDiv.as (ht _ _) (ft _ _) _
    | bool => exact NoDiv.as (NoDiv.bool _) Forward.bool _
    | s8 => exact NoDiv.as (NoDiv.i _ _) (Forward.i _) _
    | u8 => exact NoDiv.as (hu _) (Forward.u _) _
    | s16 => exact NoDiv.as (NoDiv.i _ _) (Forward.i _) _
    | u16 => exact NoDiv.as (hu _) (Forward.u _) _
    | s32 => exact NoDiv.as (NoDiv.i _ _) (Forward.i _) _
    | u32 => exact NoDiv.as (hu _) (Forward.u _) _
    | s64 => exact NoDiv.as (NoDiv.i _ _) (Forward.i _) _
    | u64 => exact NoDiv.as (hu _) (Forward.u _) _
    | float => exact NoDiv.as (hu _) (Forward.u _) _
    | vec2 => exact NoDiv.as (ht _ _) (ft _ _) _
    | vec3 => exact NoDiv.as (ht _ _) (ft _ _) _
    | vec4 => exact NoDiv.as (ht _ _) (ft _ _) _
    | matrix => exact NoDiv.as (NoDiv.times (ht _ _) (ft _ _) _) (Forward.times (ft _ _) _) _
    | rgba => exact NoDiv.as (ht _ _) (ft _ _) _
    | string => exact NoDiv.as (NoDiv.binString _) Forward.binString _
    | hash => exact NoDiv.as (hu _) (Forward.u _) _
    | path => exact NoDiv.as (hu _) (Forward.u _) _
    | list => exact hl
    | list2 => exact hl
    | struct => exact hs
    | embedded => exact he
    | link => exact NoDiv.as (hu _) (Forward.u _) _
    | option => exact ho
    | map => exact hm
    | flag => exact NoDiv.as (hu _) (Forward.u _) _

theorem NoDiv.rdAssert (n : Nat) (b : Bool) : NoDiv n (Cdtb.rdAssert b) := by
  intro data pos _ h
  unfold Cdtb.rdAssert at h
  split at h <;> cases h

theorem Forward.rdAssert (b : Bool) : Forward (Cdtb.rdAssert b) := by
  intro data pos a pos' h
  unfold Cdtb.rdAssert at h
  split at h
  · cases h; omega
  · cases h

theorem Forward.tell : Forward Rd.tell := by
  intro data pos a pos' h; cases h; omega
theorem NoDiv.tell (n : Nat) : NoDiv n Rd.tell := by
  intro data pos _ h; cases h

theorem Forward.forList {α β : Type} {p : α → Rd β} (h : ∀ a, Forward (p a)) (l : List α) : Forward (Rd.forList p l) := by
  induction l with
  | nil => exact Forward.pure _
  | cons x l ih => exact Forward.bind (h x) (fun _ => Forward.bind ih (fun _ => Forward.pure _))

theorem NoDiv.forList {α β : Type} {n : Nat} {p : α → Rd β} (h0 : ∀ a, NoDiv n (p a)) (h : ∀ a, Forward (p a)) (l : List α) :
    NoDiv n (Rd.forList p l) := by
  induction l with
  | nil => exact NoDiv.pure _ _
  | cons x l ih => exact NoDiv.bind (h0 x) (h x) (fun _ => NoDiv.bind ih (Forward.forList h l) (fun _ => NoDiv.pure _ _))

/-- Reading stops on every input, whatever it contains: the bound on the recursion is never reached. -/
theorem C22_fuel (btype : Option Nat) (data : Bytes) : parseBin btype data ≠ .error .diverge := by
  have hv : ∀ t, NoDiv data.length (binValue (btypeVersion btype) (data.length + 1) t) := NoDiv.binValue _ _
  have fv := Forward.binValue (btypeVersion btype) (data.length + 1)
  have hf := NoDiv.binField (version := btypeVersion btype) hv fv
  have ff := Forward.binField (version := btypeVersion btype) fv
  have hent : ∀ t, NoDiv data.length (binEntry (binField (btypeVersion btype) (binValue (btypeVersion btype) (data.length + 1))) t) :=
    fun t => NoDiv.bind (NoDiv.tell _) Forward.tell (fun _ => NoDiv.bind (NoDiv.u _ 4) (Forward.u 4) (fun _ =>
      NoDiv.bind (NoDiv.u _ 4) (Forward.u 4) (fun _ => NoDiv.bind (NoDiv.u _ 2) (Forward.u 2) (fun _ =>
        NoDiv.bind (NoDiv.times hf ff _) (Forward.times ff _) (fun _ => NoDiv.bind (NoDiv.tell _) Forward.tell (fun _ =>
          NoDiv.bind (NoDiv.rdAssert _ _) (Forward.rdAssert _) (fun _ => NoDiv.pure _ _)))))))
  have fent : ∀ t, Forward (binEntry (binField (btypeVersion btype) (binValue (btypeVersion btype) (data.length + 1))) t) :=
    fun t => Forward.bind Forward.tell (fun _ => Forward.bind (Forward.u 4) (fun _ =>
      Forward.bind (Forward.u 4) (fun _ => Forward.bind (Forward.u 2) (fun _ =>
        Forward.bind (Forward.times ff _) (fun _ => Forward.bind Forward.tell (fun _ =>
          Forward.bind (Forward.rdAssert _) (fun _ => Forward.pure _)))))))
  have hitem : NoDiv data.length (binPatchItem (btypeVersion btype) (binValue (btypeVersion btype) (data.length + 1))) :=
    NoDiv.bind (NoDiv.u _ 4) (Forward.u 4) (fun _ => NoDiv.bind (NoDiv.u _ 4) (Forward.u 4) (fun _ =>
      NoDiv.bind (NoDiv.u _ 1) (Forward.u 1) (fun _ => NoDiv.bind (NoDiv.lift _ (parseBinType_ne_diverge _ _)) (Forward.lift _) (fun _ =>
        NoDiv.bind (NoDiv.binString _) Forward.binString (fun _ => NoDiv.bind (hv _) (fv _) (fun _ => NoDiv.pure _ _))))))
  have fitem : Forward (binPatchItem (btypeVersion btype) (binValue (btypeVersion btype) (data.length + 1))) :=
    Forward.bind (Forward.u 4) (fun _ => Forward.bind (Forward.u 4) (fun _ =>
      Forward.bind (Forward.u 1) (fun _ => Forward.bind (Forward.lift _) (fun _ =>
        Forward.bind Forward.binString (fun _ => Forward.bind (fv _) (fun _ => Forward.pure _))))))
  have hsec : ∀ b, NoDiv data.length (binPatchSection (btypeVersion btype) (binValue (btypeVersion btype) (data.length + 1)) b) := by
    intro b
    cases b
    · exact NoDiv.pure _ _
    · exact NoDiv.bind (NoDiv.bind (NoDiv.u _ 4) (Forward.u 4) (fun _ => NoDiv.bind (NoDiv.times hitem fitem _)
        (Forward.times fitem _) (fun _ => NoDiv.pure _ _)))
        (Forward.bind (Forward.u 4) (fun _ => Forward.bind (Forward.times fitem _) (fun _ => Forward.pure _)))
        (fun _ => NoDiv.pure _ _)
  have fsec : ∀ b, Forward (binPatchSection (btypeVersion btype) (binValue (btypeVersion btype) (data.length + 1)) b) := by
    intro b
    cases b
    · exact Forward.pure _
    · exact Forward.bind (Forward.bind (Forward.u 4) (fun _ => Forward.bind (Forward.times fitem _) (fun _ => Forward.pure _)))
        (fun _ => Forward.pure _)
  have fmagic : ∀ m, Forward (binMagic m) := by
    intro m
    unfold binMagic
    split
    · exact Forward.bind (Forward.u 4) (fun _ => Forward.bind (Forward.u 4) (fun _ =>
        Forward.bind (Forward.rdAssert _) (fun _ => Forward.raw 4)))
    · exact Forward.pure _
  have hmagic : ∀ m, NoDiv data.length (binMagic m) := by
    intro m
    unfold binMagic
    split
    · exact NoDiv.bind (NoDiv.u _ 4) (Forward.u 4) (fun _ => NoDiv.bind (NoDiv.u _ 4) (Forward.u 4) (fun _ =>
        NoDiv.bind (NoDiv.rdAssert _ _) (Forward.rdAssert _) (fun _ => NoDiv.raw _ 4)))
    · exact NoDiv.pure _ _
  have fcheck : ∀ m, Forward (binCheckMagic m) := by
    intro m data pos a pos' h
    unfold binCheckMagic at h
    split at h
    · cases h
    · cases h; omega
  have hcheck : ∀ m, NoDiv data.length (binCheckMagic m) := by
    intro m data pos _ h
    unfold binCheckMagic at h
    split at h <;> cases h
  have flinked : ∀ v, Forward (binLinked v) := by
    intro v
    unfold binLinked
    split
    · exact Forward.bind (Forward.u 4) (fun _ => Forward.bind (Forward.times Forward.binString _) (fun _ => Forward.pure _))
    · exact Forward.pure _
  have hlinked : ∀ v, NoDiv data.length (binLinked v) := by
    intro v
    unfold binLinked
    split
    · exact NoDiv.bind (NoDiv.u _ 4) (Forward.u 4) (fun _ => NoDiv.bind (NoDiv.times (NoDiv.binString _) Forward.binString _)
        (Forward.times Forward.binString _) (fun _ => NoDiv.pure _ _))
    · exact NoDiv.pure _ _
  have hall : NoDiv data.length (parseBinFuel (data.length + 1) btype) :=
    NoDiv.bind (NoDiv.raw _ 4) (Forward.raw 4) (fun _ => NoDiv.bind (hmagic _) (fmagic _) (fun _ =>
      NoDiv.bind (hcheck _) (fcheck _) (fun _ => NoDiv.bind (NoDiv.u _ 4) (Forward.u 4) (fun _ =>
        NoDiv.bind (hlinked _) (flinked _) (fun _ => NoDiv.bind (NoDiv.u _ 4) (Forward.u 4) (fun _ =>
          NoDiv.bind (NoDiv.times (NoDiv.u _ 4) (Forward.u 4) _) (Forward.times (Forward.u 4) _) (fun _ =>
            NoDiv.bind (NoDiv.forList hent fent _) (Forward.forList fent _) (fun _ =>
              NoDiv.bind (hsec _) (fsec _) (fun _ => NoDiv.pure _ _)))))))))
  intro h
  unfold parseBin Rd.run at h
  have := hall data 0 (by omega)
  rcases e : parseBinFuel (data.length + 1) btype data 0 with er | ⟨a, p⟩
  · rw [e] at h this
    simp only [Except.error.injEq] at h
    exact this (by rw [h])
  · rw [e] at h; cases h

/-! ## Non-vacuity -/

/-- A struct that contains a list of options and a map. -/
example : ∃ bs, Encodes 1400 .struct
    (.struct 5 [.mk 7 .list2 (.list .option [.option .s16 (some (.int (-2))), .option .s16 none]),
                .mk 8 .map (.map .hash .string [.mk (.hashed .hash 1) (.str "é".toList), .mk (.hashed .hash 2) (.str [])])]) bs := by
  refine ⟨_, .struct 5 0 _ _ (by decide) (by decide) (by decide) (by decide)
    (.cons 7 .list2 0x81 _ _ _ _ (by decide) (by decide) (.list .list2 .option 0x85 0 _ _ (Or.inr rfl) (by decide) (by decide) (by decide)
      (.cons _ _ _ _ _ (.something .s16 4 _ _ (by decide) (.sint .s16 2 (-2) (by decide) (by decide) (by decide)))
        (.cons _ _ _ _ _ (.nothing .s16 4 (by decide)) (.nil _))))
    (.cons 8 .map 0x86 _ _ _ _ (by decide) (by decide) (.map .hash .string 17 16 0 _ _ (by decide) (by decide) (by decide) (by decide)
      (by simp [BinValue.sameKey, BinPair.key])
      (.cons _ _ _ _ _ _ _ _ (.hash 1 (by decide)) (.string _ (by decide +kernel))
        (.cons _ _ _ _ _ _ _ _ (.hash 2 (by decide)) (.string [] (by decide)) (.nil _ _)))) .nil))⟩

/-- A patch file of version 3 with an entry. -/
example : ∃ bs, EncodesEntry 1400 { path := 3, type := 4, fields := [.mk 9 .u8 (.int 200)] } bs ∧
    parseBin none (binFileBytes true 3 ["a".toList] [4] [bs] [le 4 3 ++ (le 4 0 ++ (le 1 7 ++ (binText "x".toList ++ le 4 10)))]) =
      .ok { isPatch := true, version := 3, linked := some ["a".toList],
            entries := [{ path := 3, type := 4, fields := [.mk 9 .u8 (.int 200)] }],
            patches := some [{ path := 3, fields := [{ path := "x".toList, type := .u32, value := .int 10 }] }] } := by
  refine ⟨_, .mk 3 4 _ _ (by decide) (by decide) (by decide) ?_
    (.cons 9 .u8 3 (.int 200) _ _ _ (by decide) (by decide) (.uint .u8 1 200 rfl (by decide)) .nil), ?_⟩
  · decide
  · have := C22_file none true 3 ["a".toList] [{ path := 3, type := 4, fields := [.mk 9 .u8 (.int 200)] }] _
      [(3, { path := "x".toList, type := .u32, value := .int 10 })] _ [] (by decide) (by decide)
      (by intro s hs; rw [List.mem_singleton] at hs; subst hs; decide +kernel) (by decide)
      (.cons (.mk 3 4 _ _ (by decide) (by decide) (by decide) (by decide)
        (.cons 9 .u8 3 (.int 200) _ _ _ (by decide) (by decide) (.uint .u8 1 200 rfl (by decide)) .nil)) .nil) (by decide)
      (.cons (.mk 3 0 7 _ _ (by decide) (by decide) (by decide) (by decide +kernel) (.uint .u32 4 10 rfl (by decide))) .nil)
    rw [List.append_nil] at this
    exact this

/-! ## Cases that meet the hypotheses -/

/-- `C22_wrong_length`: an entry of 10 bytes said to have 11 -/
example : parseBin none (binHead false 1 [] [4] ++ ((le 4 11 ++ (le 4 3 ++ (le 2 0 ++ []))) ++ [0, 0, 0, 0, 0])) = .error .assertion :=
  C22_wrong_length none false 1 [] [] [] 3 4 11 [] [] [] [0, 0, 0, 0, 0] (by decide) (by decide) (by simp) (by decide) .nil (by decide) (by simp)
    (by decide) (by decide) (by decide) .nil (by decide)

/-- `C22_map_last` -/
example :
    let ps : List BinPair := [.mk (.int 1) (.int 10), .mk (.int 2) (.int 20), .mk (.int 1) (.int 30)]
    ((mapOfList ps).find? (fun p => p.key.sameKey (.int 1))).map (·.value) = some (.int 30) := rfl

end Cdtb
