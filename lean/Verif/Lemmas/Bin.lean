import Verif.Spec.Bin
import Verif.Lemmas.Struct
import Verif.Lemmas.Dict
import Verif.Props.C21
/-!
# Lemmas on reading BIN files
-/
namespace Cdtb
set_option autoImplicit false
open Py Spec

theorem Reads.as {α β : Type} {p : Rd α} {f : α → β} {bs : Bytes} {a : α} (h : Reads p bs a) : Reads (Rd.as p f) bs (f a) :=
  Reads.map h rfl

theorem binString_reads {s : Str} (h : TextFits s) : Reads binString (binText s) s := by
  refine Reads.bind (Reads.u h) ?_
  have := Reads.bind (f := fun b => Rd.lift (utf8 b)) (Reads.raw (utf8Bytes s)) (Reads.lift (utf8_utf8Bytes s))
  simpa using this

theorem typeCode_lt {version c : Nat} {t : BinType} (h : typeCode version t = some c) : c < 256 := by
  have key : ∀ t ∈ allBinTypes, ∀ f ∈ [oldCode, middleCode, newCode],
      (match f t with | some c => decide (c < 256) | none => true) = true := by decide +kernel
  have h' : ∃ f ∈ [oldCode, middleCode, newCode], f t = some c := by
    unfold typeCode at h
    split at h
    · exact ⟨oldCode, by simp, h⟩
    · split at h
      · exact ⟨middleCode, by simp, h⟩
      · exact ⟨newCode, by simp, h⟩
  obtain ⟨f, hf, h'⟩ := h'
  have := key t (mem_allBinTypes t) f hf
  rw [h'] at this
  simpa using this

theorem parse_typeCode {version c : Nat} {t : BinType} (h : typeCode version t = some c) :
    parseBinType version c = .ok t := (C21_code version c (typeCode_lt h) t).2 h

theorem code_reads {version c : Nat} {t : BinType} (h : typeCode version t = some c) : Reads (Rd.u 1) (le 1 c) c :=
  Reads.u (by have := typeCode_lt h; omega)

theorem mapSet_append {d : List BinPair} {k v : BinValue} (h : ∀ p ∈ d, p.key.sameKey k = false) :
    mapSet d k v = d ++ [.mk k v] := by
  induction d with
  | nil => rfl
  | cons p d ih =>
    obtain ⟨k', v'⟩ := p
    have h1 : k'.sameKey k = false := h _ (List.mem_cons_self)
    rw [mapSet, h1, if_neg (by decide), ih (fun p hp => h p (List.mem_cons_of_mem _ hp))]
    rfl

theorem foldl_mapSet_distinct (ps d : List BinPair)
    (h : (d ++ ps).Pairwise (fun p q => p.key.sameKey q.key = false)) :
    ps.foldl (fun d p => mapSet d p.key p.value) d = d ++ ps := by
  induction ps generalizing d with
  | nil => simp
  | cons p ps ih =>
    rw [List.foldl_cons]
    have h1 : mapSet d p.key p.value = d ++ [p] := by
      rw [mapSet_append]
      · cases p; rfl
      · intro q hq
        rw [List.pairwise_append] at h
        exact h.2.2 q hq p (List.mem_cons_self)
    rw [h1, ih]
    · simp
    · simpa using h

theorem mapOfList_distinct {ps : List BinPair} (h : ps.Pairwise (fun p q => p.key.sameKey q.key = false)) :
    mapOfList ps = ps := by
  unfold mapOfList
  rw [foldl_mapSet_distinct ps [] (by simpa using h)]
  rfl

theorem listU_reads {w : Nat} {l : List Nat} (h : ∀ x ∈ l, x < 256 ^ w) :
    Reads (Rd.times (Rd.u w) l.length) (l.flatMap (le w)) l := by
  rw [List.flatMap_def]
  exact Reads.times (fun x hx => Reads.u (h x hx))

mutual
theorem binValue_reads {version : Nat} {t : BinType} {v : BinValue} {bs : Bytes} (h : Encodes version t v bs)
    (fuel : Nat) (hf : bs.length < fuel) : Reads (binValue version fuel t) bs v := by
  obtain ⟨fuel, rfl⟩ : ∃ n, fuel = n + 1 := ⟨fuel - 1, by omega⟩
  cases h with
  | empty a b c ha hb hc =>
    have := listU_reads (w := 2) (l := [a, b, c]) (by
      intro x hx; simp only [List.mem_cons, List.not_mem_nil, or_false] at hx
      rcases hx with rfl | rfl | rfl <;> assumption)
    exact Reads.as (by simpa using this)
  | bool b => exact Reads.as (Reads.bool b)
  | sint _ w n hw h1 h2 =>
    cases t <;> simp only [signedWidth, Option.some.injEq, reduceCtorEq] at hw <;> subst hw <;>
      exact Reads.as (Reads.i (by decide) h1 h2)
  | uint _ w n hw h1 =>
    cases t <;> simp only [unsignedWidth, Option.some.injEq, reduceCtorEq] at hw <;> subst hw <;>
      exact Reads.as (f := fun n : Nat => BinValue.int n) (Reads.u h1)
  | float bits hb => exact Reads.as (Reads.u hb)
  | vec _ l hl hx =>
    have := listU_reads hx
    cases t <;> simp only [vecLength, Option.some.injEq, reduceCtorEq] at hl <;> rw [← hl] at this <;>
      exact Reads.as this
  | matrix rows h1 h2 =>
    refine Reads.as ?_
    have := Reads.times (p := Rd.times (Rd.u 4) 4) (enc := fun r : List Nat => r.flatMap (le 4)) (as := rows) (by
      intro r hr
      have := listU_reads (h2 r hr).2
      rwa [(h2 r hr).1] at this)
    rw [h1] at this
    rw [List.flatMap_def]
    exact this
  | rgba l h1 h2 =>
    refine Reads.as ?_
    have := listU_reads (w := 1) (l := l) (by simpa using h2)
    rwa [h1] at this
  | string s hs => exact Reads.as (binString_reads hs)
  | hash h hh => exact Reads.as (Reads.u hh)
  | path h hh => exact Reads.as (Reads.u hh)
  | link h hh => exact Reads.as (Reads.u hh)
  | list _ vt c size vs b ht hc hs hn hb =>
    have key : Reads (binList version (binValue version fuel))
        (le 1 c ++ (le 4 size ++ (le 4 vs.length ++ b))) (.list vt vs) := by
      refine Reads.bind (code_reads hc) (Reads.bind (Reads.u hs) (Reads.bind (Reads.u hn) ?_))
      refine Reads.bind_nil (Reads.lift (parse_typeCode hc)) ?_
      refine Reads.map (binList_reads hb fuel ?_) rfl
      simp only [List.length_append, le_length] at hf; omega
    rcases ht with rfl | rfl <;> exact key
  | null => exact Reads.bind (Reads.u (by decide)) (cs := []) (Reads.pure _)
  | struct htype size fs b h0 hh hs hn hb =>
    refine Reads.bind (Reads.u hh) ?_
    have hcount : Reads (binStructCount htype) (le 4 size ++ le 2 fs.length) fs.length := by
      unfold binStructCount
      rw [if_neg h0]
      exact Reads.bind (Reads.u hs) (Reads.u hn)
    have := Reads.bind (f := fun count => do
      let fields ← Rd.times (binField version (binValue version fuel)) count
      pure (BinValue.struct htype fields)) hcount
      (Reads.map (binFields_reads hb fuel (by simp only [List.length_append, le_length] at hf; omega)) rfl)
    simpa only [List.append_assoc] using this
  | embedded htype size fs b hh hs hn hb =>
    refine Reads.bind (Reads.u hh) (Reads.bind (Reads.u hs) (Reads.bind (Reads.u hn) ?_))
    exact Reads.map (binFields_reads hb fuel (by simp only [List.length_append, le_length] at hf; omega)) rfl
  | nothing vt c hc =>
    refine Reads.bind (code_reads hc) (Reads.map (Reads.bool false) ?_)
    simp only [parse_typeCode hc]
    rfl
  | something vt c v b hc hb =>
    refine Reads.bind (code_reads hc) (Reads.bind (Reads.bool true) ?_)
    refine Reads.bind_nil (Reads.lift (parse_typeCode hc)) ?_
    refine Reads.map (a := some v) ?_ rfl
    refine Reads.map (binValue_reads hb fuel ?_) rfl
    simp only [List.length_append, le_length, List.length_cons, List.length_nil] at hf; omega
  | map kt vt ck cv size ps b hck hcv hs hn hd hb =>
    refine Reads.bind (code_reads hck) (Reads.bind (code_reads hcv) (Reads.bind (Reads.u hs) (Reads.bind (Reads.u hn) ?_)))
    refine Reads.bind_nil (Reads.lift (parse_typeCode hck)) ?_
    refine Reads.bind_nil (Reads.lift (parse_typeCode hcv)) ?_
    refine Reads.map (binPairs_reads hb fuel ?_) ?_
    · simp only [List.length_append, le_length] at hf; omega
    · simp only [mapOfList_distinct hd]
theorem binList_reads {version : Nat} {t : BinType} {vs : List BinValue} {bs : Bytes} (h : EncodesList version t vs bs)
    (fuel : Nat) (hf : bs.length < fuel) : Reads (Rd.times (binValue version fuel t) vs.length) bs vs := by
  cases h with
  | nil => exact Reads.pure _
  | cons _ v b vs bs h1 h2 =>
    rw [List.length_append] at hf
    exact Reads.bind (binValue_reads h1 fuel (by omega)) (Reads.map (binList_reads h2 fuel (by omega)) rfl)
theorem binFields_reads {version : Nat} {fs : List BinField} {bs : Bytes} (h : EncodesFields version fs bs)
    (fuel : Nat) (hf : bs.length < fuel) : Reads (Rd.times (binField version (binValue version fuel)) fs.length) bs fs := by
  cases h with
  | nil => exact Reads.pure _
  | cons name t c v b fs bs hn hc h1 h2 =>
    simp only [List.length_append, le_length] at hf
    refine Reads.bind ?_ (Reads.map (binFields_reads h2 fuel (by omega)) rfl)
    refine Reads.bind (Reads.u hn) (Reads.bind (code_reads hc) ?_)
    refine Reads.bind_nil (Reads.lift (parse_typeCode hc)) ?_
    exact Reads.map (binValue_reads h1 fuel (by omega)) rfl
theorem binPairs_reads {version : Nat} {kt vt : BinType} {ps : List BinPair} {bs : Bytes}
    (h : EncodesPairs version kt vt ps bs) (fuel : Nat) (hf : bs.length < fuel) :
    Reads (Rd.times (binPair (binValue version fuel kt) (binValue version fuel vt)) ps.length) bs ps := by
  cases h with
  | nil => exact Reads.pure _
  | cons _ _ k v bk bv ps bs h1 h2 h3 =>
    simp only [List.length_append] at hf
    refine Reads.bind ?_ (Reads.map (binPairs_reads h3 fuel (by omega)) rfl)
    exact Reads.bind (binValue_reads h1 fuel (by omega)) (Reads.map (binValue_reads h2 fuel (by omega)) rfl)
end

end Cdtb
