import Verif.Model.Manifest
import Verif.Spec.Manifest
import Verif.Props.C32
import Mathlib.Data.List.Nodup
/-!
# C37 Manifest field tables decode present and absent fields
-/
namespace Cdtb
set_option autoImplicit false
open Py Spec

/-- The computation succeeds with this result, whatever the final position. -/
def Gives {α : Type} (p : Rd α) (data : Bytes) (pos : Nat) (a : α) : Prop := ∃ pos', p data pos = .ok (a, pos')

theorem Gives.bind {α β : Type} {p : Rd α} {f : α → Rd β} {data : Bytes} {pos pos' : Nat} {a : α} {b : β}
    (h1 : p data pos = .ok (a, pos')) (h2 : Gives (f a) data pos' b) : Gives (p >>= f) data pos b := by
  obtain ⟨q, h2⟩ := h2
  exact ⟨q, by rw [Rd.bind_ok h1, h2]⟩

theorem Reads.at {α : Type} {p : Rd α} {bs : Bytes} {a : α} (h : Reads p bs a) {data : Bytes} {pos : Nat} (hd : Has data pos bs) :
    p data pos = .ok (a, pos + bs.length) := by
  obtain ⟨h1, h2⟩ := hd
  have := h (data.take pos) (data.drop (pos + bs.length))
  have e : data.take pos ++ bs ++ data.drop (pos + bs.length) = data := by
    rw [List.append_assoc]
    conv_lhs => rw [← h2]
    rw [List.length_take_of_le (by rw [List.length_drop]; omega), ← List.drop_drop, List.take_append_drop, List.take_append_drop]
  rw [e, List.length_take_of_le (by omega)] at this
  exact this

theorem Spec.Has.left {data : Bytes} {p : Nat} {a b : Bytes} (h : Has data p (a ++ b)) : Has data p a := by
  obtain ⟨h1, h2⟩ := h
  rw [List.length_append] at h1 h2
  refine ⟨by omega, ?_⟩
  have := congrArg (List.take a.length) h2
  rw [List.take_take, List.take_left' rfl] at this
  rwa [show min a.length (a.length + b.length) = a.length by omega] at this

theorem Spec.Has.right {data : Bytes} {p : Nat} {a b : Bytes} (h : Has data p (a ++ b)) : Has data (p + a.length) b := by
  obtain ⟨h1, h2⟩ := h
  rw [List.length_append] at h1 h2
  refine ⟨by omega, ?_⟩
  have := congrArg (List.drop a.length) h2
  rw [List.drop_take, List.drop_drop, List.drop_left' rfl] at this
  rwa [show a.length + b.length - a.length = b.length by omega] at this

theorem Spec.Dist.reads {data : Bytes} {at_ p q : Nat} (h : Dist data at_ p q) : Rd.i 4 data at_ = .ok ((q : Int) - p, at_ + 4) := by
  obtain ⟨h1, h2, h3⟩ := h
  have := (Reads.i (w := 4) (n := (q : Int) - p) (by decide) (by simpa using h1) (by simpa using h2)).at h3
  simpa using this

theorem seekAbs_nat (q : Nat) (data : Bytes) (pos : Nat) : seekAbs (q : Int) data pos = .ok ((), q) := by
  unfold seekAbs
  rw [if_neg (by omega)]
  simp [Rd.seek]

theorem seekAbs_eq {p : Int} {q : Nat} (h : p = q) (data : Bytes) (pos : Nat) : seekAbs p data pos = .ok ((), q) := by
  rw [h, seekAbs_nat]

theorem skipRel_eq {n : Int} {pos q : Nat} (h : (pos : Int) + n = q) (data : Bytes) : skipRel n data pos = .ok ((), q) := by
  unfold skipRel
  rw [Rd.bind_ok (a := pos) (pos' := pos) rfl]
  simp [Rd.seek, h]

theorem tell_eq (data : Bytes) (pos : Nat) : Rd.tell data pos = .ok (pos, pos) := rfl
theorem seek_eq (q : Nat) (data : Bytes) (pos : Nat) : Rd.seek q data pos = .ok ((), q) := rfl
theorem pure_eq {α : Type} (a : α) (data : Bytes) (pos : Nat) : (pure a : Rd α) data pos = .ok (a, pos) := rfl
theorem Gives.pure {α : Type} (a : α) (data : Bytes) (pos : Nat) : Gives (Pure.pure a) data pos a := ⟨pos, rfl⟩

/-- The result for a field value -/
def FVal.of : FieldVal → FVal
  | .int _ n => .int n
  | .ref q => .pos q
  | .text s => .str s

/-- The declared format of a field value -/
def Spec.FieldVal.hasFmt : FieldVal → Fmt → Prop
  | .int w _, f => f = .u w
  | .ref _, f => f = .offset
  | .text _, f => f = .str

theorem parseField_gives {data : Bytes} {p : Nat} {v : FieldVal} (h : FieldAt data p v) {fmt : Fmt} (hf : v.hasFmt fmt) (pos : Nat) :
    Gives (parseField p fmt) data pos (FVal.of v) := by
  cases v with
  | int w n =>
    cases hf
    obtain ⟨h1, h2⟩ := h
    unfold parseField
    exact Gives.bind (seek_eq p data pos) (Gives.bind ((Reads.u h1).at h2) (Gives.pure _ _ _))
  | ref q =>
    cases hf
    refine Gives.bind (seek_eq p data pos) (Gives.bind h.reads ?_)
    have : (p : Int) + ((q : Int) - p) = q := by omega
    rw [this]; exact Gives.pure _ _ _
  | text s =>
    cases hf
    obtain ⟨q, h1, h2, h3⟩ := h
    exact Gives.bind (seek_eq p data pos) (Gives.bind h1.reads (Gives.bind (seekAbs_eq (by omega) _ _) (Gives.bind ((Reads.string h2).at h3) (Gives.pure _ _ _))))

theorem slotValue_gives {data : Bytes} {entry : Nat} {slots : List Nat} {i : Nat} {v : Option FieldVal} (h : SlotIs data entry slots i v)
    {fmt : Fmt} (hf : ∀ x, v = some x → x.hasFmt fmt) (pos : Nat) : Gives (slotValue entry slots i fmt) data pos (v.map FVal.of) := by
  unfold slotValue
  cases v with
  | none =>
    unfold SlotIs at h
    cases ho : slots[i]? with
    | none => exact Gives.pure _ _ _
    | some o =>
      rw [ho] at h
      simp only [Option.getD_some] at h
      subst h
      exact Gives.pure _ _ _
  | some x =>
    obtain ⟨h1, h2⟩ := h
    cases ho : slots[i]? with
    | none => rw [ho] at h1; exact absurd rfl h1
    | some o =>
      rw [ho] at h1 h2
      simp only [Option.getD_some] at h1 h2
      cases o with
      | zero => exact absurd rfl h1
      | succ o =>
        obtain ⟨q, hq⟩ := parseField_gives h2 (hf x rfl) pos
        exact Gives.bind hq (Gives.pure _ _ _)

/-- The list of results -/
def fieldList (vals : Nat → Option FieldVal) : Nat → List (Option (Str × Fmt)) → List (Str × Option FVal)
  | _, [] => []
  | i, none :: r => fieldList vals (i + 1) r
  | i, some (name, _) :: r => (name, (vals i).map FVal.of) :: fieldList vals (i + 1) r

theorem parseFields_gives {data : Bytes} {entry : Nat} {slots : List Nat} {vals : Nat → Option FieldVal} (fields : List (Option (Str × Fmt))) (i : Nat)
    (h : ∀ j name fmt, fields[j]? = some (some (name, fmt)) → SlotIs data entry slots (i + j) (vals (i + j)) ∧ ∀ x, vals (i + j) = some x → x.hasFmt fmt)
    (pos : Nat) : Gives (parseFields entry slots i fields) data pos (fieldList vals i fields) := by
  induction fields generalizing i pos with
  | nil => exact Gives.pure _ _ _
  | cons f r ih =>
    have ih' := fun pos => ih (i + 1) (fun j name fmt hj => by
      have := h (j + 1) name fmt (by simpa using hj)
      rwa [show i + (j + 1) = i + 1 + j by omega] at this) pos
    cases f with
    | none => exact ih' pos
    | some nf =>
      obtain ⟨name, fmt⟩ := nf
      have h0 := h 0 name fmt rfl
      rw [Nat.add_zero] at h0
      obtain ⟨q, hq⟩ := slotValue_gives h0.1 h0.2 pos
      obtain ⟨q', hq'⟩ := ih' q
      exact Gives.bind hq (Gives.bind hq' (Gives.pure _ _ _))

theorem fieldList_keys (vals : Nat → Option FieldVal) (fields : List (Option (Str × Fmt))) (i : Nat) :
    (fieldList vals i fields).map (·.1) = fields.filterMap (fun f => f.map (·.1)) := by
  induction fields generalizing i with
  | nil => rfl
  | cons f r ih =>
    cases f with
    | none => simp [fieldList, ih]
    | some nf => simp [fieldList, ih]

theorem fieldList_mem {vals : Nat → Option FieldVal} {fields : List (Option (Str × Fmt))} {i j : Nat} {name : Str} {fmt : Fmt}
    (h : fields[j]? = some (some (name, fmt))) : (name, (vals (i + j)).map FVal.of) ∈ fieldList vals i fields := by
  induction fields generalizing i j with
  | nil => simp at h
  | cons f r ih =>
    cases j with
    | zero =>
      simp only [List.getElem?_cons_zero, Option.some.injEq] at h
      subst h
      simp [fieldList]
    | succ j =>
      have := ih (i := i + 1) (j := j) (by simpa using h)
      rw [show i + 1 + j = i + (j + 1) by omega] at this
      cases f with
      | none => simpa [fieldList] using this
      | some nf => simp only [fieldList]; exact List.mem_cons_of_mem _ this

theorem parseOffsets_reads {slots : List Nat} (h1 : 4 + 2 * slots.length < 256 ^ 2) (h2 : ∀ s ∈ slots, s < 256 ^ 2) {os : Bytes} (ho : os.length = 2)
    {data : Bytes} {p : Nat} (h : Has data p (le 2 (4 + 2 * slots.length) ++ (os ++ slots.flatMap (le 2)))) :
    Gives parseOffsets data p slots := by
  unfold parseOffsets
  refine Gives.bind ((Reads.u h1).at h.left) (Gives.bind (skipRel_eq (q := p + 4) (by simp; omega) data) ?_)
  rw [if_neg (by omega), show (4 + 2 * slots.length - 4) / 2 = slots.length by omega]
  have e := h.right.right
  rw [ho, le_length] at e
  by_cases h0 : slots.length = 0
  · rw [if_pos h0]
    have : slots = [] := List.length_eq_zero_iff.1 h0
    subst this
    exact Gives.pure _ _ _
  · rw [if_neg h0]
    rw [List.flatMap_def] at e
    exact ⟨_, (Reads.times (fun s hs => Reads.u (h2 s hs))).at e⟩

theorem fieldTable_gives {data : Bytes} {entry : Nat} {slots : List Nat} {vals : Nat → Option FieldVal} {fields : List (Option (Str × Fmt))}
    (hv : VTable data entry slots)
    (h : ∀ j name fmt, fields[j]? = some (some (name, fmt)) → SlotIs data entry slots j (vals j) ∧ ∀ x, vals j = some x → x.hasFmt fmt) :
    Gives (parseFieldTable fields) data entry (Dict.ofList (fieldList vals 0 fields)) := by
  obtain ⟨hc, hs, p, os, hd, ho, hh⟩ := hv
  obtain ⟨q, hq⟩ := parseOffsets_reads hc hs ho hh
  obtain ⟨q', hq'⟩ := parseFields_gives (data := data) (entry := entry) (slots := slots) (vals := vals) fields 0
    (fun j name fmt hj => by rw [Nat.zero_add]; exact h j name fmt hj) q
  exact Gives.bind (tell_eq _ _) (Gives.bind hd.reads (Gives.bind (seekAbs_eq (by omega) _ _) (Gives.bind hq (Gives.bind hq' (Gives.pure _ _ _)))))

/-- Fields of an entry: each declared one is its value if its offset exists and is not 0, `None` otherwise,
wherever the table of offsets, the values and the texts are. -/
theorem C37_fields {data : Bytes} {entry : Nat} {slots : List Nat} {vals : Nat → Option FieldVal} {fields : List (Option (Str × Fmt))}
    (hv : VTable data entry slots)
    (h : ∀ j name fmt, fields[j]? = some (some (name, fmt)) → SlotIs data entry slots j (vals j) ∧ ∀ x, vals j = some x → x.hasFmt fmt)
    (hn : (fields.filterMap (fun f => f.map (·.1))).Nodup) :
    ∃ d pos, parseFieldTable fields data entry = .ok (d, pos) ∧
      (∀ j name fmt, fields[j]? = some (some (name, fmt)) → d.get? name = some ((vals j).map FVal.of)) ∧
      (∀ name, name ∈ d.keys ↔ ∃ fmt, some (name, fmt) ∈ fields) := by
  obtain ⟨pos, hp⟩ := fieldTable_gives hv h
  refine ⟨_, pos, hp, ?_, ?_⟩
  · intro j name fmt hj
    have hm := fieldList_mem (vals := vals) (i := 0) hj
    rw [Nat.zero_add] at hm
    have hnd : ((fieldList vals 0 fields).map (·.1)).Nodup := by rw [fieldList_keys]; exact hn
    rw [Dict.ofList_of_nodup hnd]
    exact Dict.get?_of_mem hnd hm
  · intro name
    rw [Dict.mem_keys_ofList, fieldList_keys, List.mem_filterMap]
    constructor
    · rintro ⟨f, hf, he⟩
      cases f with
      | none => cases he
      | some nf => simp only [Option.map_some, Option.some.injEq] at he; exact ⟨nf.2, by rw [← he]; exact hf⟩
    · rintro ⟨fmt, hf⟩
      exact ⟨_, hf, rfl⟩

theorem tableEntry_ok {α : Type} {p : Rd α} {data : Bytes} {pos q : Nat} {a : α} (hd : Dist data pos pos q) (h : Gives p data q a) :
    tableEntry p data pos = .ok (a, pos + 4) := by
  obtain ⟨q', h⟩ := h
  unfold tableEntry
  rw [Rd.bind_ok (tell_eq _ _), Rd.bind_ok hd.reads, Rd.bind_ok (seekAbs_eq (q := q) (by omega) _ _), Rd.bind_ok h, Rd.bind_ok (seek_eq _ _ _)]
  rfl

/-- Tables: the entries, in order, wherever they are. -/
theorem C37_table {α β : Type} {data : Bytes} {pos : Nat} {E : Nat → α → Prop} {l : List α} {p : Rd β} {dec : α → β}
    (ht : TableAt data pos E l) (h : ∀ q a, E q a → Gives p data q (dec a)) :
    parseTable p data pos = .ok (l.map dec, pos + 4 + 4 * l.length) := by
  obtain ⟨h1, h2, h3⟩ := ht
  have e : Rd.i 4 data pos = .ok ((l.length : Int), pos + 4) := by
    have hd : Dist data pos 0 l.length := by
      refine ⟨by omega, by omega, ?_⟩
      have e : leI 4 ((l.length : Nat) - ((0 : Nat) : Int)) = le 4 l.length := by
        unfold leI
        congr 1
        omega
      rw [e]; exact h2
    have := hd.reads
    simpa using this
  unfold parseTable
  rw [Rd.bind_ok e, Int.toNat_natCast]
  have : ∀ (l : List α) (pos : Nat), (∀ i (hi : i < l.length), ∃ q, Dist data (pos + 4 * i) (pos + 4 * i) q ∧ E q l[i]) →
      Rd.times (tableEntry p) l.length data pos = .ok (l.map dec, pos + 4 * l.length) := by
    intro l
    induction l with
    | nil => intro pos _; rfl
    | cons a l ih =>
      intro pos hl
      obtain ⟨q, hq, hE⟩ := hl 0 (by simp)
      rw [Nat.mul_zero, Nat.add_zero] at hq
      rw [List.length_cons, Rd.times, Rd.bind_ok (tableEntry_ok hq (h q a hE))]
      rw [Rd.bind_ok (ih (pos + 4) (fun i hi => by
        have := hl (i + 1) (by simpa using hi)
        rw [show pos + 4 * (i + 1) = pos + 4 + 4 * i by omega] at this
        simpa using this))]
      rw [pure_eq]
      simp only [List.map_cons]
      congr 2
      omega
  exact this l (pos + 4) h3

/-- A table of offsets that says to be smaller than its own header is an error. -/
theorem C37_bad_table {data : Bytes} {entry p size : Nat} {fields : List (Option (Str × Fmt))} (hd : Dist data entry p entry) (hs : size < 4)
    (hh : Has data p (le 2 size)) : parseFieldTable fields data entry = .error .struct := by
  unfold parseFieldTable
  rw [Rd.bind_ok (tell_eq _ _), Rd.bind_ok hd.reads, Rd.bind_ok (seekAbs_eq (q := p) (by omega) _ _)]
  apply Rd.bind_error
  unfold parseOffsets
  rw [Rd.bind_ok ((Reads.u (w := 2) (by omega)).at hh), Rd.bind_ok (skipRel_eq (q := p + 4) (by simp; omega) data), if_pos hs]
  rfl

/-! Non-vacuity: an entry at 10, its table at 0 with three slots (the second one 0), a field beyond the table -/
def exEntryData : Bytes := [10, 0, 0, 0, 4, 0, 0, 0, 8, 0] ++ [10, 0, 0, 0, 7, 0, 0, 0, 4, 0, 0, 0] ++ [1, 0, 0, 0, 97]
def exEntryFields : List (Option (Str × Fmt)) := [some ("n".toList, .u 4), none, some ("s".toList, .str), some ("x".toList, .u 8)]
example : (match parseFieldTable exEntryFields exEntryData 10 with | .ok (d, _) => some d | .error _ => none) =
    some [("n".toList, some (.int 7)), ("s".toList, some (.str "a".toList)), ("x".toList, none)] := by decide +kernel
theorem exVTable : VTable exEntryData 10 [4, 0, 8] :=
  ⟨by decide, by decide, 0, [0, 0], ⟨by decide, by decide, by decide, by decide +kernel⟩, rfl, by decide, by decide +kernel⟩
example : SlotIs exEntryData 10 [4, 0, 8] 2 (some (.text "a".toList)) :=
  ⟨by decide, 22, ⟨by decide, by decide, by decide, by decide +kernel⟩, (by unfold Fits32; decide +kernel), by decide, by decide +kernel⟩

end Cdtb
