import Verif.Model.Releases
import Verif.Spec.Releases
import Verif.Lemmas.Patcher
import Verif.Props.C05
/-!
# C50  Manifest URLs are mapped to the same path as on the CDN
-/
namespace Cdtb
set_option autoImplicit false
open Py Spec

theorem replaceGo_drop (old new : Str) (k : Nat) (s : Str) : replaceGo old new k s = replaceGo old new 0 (s.drop k) := by
  induction k generalizing s with
  | zero => simp
  | succ k ih => cases s with
    | nil => simp [replaceGo]
    | cons c r => simp only [replaceGo, List.drop_succ_cons]; exact ih r

theorem withoutSecure_replace (s : Str) : WithoutSecure s (replaceGo ".secure.".toList ".".toList 0 s) := by
  generalize hn : s.length = n
  induction n using Nat.strongRecOn generalizing s with
  | ind n ih =>
    cases s with
    | nil => simpa [replaceGo] using WithoutSecure.nil
    | cons c r =>
      unfold replaceGo
      split
      · rename_i h
        obtain ⟨t, ht⟩ := List.isPrefixOf_iff_prefix.1 h
        rw [replaceGo_drop]
        have hr : List.drop (".secure.".toList.length - 1) r = t := by
          have : List.drop (".secure.".toList.length) (c :: r) = t := by rw [← ht]; simp
          simpa using this
        rw [hr, ← ht]
        exact .secure (ih t.length (by rw [← hn, ← ht]; simp; omega) t rfl)
      · rename_i h
        exact .char (fun hp => h (List.isPrefixOf_iff_prefix.2 hp)) (ih r.length (by rw [← hn]; simp) r rfl)

theorem withoutSecure_unique {s t t' : Str} (h : WithoutSecure s t) (h' : WithoutSecure s t') : t = t' := by
  induction h generalizing t' with
  | nil => cases h'; rfl
  | @secure s t _ ih =>
    generalize hx : ".secure.".toList ++ s = x at h'
    cases h' with
    | nil => simp at hx
    | @secure s2 t2 h2 => rw [List.append_cancel_left hx] at ih; rw [ih h2]
    | char hn _ => exact absurd ⟨s, hx⟩ hn
  | @char c s t hn _ ih =>
    generalize hx : c :: s = x at h'
    cases h' with
    | nil => simp at hx
    | @secure s2 t2 h2 => exact absurd ⟨s2, hx.symm⟩ hn
    | char _ h2 => simp only [List.cons.injEq] at hx; obtain ⟨rfl, rfl⟩ := hx; rw [ih h2]

theorem isHexU_iff (c : Char) : isHexU c = true ↔ c ∈ hexDigitsU := by
  have key : ∀ n < 71, isHexU (Char.ofNat n) = true ↔ Char.ofNat n ∈ hexDigitsU := by decide +kernel
  by_cases h : c.toNat < 71
  · have := key _ h
    rwa [Char.ofNat_toNat] at this
  · constructor
    · intro h2; simp [isHexU] at h2; omega
    · intro h2
      have : ∀ c ∈ hexDigitsU, c.toNat < 71 := by decide +kernel
      exact absurd (this c h2) h

theorem hexU_lower : ∀ c ∈ hexDigitsU, c ≠ '_' ∧ digitVal 16 c = some (hexDigitsU.idxOf c) ∧ isSpace c = false ∧ c ≠ '-' ∧ c ≠ '+' ∧
    c ≠ 'x' ∧ c ≠ 'X' := by decide +kernel

theorem digitsGo_hexU (s : Str) (h : ∀ c ∈ s, c ∈ hexDigitsU) (a : Nat) (prev : Bool) (hp : s = [] → prev = true) :
    digitsGo 16 a prev s = some (s.foldl (fun a c => 16 * a + hexDigitsU.idxOf c) a) := by
  induction s generalizing a prev with
  | nil => simp [digitsGo, hp rfl]
  | cons c s ih =>
    have hc := hexU_lower c (h c (by simp))
    simp only [digitsGo, if_neg hc.1, hc.2.1, List.foldl_cons]
    rw [ih (fun c hc => h c (by simp [hc])) _ _ (fun _ => rfl), Nat.mul_comm]

theorem int16_hexU {s : Str} (h : ∀ c ∈ s, c ∈ hexDigitsU) (hne : s ≠ []) :
    int16 s = some (s.foldl (fun a c => 16 * a + hexDigitsU.idxOf c) 0 : Nat) := by
  have hs : strip s = s := strip_eq_self fun c hc => (hexU_lower c (h c hc)).2.2.1
  have hd : dropHexPrefix s = s := dropHexPrefix_of_no_x fun c hc => ⟨(hexU_lower c (h c hc)).2.2.2.2.2.1, (hexU_lower c (h c hc)).2.2.2.2.2.2⟩
  have hgo := digitsGo_hexU s h 0 false (fun e => absurd e hne)
  unfold int16
  rw [hs]
  cases s with
  | nil => exact absurd rfl hne
  | cons c r =>
    have hc := hexU_lower c (h c (by simp))
    split
    · rename_i heq; simp only [List.cons.injEq] at heq; exact absurd heq.1 hc.2.2.2.1
    · rename_i heq; simp only [List.cons.injEq] at heq; exact absurd heq.1 hc.2.2.2.2.1
    · rw [hd, hgo]; rfl

theorem hexU_value_lt (s : Str) (h : ∀ c ∈ s, c ∈ hexDigitsU) : s.foldl (fun a c => 16 * a + hexDigitsU.idxOf c) 0 < 16 ^ s.length := by
  have key : ∀ (s : Str) (a : Nat), (∀ c ∈ s, c ∈ hexDigitsU) →
      s.foldl (fun a c => 16 * a + hexDigitsU.idxOf c) a < (a + 1) * 16 ^ s.length := by
    intro s
    induction s with
    | nil => intro a _; simp
    | cons c s ih =>
      intro a h
      have hlt : hexDigitsU.idxOf c < 16 := List.idxOf_lt_length_of_mem (h c (by simp))
      have h1 := ih (16 * a + hexDigitsU.idxOf c) (fun c hc => h c (by simp [hc]))
      rw [List.foldl_cons]
      refine Nat.lt_of_lt_of_le h1 ?_
      rw [List.length_cons, Nat.pow_succ, Nat.mul_comm (16 ^ s.length) 16, ← Nat.mul_assoc]
      exact Nat.mul_le_mul_right _ (by omega)
  simpa using key s 0 h

theorem startsWith_split {s p : Str} (h : startsWith s p = true) : s = p ++ s.drop p.length := by
  obtain ⟨t, rfl⟩ := startsWith_iff.1 h
  simp

theorem matchManifest_some {s h : Str} : matchManifest s = some h ↔
    h.length = 16 ∧ (∀ c ∈ h, c ∈ hexDigitsU) ∧ (s = manifestPath h ∨ s = manifestPath h ++ ['\n']) := by
  unfold matchManifest manifestPath
  constructor
  · intro hm
    simp only at hm
    split at hm
    · rename_i hp
      split at hm
      · rename_i hc
        cases hm
        refine ⟨hc.1, fun c hc' => (isHexU_iff c).1 (List.all_eq_true.1 hc.2.1 c hc'), ?_⟩
        have h1 := startsWith_split hp
        have h2 := (List.take_append_drop 16 (List.drop "channels/public/releases/".toList.length s)).symm
        rcases hc.2.2 with h3 | h3
        · left
          rw [h3] at h2
          rw [List.append_assoc, ← h2]; exact h1
        · right
          rw [h3] at h2
          have : ".manifest".toList ++ ['\n'] = ".manifest\n".toList := by decide
          rw [List.append_assoc, List.append_assoc, this, ← h2]; exact h1
      · simp at hm
    · simp at hm
  · rintro ⟨h1, h2, h3⟩
    have hall : h.all isHexU = true := List.all_eq_true.2 fun c hc => (isHexU_iff c).2 (h2 c hc)
    have key : ∀ r, s = "channels/public/releases/".toList ++ (h ++ r) → (r = ".manifest".toList ∨ r = ".manifest\n".toList) →
        (if startsWith s "channels/public/releases/".toList then
          if (((s.drop "channels/public/releases/".toList.length).take 16).length = 16 ∧
            ((s.drop "channels/public/releases/".toList.length).take 16).all isHexU = true ∧
            ((s.drop "channels/public/releases/".toList.length).drop 16 = ".manifest".toList ∨
              (s.drop "channels/public/releases/".toList.length).drop 16 = ".manifest\n".toList))
          then some ((s.drop "channels/public/releases/".toList.length).take 16) else none else none) = some h := by
      intro r hr hc
      have e1 : s.drop "channels/public/releases/".toList.length = h ++ r := by rw [hr, List.drop_left]
      rw [if_pos (startsWith_iff.2 ⟨_, hr⟩), e1]
      have e2 : (h ++ r).take 16 = h := by rw [← h1, List.take_left]
      have e3 : (h ++ r).drop 16 = r := by rw [← h1, List.drop_left]
      rw [e2, e3, if_pos ⟨h1, hall, hc⟩]
    rcases h3 with h3 | h3
    · exact key ".manifest".toList (by rw [h3, List.append_assoc]) (Or.inl rfl)
    · refine key ".manifest\n".toList ?_ (Or.inr rfl)
      rw [h3, List.append_assoc, List.append_assoc]
      have : ".manifest".toList ++ ['\n'] = ".manifest\n".toList := by decide
      rw [this]

/-- The id of a URL: exactly the URLs which, without ".secure", are the URL of a manifest on the CDN (possibly
followed by a line feed) are accepted. -/
theorem toId_url (u v : Str) (hv : WithoutSecure u v) :
    (∃ h n, HexU16 h n ∧ (v = cdnUrl ++ manifestPath h ∨ v = cdnUrl ++ manifestPath h ++ ['\n']) ∧
      (ManifestRef.url u).toId = .ok (n : Int)) ∨
    ((∀ h n, HexU16 h n → v ≠ cdnUrl ++ manifestPath h ∧ v ≠ cdnUrl ++ manifestPath h ++ ['\n']) ∧
      (ManifestRef.url u).toId = .error .value) := by
  have hr := withoutSecure_unique (withoutSecure_replace u) hv
  unfold ManifestRef.toId
  simp only [hr]
  by_cases hp : startsWith v patcherUrl = true
  · rw [if_neg (by simp [hp])]
    have hsplit := startsWith_split hp
    cases hm : matchManifest (v.drop patcherUrl.length) with
    | none =>
      right
      refine ⟨?_, rfl⟩
      intro h n hh
      constructor
      · intro e
        have : matchManifest (v.drop patcherUrl.length) = some h := by
          rw [matchManifest_some]
          refine ⟨hh.length, hh.digits, Or.inl ?_⟩
          rw [e]; exact List.drop_left
        rw [hm] at this; exact absurd this (by simp)
      · intro e
        have : matchManifest (v.drop patcherUrl.length) = some h := by
          rw [matchManifest_some]
          refine ⟨hh.length, hh.digits, Or.inr ?_⟩
          rw [e, List.append_assoc]; exact List.drop_left
        rw [hm] at this; exact absurd this (by simp)
    | some h =>
      left
      obtain ⟨h1, h2, h3⟩ := matchManifest_some.1 hm
      refine ⟨h, _, ⟨h1, h2, rfl⟩, ?_, ?_⟩
      · rcases h3 with h3 | h3
        · left; rw [← h3]; exact hsplit
        · right; rw [List.append_assoc, ← h3]; exact hsplit
      · simp only [int16_hexU h2 (by rintro rfl; simp at h1)]; rfl
  · right
    refine ⟨?_, ?_⟩
    · intro h n hh
      constructor
      · intro e; exact hp (startsWith_iff.2 ⟨_, e⟩)
      · intro e; exact hp (startsWith_iff.2 ⟨_, by rw [e, List.append_assoc]; rfl⟩)
    · rw [if_pos (by simp [hp])]; rfl

theorem manifestRel_hexU {h : Str} {n : Nat} (hh : HexU16 h n) : manifestRel n = manifestPath h := by
  have hn : n < 2 ^ 64 := by
    have := hexU_value_lt h hh.digits
    rw [hh.value, hh.length] at this
    simpa using this
  unfold manifestRel hexInt16U manifestPath
  rw [if_neg (by omega)]
  simp only [Int.natAbs_natCast]
  rw [hexU16_unique (hexU16_hexWU hn) hh]

/-- What the call does once the path is known: the file at this path of the CDN is downloaded to the same path
of the storage, and the path is returned. -/
def Downloads (base : Str) (fs : FS) (response : Str → Res Bytes) (faults : WriteFaults) (path : Str)
    (r : FS × Res Str × Bool) : Prop :=
  let d := download base fs ⟨path, none, false, response path, faults⟩
  r.1 = d.1 ∧ r.2.2 = d.2.2 ∧ r.2.1 = d.2.1.map (fun _ => path)

theorem downloadManifest_ok {base : Str} {fs : FS} {response : Str → Res Bytes} {faults : WriteFaults} {ref : ManifestRef} {n : Int}
    (h : ref.toId = .ok n) : Downloads base fs response faults (manifestRel n) (downloadManifest base fs response faults ref) := by
  unfold downloadManifest Downloads
  rw [h]
  simp only
  rcases download base fs ⟨manifestRel n, none, false, response (manifestRel n), faults⟩ with ⟨fs', r | r, q⟩
  · exact ⟨rfl, rfl, rfl⟩
  · exact ⟨rfl, rfl, rfl⟩

/-- For every text: if, once every ".secure." is replaced by ".", it is the URL of a manifest on the CDN (its id
written with 16 uppercase hexadecimal digits, possibly followed by a line feed) then the manifest is downloaded to,
and returned as, the path of this URL; otherwise `ValueError` is raised, no request is made and the disk is unchanged. -/
theorem C50_url (base : Str) (fs : FS) (response : Str → Res Bytes) (faults : WriteFaults) (u v : Str) (hv : WithoutSecure u v) :
    (∃ h n, HexU16 h n ∧ (v = cdnUrl ++ manifestPath h ∨ v = cdnUrl ++ manifestPath h ++ ['\n']) ∧
      Downloads base fs response faults (manifestPath h) (downloadManifest base fs response faults (.url u))) ∨
    ((∀ h n, HexU16 h n → v ≠ cdnUrl ++ manifestPath h ∧ v ≠ cdnUrl ++ manifestPath h ++ ['\n']) ∧
      downloadManifest base fs response faults (.url u) = (fs, .error .value, false)) := by
  rcases toId_url u v hv with ⟨h, n, h1, h2, h3⟩ | ⟨h1, h2⟩
  · left
    refine ⟨h, n, h1, h2, ?_⟩
    rw [← manifestRel_hexU h1]
    exact downloadManifest_ok h3
  · right
    refine ⟨h1, ?_⟩
    unfold downloadManifest
    rw [h2]

/-- Every text has one form without ".secure". -/
theorem C50_without_secure (u : Str) : ∃! v, WithoutSecure u v :=
  ⟨_, withoutSecure_replace u, fun _ h => withoutSecure_unique h (withoutSecure_replace u)⟩

/-- No "." of the text is its last character or followed by "s". -/
def plainDots : Str → Bool
  | [] => true
  | [c] => c ≠ '.'
  | c :: d :: r => (c ≠ '.' || d ≠ 's') && plainDots (d :: r)

theorem withoutSecure_append {a s t : Str} (h : plainDots a = true) (hs : WithoutSecure s t) : WithoutSecure (a ++ s) (a ++ t) := by
  induction a with
  | nil => exact hs
  | cons c a ih =>
    have hrest : plainDots a = true := by
      cases a with
      | nil => rfl
      | cons d r => simp only [plainDots, Bool.and_eq_true] at h; exact h.2
    refine .char ?_ (ih hrest)
    rintro ⟨x, hx⟩
    have hx' : '.' :: 's' :: ("ecure.".toList ++ x) = c :: (a ++ s) := hx
    simp only [List.cons.injEq] at hx'
    cases a with
    | nil => simp [plainDots, ← hx'.1] at h
    | cons d r =>
      have : 's' = d := by have := hx'.2; simp only [List.cons_append, List.cons.injEq] at this; exact this.1
      simp [plainDots, ← hx'.1, ← this] at h

theorem plainDots_noDot {a : Str} (h : '.' ∉ a) : plainDots a = true := by
  induction a with
  | nil => rfl
  | cons c a ih =>
    have hc : c ≠ '.' := fun e => h (by simp [e])
    cases a with
    | nil => simp [plainDots, hc]
    | cons d r => simp only [plainDots, Bool.and_eq_true, ih (fun e => h (by simp [e])), and_true]; simp [hc]

theorem manifestPath_plain {h : Str} {n : Nat} (hh : HexU16 h n) : WithoutSecure (manifestPath h) (manifestPath h) := by
  unfold manifestPath
  rw [List.append_assoc]
  refine withoutSecure_append (by decide +kernel) (withoutSecure_append (plainDots_noDot fun hm => ?_) ?_)
  · exact absurd (hh.digits _ hm) (by decide +kernel)
  · have := withoutSecure_append (a := ".manifest".toList) (by decide +kernel) WithoutSecure.nil
    simpa only [List.append_nil] using this

theorem toId_known {h : Str} {n : Nat} (hh : HexU16 h n) {u : Str} (hu : WithoutSecure u (cdnUrl ++ manifestPath h)) :
    (ManifestRef.url u).toId = .ok (n : Int) := by
  rcases toId_url u _ hu with ⟨h', m, h1, h2, h3⟩ | ⟨h1, _⟩
  · rw [h3]
    have : manifestPath h = manifestPath h' := by
      rcases h2 with h2 | h2
      · exact List.append_cancel_left h2
      · rw [List.append_assoc] at h2
        have h2 := congrArg List.getLast? (List.append_cancel_left h2)
        rw [List.getLast?_concat] at h2
        unfold manifestPath at h2
        rw [List.getLast?_append] at h2
        have e : ".manifest".toList.getLast? = some 't' := by decide
        rw [e] at h2
        exact absurd h2 (by simp)
    unfold manifestPath at this
    have := HexU16_inj h1 hh (List.append_cancel_left (List.append_cancel_right this)).symm
    rw [this]
  · exact absurd rfl (h1 h n hh).1

/-- The URL of a manifest on the CDN, the same URL on its "secure" host name, and the id as an integer below
2^64: the manifest is downloaded to, and returned as, the path of the URL. -/
theorem C50_same_path (base : Str) (fs : FS) (response : Str → Res Bytes) (faults : WriteFaults) (h : Str) (n : Nat) (hh : HexU16 h n) :
    Downloads base fs response faults (manifestPath h)
      (downloadManifest base fs response faults (.url ("https://lol.dyn.riotcdn.net/".toList ++ manifestPath h))) ∧
    Downloads base fs response faults (manifestPath h)
      (downloadManifest base fs response faults (.url ("https://lol.secure.dyn.riotcdn.net/".toList ++ manifestPath h))) ∧
    Downloads base fs response faults (manifestPath h) (downloadManifest base fs response faults (.id n)) := by
  rw [← manifestRel_hexU hh]
  refine ⟨downloadManifest_ok (toId_known hh ?_), downloadManifest_ok (toId_known hh ?_), downloadManifest_ok rfl⟩
  · rw [manifestRel_hexU hh]
    exact withoutSecure_append (by decide +kernel) (manifestPath_plain hh)
  · rw [manifestRel_hexU hh]
    have e1 : "https://lol.secure.dyn.riotcdn.net/".toList = "https://lol".toList ++ (".secure.".toList ++ "dyn.riotcdn.net/".toList) := by decide +kernel
    have e2 : cdnUrl = "https://lol".toList ++ ('.' :: "dyn.riotcdn.net/".toList) := by decide +kernel
    rw [e1, e2, List.append_assoc, List.append_assoc, List.append_assoc]
    exact withoutSecure_append (by decide +kernel) (.secure (withoutSecure_append (by decide +kernel) (manifestPath_plain hh)))

/-- Every id below 2^64 has such a URL, and only one. -/
theorem C50_ids (n : Nat) (hn : n < 2 ^ 64) : ∃! h, HexU16 h n :=
  ⟨_, hexU16_hexWU hn, fun _ h => hexU16_unique h (hexU16_hexWU hn)⟩

/-- The sign of a negative id takes the place of one of the 16 digits. -/
theorem C50_negative (base : Str) (fs : FS) (response : Str → Res Bytes) (faults : WriteFaults) (n : Nat) (h0 : 0 < n) (hn : n < 2 ^ 60) :
    ∃ h, h.length = 15 ∧ HexU16 ('0' :: h) n ∧
      Downloads base fs response faults (manifestPath ('-' :: h)) (downloadManifest base fs response faults (.id (-(n : Int)))) := by
  have hlen : (hexW 15 n).length = 15 := hexW_length (w := 14) (by norm_num; omega)
  have hd : ∀ c ∈ hexW 15 n, c ∈ hexDigits := by
    intro c hc
    obtain ⟨d, hd, rfl⟩ := hexW_mem hc
    exact (idxOf_digitChar d hd).2
  have hr : manifestRel (-(n : Int)) = manifestPath ('-' :: hexWU 15 n) := by
    unfold manifestRel hexInt16U manifestPath
    rw [if_pos (by omega)]
    simp only [Int.natAbs_neg, Int.natAbs_natCast]
  refine ⟨hexWU 15 n, by simp [hexWU, hlen], ⟨by simp [hexWU, hlen], ?_, ?_⟩, hr ▸ downloadManifest_ok rfl⟩
  · intro c hc
    rcases List.mem_cons.1 hc with rfl | hc
    · decide +kernel
    · obtain ⟨d, hd', rfl⟩ := List.mem_map.1 hc
      exact (upperChar_hex d (hd d hd')).1
  · have h1 : hexDigitsU.idxOf '0' = 0 := by decide +kernel
    have h2 := hexValue_hexW 15 n
    unfold hexValue at h2
    show List.foldl (fun a c => 16 * a + hexDigitsU.idxOf c) 0 ('0' :: hexWU 15 n) = n
    rw [List.foldl_cons, h1, hexWU, hexU_value _ hd]
    exact h2

/-- A successful call leaves the response of the CDN for the path, or the file already there, at this path, and a
repeated call makes no request. -/
theorem C50_stored (base : Str) (fs : FS) (response : Str → Res Bytes) (faults : WriteFaults) (ref : ManifestRef)
    (fs' : FS) (path : Str) (q : Bool) (h : downloadManifest base fs response faults ref = (fs', .ok path, q)) :
    ∃ b, fs' (storageFspath base path) = some (.file b) ∧ (response path = .ok b ∨ fs (storageFspath base path) = some (.file b)) ∧
      ∀ response' faults', downloadManifest base fs' response' faults' ref = (fs', .ok path, false) := by
  unfold downloadManifest at h
  cases hid : ref.toId with
  | error e => rw [hid] at h; simp at h
  | ok n =>
    rw [hid] at h
    simp only at h
    rcases hd : download base fs ⟨manifestRel n, none, false, response (manifestRel n), faults⟩ with ⟨fs1, r | r, q1⟩
    · rw [hd] at h; simp at h
    · rw [hd] at h
      simp only [Prod.mk.injEq, Except.ok.injEq] at h
      obtain ⟨rfl, rfl, rfl⟩ := h
      have key : ∃ b, fs1 (storageFspath base (manifestRel n)) = some (.file b) ∧
          (response (manifestRel n) = .ok b ∨ fs (storageFspath base (manifestRel n)) = some (.file b)) := by
        cases q1 with
        | true =>
          obtain ⟨b, h1, h2⟩ := C05_success base fs fs1 _ hd
          exact ⟨b, h2, Or.inl h1⟩
        | false =>
          unfold download at hd
          split at hd
          · rename_i hc
            simp only [Prod.mk.injEq] at hd
            simp only [Bool.not_false, Bool.true_and] at hc
            have : fs.isFile (storageFspath base (manifestRel n)) = true := hc
            unfold FS.isFile at this
            split at this
            · rename_i b hb; exact ⟨b, by rw [← hd.1]; exact hb, Or.inr hb⟩
            · simp at this
          · cases hr : response (manifestRel n) with
            | error e => simp only [hr] at hd; simp at hd
            | ok c => simp only [hr] at hd; simp at hd
      obtain ⟨b, hb, hb'⟩ := key
      refine ⟨b, hb, hb', fun response' faults' => ?_⟩
      unfold downloadManifest
      rw [hid]
      simp only
      rw [C05_present base fs1 ⟨manifestRel n, none, false, response' (manifestRel n), faults'⟩ rfl b hb]

/-! Non-vacuity -/
example : HexU16 "00000000000000AB".toList 171 ∧ WithoutSecure "a.secure.b".toList "a.b".toList :=
  ⟨⟨by decide, by decide, by decide⟩, withoutSecure_append (a := ['a']) (by decide) (.secure (withoutSecure_append (a := ['b']) (s := []) (by decide) .nil))⟩
example : (downloadManifest "/s".toList (fun _ => none) (fun _ => .ok [1]) {}
      (.url "https://lol.secure.dyn.riotcdn.net/channels/public/releases/00000000000000AB.manifest".toList)).2 =
    (.ok "channels/public/releases/00000000000000AB.manifest".toList, true) := by decide +kernel
/- the line feed accepted by `$`, lowercase digits, and an id which does not fit -/
example : (ManifestRef.url "https://lol.dyn.riotcdn.net/channels/public/releases/00000000000000AB.manifest\n".toList).toId = .ok 171 ∧
    (ManifestRef.url "https://lol.dyn.riotcdn.net/channels/public/releases/00000000000000ab.manifest".toList).toId = .error .value ∧
    (ManifestRef.url "https://example.com/channels/public/releases/00000000000000AB.manifest".toList).toId = .error .value ∧
    manifestRel (2 ^ 64) = "channels/public/releases/10000000000000000.manifest".toList := by decide +kernel

end Cdtb
