import Verif.Model.Patcher
import Verif.Spec.Patcher
import Verif.Lemmas.FS
import Verif.Lemmas.Path
import Verif.Lemmas.Hex
import Verif.Lemmas.Num
import Mathlib.Data.List.Forall2
/-! Lemmas about the patcher storage: paths, ids, effects on the disk. -/
namespace Cdtb
set_option autoImplicit false
open Py Spec

/-! ### Ids -/

theorem upperChar_hex : ∀ c ∈ hexDigits, upperChar c ∈ hexDigitsU ∧
    hexDigitsU.idxOf (upperChar c) = hexDigits.idxOf c := by decide +kernel

theorem hexU_value (s : Str) (h : ∀ c ∈ s, c ∈ hexDigits) (a : Nat) :
    (s.map upperChar).foldl (fun a c => 16 * a + hexDigitsU.idxOf c) a =
      s.foldl (fun a c => 16 * a + hexDigits.idxOf c) a := by
  induction s generalizing a with
  | nil => simp only [List.map_nil, List.foldl_nil]
  | cons c s ih =>
    simp only [List.map_cons, List.foldl_cons]
    rw [(upperChar_hex c (h c (by simp))).2, ih (fun c hc => h c (by simp [hc]))]

theorem hexU16_hexWU {n : Nat} (h : n < 2 ^ 64) : HexU16 (hexWU 16 n) n := by
  have hx := hex16_hexW h
  refine ⟨by simp [hexWU, hx.length], ?_, ?_⟩
  · intro c hc
    obtain ⟨d, hd, rfl⟩ := List.mem_map.1 hc
    exact (upperChar_hex d (hx.digits d hd)).1
  · rw [hexWU, hexU_value _ hx.digits]; exact hx.value

theorem hexWU_noslash (n : Nat) : '/' ∉ hexWU 16 n := by
  intro hc
  obtain ⟨d, hd, he⟩ := List.mem_map.1 hc
  obtain ⟨k, hk, rfl⟩ := hexW_mem hd
  have : ∀ k < 16, upperChar (digitChar k) ≠ '/' := by decide +kernel
  exact this k hk he

theorem HexU16_inj {s s' : Str} {n m : Nat} (h : HexU16 s n) (h' : HexU16 s' m) (e : s = s') : n = m := by
  subst e; rw [← h.value, ← h'.value]

/-- The text of ids determines the ids. -/
theorem IdsText_inj {ids ids' : List Nat} {x : Str} (h : IdsText ids x) (h' : IdsText ids' x) : ids = ids' := by
  induction h generalizing ids' with
  | nil =>
    cases ids' with
    | nil => rfl
    | cons i r =>
      exfalso
      generalize hx : ([] : Str) = x at h'
      cases h' with
      | cons ht _ =>
        have := ht.length
        have hl := congrArg List.length hx
        rw [List.length_append, List.length_nil] at hl; omega
  | @cons i ids t x ht hr ih =>
    generalize hy : t ++ x = y at h'
    cases h' with
    | nil =>
      have := ht.length
      have hl := congrArg List.length hy
      rw [List.length_append, List.length_nil] at hl; omega
    | cons ht' hr' =>
      obtain ⟨e1, e2⟩ := List.append_inj hy (by rw [ht.length, ht'.length])
      subst e1; subst e2
      rw [HexU16_inj ht ht' rfl, ih hr']

theorem idsText_map (ids : List Nat) (h : ∀ i ∈ ids, i < 2 ^ 64) : IdsText ids (ids.map (hexWU 16)).flatten := by
  induction ids with
  | nil => exact .nil
  | cons i r ih =>
    simp only [List.map_cons, List.flatten_cons]
    exact .cons (hexU16_hexWU (h i (by simp))) (ih fun j hj => h j (by simp [hj]))

theorem hexU16_unique {s s' : Str} {n : Nat} (h : HexU16 s n) (h' : HexU16 s' n) : s = s' := by
  have key : ∀ (s s' : Str) (a b : Nat), s.length = s'.length → (∀ c ∈ s, c ∈ hexDigitsU) →
      (∀ c ∈ s', c ∈ hexDigitsU) →
      s.foldl (fun a c => 16 * a + hexDigitsU.idxOf c) a
        = s'.foldl (fun a c => 16 * a + hexDigitsU.idxOf c) b → s = s' ∧ a = b := by
    intro s
    induction s with
    | nil =>
      intro s' a b hl _ _ he
      cases s' with
      | nil => exact ⟨rfl, he⟩
      | cons c s' => simp at hl
    | cons c s ih =>
      intro s' a b hl h1 h2 he
      cases s' with
      | nil => simp at hl
      | cons c' s' =>
        simp only [List.foldl_cons] at he
        obtain ⟨e1, e2⟩ := ih s' _ _ (by simpa using hl) (fun c hc => h1 c (by simp [hc])) (fun c hc => h2 c (by simp [hc])) he
        have b1 : hexDigitsU.idxOf c < 16 := List.idxOf_lt_length_iff.2 (h1 c (by simp))
        have b2 : hexDigitsU.idxOf c' < 16 := List.idxOf_lt_length_iff.2 (h2 c' (by simp))
        have e3 : hexDigitsU.idxOf c = hexDigitsU.idxOf c' := by omega
        have e4 : a = b := by omega
        have e5 := List.idxOf_inj (h1 c (by simp)) |>.1 e3
        exact ⟨by rw [e1, e5], e4⟩
  exact (key s s' 0 0 (by rw [h.length, h'.length]) h.digits h'.digits (by rw [h.value, h'.value])).1

theorem IdsText_unique {ids : List Nat} {x y : Str} (h : IdsText ids x) (h' : IdsText ids y) : x = y := by
  induction h generalizing y with
  | nil => cases h'; rfl
  | cons ht _ ih =>
    cases h' with
    | cons ht' hr' => rw [hexU16_unique ht ht', ih hr']

/-! ### Paths -/

/-- What precedes the relative path in paths of a storage -/
def rootPre (base : Str) : Str := if base.isEmpty || endsWith base ['/'] then base else base ++ ['/']

theorem fspath_eq (base : Str) {rel : Str} (h : startsWith rel ['/'] = false) : storageFspath base rel = rootPre base ++ rel := by
  unfold storageFspath pjoin rootPre
  rw [h]
  simp only [Bool.false_eq_true, if_false]
  split <;> simp

theorem bundlePath_eq (cfg : PCfg) (id : Nat) :
    cfg.bundlePath id = rootPre cfg.base ++ ("channels/public/bundles/".toList ++ hexWU 16 id ++ ".bundle".toList) :=
  fspath_eq _ rfl

theorem storePath_eq (cfg : PCfg) (x : Str) : cfg.storePath x = rootPre cfg.base ++ ("cdtb/files/".toList ++ x) :=
  fspath_eq _ rfl

theorem extractPath_eq (cfg : PCfg) (v : Int) (f : PFile) :
    cfg.extractPath v f = rootPre cfg.base ++ ("cdtb/releases/".toList ++ cfg.patchline ++ '/' :: showInt v ++ "/files/".toList ++ fmtOpt f.name) := by
  unfold PCfg.extractPath PCfg.storageDir PCfg.releasePath
  rw [fspath_eq _ rfl]; simp

theorem bundlePath_inj {cfg : PCfg} {a b : Nat} (h : cfg.bundlePath a = cfg.bundlePath b) : a = b := by
  rw [bundlePath_eq, bundlePath_eq, List.append_cancel_left_eq, List.append_cancel_right_eq, List.append_cancel_left_eq] at h
  have key : ∀ c ∈ hexDigits, ∀ c' ∈ hexDigits, upperChar c = upperChar c' → c = c' := by decide +kernel
  have hd : ∀ n, ∀ c ∈ hexW 16 n, c ∈ hexDigits := by
    intro n c hc
    obtain ⟨d, hd, rfl⟩ := hexW_mem hc
    exact (idxOf_digitChar d hd).2
  apply hexW_inj (w := 16)
  have : ∀ (s s' : Str), (∀ c ∈ s, c ∈ hexDigits) → (∀ c ∈ s', c ∈ hexDigits) → s.map upperChar = s'.map upperChar → s = s' := by
    intro s
    induction s with
    | nil => intro s' _ _ h; simpa using h.symm
    | cons c s ih =>
      intro s' h1 h2 h
      cases s' with
      | nil => simp at h
      | cons c' s' =>
        simp only [List.map_cons, List.cons.injEq] at h
        rw [key c (h1 c (by simp)) c' (h2 c' (by simp)) h.1, ih s' (fun c hc => h1 c (by simp [hc])) (fun c hc => h2 c (by simp [hc])) h.2]
  exact this _ _ (hd a) (hd b) h

theorem storePath_inj {cfg : PCfg} {a b : Str} (h : cfg.storePath a = cfg.storePath b) : a = b := by
  rw [storePath_eq, storePath_eq] at h
  simpa using h

theorem bundle_ne_store (cfg : PCfg) (a : Nat) (x : Str) : cfg.bundlePath a ≠ cfg.storePath x := by
  rw [bundlePath_eq, storePath_eq]; intro h
  rw [List.append_cancel_left_eq] at h
  simp at h

theorem bundle_ne_extract (cfg : PCfg) (a : Nat) (v : Int) (f : PFile) : cfg.bundlePath a ≠ cfg.extractPath v f := by
  rw [bundlePath_eq, extractPath_eq]; intro h
  rw [List.append_cancel_left_eq] at h
  simp at h

theorem store_ne_extract (cfg : PCfg) (x : Str) (v : Int) (f : PFile) : cfg.storePath x ≠ cfg.extractPath v f := by
  rw [storePath_eq, extractPath_eq]; intro h
  rw [List.append_cancel_left_eq] at h
  simp at h

theorem noslash_split {a b x y : Str} (ha : '/' ∉ a) (hb : '/' ∉ b) (h : a ++ '/' :: x = b ++ '/' :: y) : a = b ∧ x = y := by
  induction a generalizing b with
  | nil =>
    cases b with
    | nil => simpa using h
    | cons c b => simp only [List.nil_append, List.cons_append, List.cons.injEq] at h; simp [← h.1] at hb
  | cons c a ih =>
    cases b with
    | nil => simp only [List.nil_append, List.cons_append, List.cons.injEq] at h; simp [h.1] at ha
    | cons c' b =>
      simp only [List.cons_append, List.cons.injEq] at h
      simp only [List.mem_cons, not_or] at ha hb
      obtain ⟨h1, h2⟩ := ih ha.2 hb.2 h.2
      exact ⟨by rw [h.1, h1], h2⟩

theorem showInt_noslash (n : Int) : '/' ∉ showInt n := by
  have hn : ∀ k, '/' ∉ showNat 10 k := by
    intro k h
    obtain ⟨d, hd, he⟩ := List.mem_map.1 (show '/' ∈ ((digitsRev 10 (k+1) k).reverse.map digitChar) by simpa [showNat] using h)
    have hlt := digitsRev_lt (b := 10) (by omega) (k + 1) k d (by simpa using hd)
    have : ∀ d < 10, digitChar d ≠ '/' := by decide +kernel
    exact this d hlt he
  unfold showInt
  split
  · simpa using hn _
  · exact hn _

theorem extractPath_inj {cfg : PCfg} {v v' : Int} {f f' : PFile} (h : cfg.extractPath v f = cfg.extractPath v' f') :
    v = v' ∧ fmtOpt f.name = fmtOpt f'.name := by
  rw [extractPath_eq, extractPath_eq, List.append_cancel_left_eq] at h
  simp only [List.append_assoc, List.append_cancel_left_eq, List.cons_append, List.cons.injEq, true_and] at h
  obtain ⟨h1, h2⟩ := noslash_split (showInt_noslash v) (showInt_noslash v') (x := "files/".toList ++ fmtOpt f.name)
    (y := "files/".toList ++ fmtOpt f'.name) h
  exact ⟨showInt_inj h1, by simpa using h2⟩

/-! ### Effects on the disk -/

/-- Objects only appear: an absent object may become a directory. -/
def SameOrDir (fs fs' : FS) (q : Str) : Prop := fs' q = fs q ∨ (fs q = none ∧ fs' q = some .dir)

theorem SameOrDir.file {fs fs' : FS} {q : Str} (h : SameOrDir fs fs' q) (b : Bytes) :
    fs' q = some (.file b) ↔ fs q = some (.file b) := by
  rcases h with h | ⟨h1, h2⟩
  · rw [h]
  · simp [h1, h2]

theorem SameOrDir.trans {a b c : FS} {q : Str} (h : SameOrDir a b q) (h' : SameOrDir b c q) : SameOrDir a c q := by
  rcases h with h | ⟨h1, h2⟩ <;> rcases h' with h' | ⟨h3, h4⟩
  · exact Or.inl (by rw [h', h])
  · exact Or.inr ⟨by rw [← h]; exact h3, h4⟩
  · exact Or.inr ⟨h1, by rw [h', h2]⟩
  · rw [h2] at h3; simp at h3

theorem SameOrDir.rfl' (fs : FS) (q : Str) : SameOrDir fs fs q := Or.inl rfl

theorem ensureFile_frame (cfg : PCfg) (fs : FS) (real : Str) (cs : List PChunk) (f : WriteFaults) {q : Str} (hq : q ≠ real) :
    SameOrDir fs (cfg.ensureFile fs real cs f).1 q := by
  unfold PCfg.ensureFile
  split
  · exact Or.inl rfl
  · rcases writeFileOrRemove_touches fs real (cs.map (cfg.chunkStep fs)) f q hq with h | ⟨_, h2, h3⟩
    · exact Or.inl h
    · exact Or.inr ⟨h2, h3⟩

theorem ensureFile_present {cfg : PCfg} {fs : FS} {real : Str} {b : Bytes} (cs : List PChunk) (f : WriteFaults)
    (h : fs real = some (.file b)) : cfg.ensureFile fs real cs f = (fs, .ok ()) := by
  simp [PCfg.ensureFile, FS.isFile, h]

theorem steps_loads (cfg : PCfg) (fs : FS) (cs : List PChunk)
    (h : ∀ s ∈ cs.map (cfg.chunkStep fs), ∃ b, s = .write b) :
    ∃ bs, List.Forall₂ (fun c b => cfg.loadChunk fs c = .ok b) cs bs ∧ bodyBytes (cs.map (cfg.chunkStep fs)) = bs.flatten := by
  induction cs with
  | nil => exact ⟨[], .nil, rfl⟩
  | cons c cs ih =>
    obtain ⟨bs, h1, h2⟩ := ih (fun s hs => h s (by simp only [List.map_cons, List.mem_cons]; exact Or.inr hs))
    obtain ⟨b, hb⟩ := h (cfg.chunkStep fs c) (by simp)
    have hl : cfg.loadChunk fs c = .ok b := by
      unfold PCfg.chunkStep at hb
      cases hx : cfg.loadChunk fs c with
      | error e => rw [hx] at hb; simp at hb
      | ok b' => rw [hx] at hb; simp at hb; rw [hb]
    refine ⟨b :: bs, .cons hl h1, ?_⟩
    simp only [bodyBytes, List.map_cons, List.flatten_cons] at h2 ⊢
    rw [h2, hb]

theorem ensureFile_written {cfg : PCfg} {fs : FS} {real : Str} {cs : List PChunk} {f : WriteFaults}
    (h : (cfg.ensureFile fs real cs f).2 = .ok ()) (hn : ∀ b, fs real ≠ some (.file b)) :
    ∃ bs, List.Forall₂ (fun c b => cfg.loadChunk fs c = .ok b) cs bs ∧
      (cfg.ensureFile fs real cs f).1 real = some (.file bs.flatten) := by
  have hf : fs.isFile real = false := by
    unfold FS.isFile
    cases hr : fs real with
    | none => rfl
    | some n => cases n with
      | file b => exact absurd hr (hn b)
      | dir => rfl
  simp only [PCfg.ensureFile, hf, Bool.false_eq_true, if_false] at h ⊢
  have h' := h
  rw [writeFileOrRemove_result] at h'
  obtain ⟨h1, h2, -⟩ := writeTry_ok h'
  obtain ⟨bs, g1, g2⟩ := steps_loads cfg fs cs h2
  exact ⟨bs, g1, by rw [writeFileOrRemove_ok_fs h, h1, g2]⟩

theorem ensureFile_error {cfg : PCfg} {fs : FS} {real : Str} {cs : List PChunk} {f : WriteFaults} {e : Err}
    (h : (cfg.ensureFile fs real cs f).2 = .error e) (hrm : f.remove = false) :
    ∀ b, (cfg.ensureFile fs real cs f).1 real ≠ some (.file b) := by
  intro b
  unfold PCfg.ensureFile at h ⊢
  split at h
  · simp at h
  · rename_i hc
    rw [if_neg hc, writeFileOrRemove_error_fs h, hrm]
    exact remove_not_file _ _ _

theorem content_link {d : Disk} {p t : Str} {b : Bytes} (hl : d.links p = some t) (hf : d.fs t = some (.file b)) :
    d.content p = some b := by
  simp only [Disk.content, Disk.resolve, hl, Option.getD_some, hf]

theorem content_plain {d : Disk} {p : Str} {b : Bytes} (hl : d.links p = none) (hf : d.fs p = some (.file b)) :
    d.content p = some b := by
  simp only [Disk.content, Disk.resolve, hl, Option.getD_none, hf]

theorem content_eq_some {d : Disk} {p : Str} {b : Bytes} : d.content p = some b ↔ d.fs (d.resolve p) = some (.file b) := by
  unfold Disk.content
  cases h : d.fs (d.resolve p) with
  | none => simp
  | some n => cases n <;> simp

theorem unlink_links (d : Disk) (p : Str) (b : Bool) {q : Str} (h : q ≠ p) : (d.unlink p b).links q = d.links q := by
  unfold Disk.unlink
  split
  · rfl
  · split
    · simp [h]
    · rfl

theorem unlink_links_self (d : Disk) (p : Str) (b : Bool) {t : Str} (h : (d.unlink p b).links p = some t) : d.links p = some t := by
  unfold Disk.unlink at h
  split at h
  · exact h
  · split at h
    · simp at h
    · exact h

theorem unlink_fs (d : Disk) (p : Str) (b : Bool) {q : Str} (h : q ≠ p) : (d.unlink p b).fs q = d.fs q := by
  unfold Disk.unlink
  split
  · rfl
  · split
    · rfl
    · exact remove_other d.fs h false

theorem unlink_fs_self (d : Disk) (p : Str) (b : Bool) {x : Bytes} (h : (d.unlink p b).fs p = some (.file x)) :
    d.fs p = some (.file x) := by
  unfold Disk.unlink at h
  split at h
  · exact h
  · split at h
    · exact h
    · exact absurd h (remove_not_file _ _ _)

theorem dmakedirs_links (d : Disk) (p : Str) (f) : (d.makedirs p f).1.links = d.links := by
  unfold Disk.makedirs
  split
  · rfl
  · rfl

theorem dmakedirs_fs (d : Disk) (p : Str) (f) (q : Str) : SameOrDir d.fs (d.makedirs p f).1.fs q := by
  unfold Disk.makedirs
  split
  · exact Or.inl rfl
  · rcases makedirs_dirsAdded d.fs p f q with h | ⟨_, h2, h3⟩
    · exact Or.inl h
    · exact Or.inr ⟨h2, h3⟩

theorem symlink_fs (d : Disk) (t p : Str) (f) : (d.symlink t p f).1.fs = d.fs := by
  unfold Disk.symlink
  split
  · rfl
  · split <;> rfl

theorem symlink_links (d : Disk) (t p : Str) (f) {q : Str} (h : q ≠ p) : (d.symlink t p f).1.links q = d.links q := by
  unfold Disk.symlink
  split
  · rfl
  · split
    · rfl
    · simp [h]

theorem symlink_links_self (d : Disk) (t p : Str) (f) :
    (d.symlink t p f).1.links p = d.links p ∨ (d.symlink t p f).1.links p = some t := by
  unfold Disk.symlink
  split
  · exact Or.inl rfl
  · split
    · exact Or.inl rfl
    · right; simp

theorem symlink_ok {d : Disk} {t p : Str} {f} (h : (d.symlink t p f).2 = .ok ()) : (d.symlink t p f).1.links p = some t := by
  unfold Disk.symlink at h ⊢
  split at h
  · simp at h
  · split at h
    · simp at h
    · rename_i hc; rw [if_neg hc]; simp

theorem relink_fs (d : Disk) (real out : Str) (f) {q : Str} (h : q ≠ out) : SameOrDir d.fs (d.relink real out f).1.fs q := by
  have h1 : SameOrDir d.fs ((d.unlink out f.remove).makedirs (dirname out) f.makedirs).1.fs q := by
    have := dmakedirs_fs (d.unlink out f.remove) (dirname out) f.makedirs q
    unfold SameOrDir at this ⊢
    rwa [unlink_fs _ _ _ h] at this
  unfold Disk.relink
  rcases hm : (d.unlink out f.remove).makedirs (dirname out) f.makedirs with ⟨d', r⟩
  rw [hm] at h1
  cases r with
  | error e => exact h1
  | ok u => simp only [symlink_fs]; exact h1

theorem relink_fs_self (d : Disk) (real out : Str) (f) {x : Bytes} (h : (d.relink real out f).1.fs out = some (.file x)) :
    d.fs out = some (.file x) := by
  have h1 := dmakedirs_fs (d.unlink out f.remove) (dirname out) f.makedirs out
  unfold Disk.relink at h
  rcases hm : (d.unlink out f.remove).makedirs (dirname out) f.makedirs with ⟨d', r⟩
  rw [hm] at h1 h
  cases r with
  | error e => exact unlink_fs_self _ _ _ ((h1.file x).1 h)
  | ok u => simp only [symlink_fs] at h; exact unlink_fs_self _ _ _ ((h1.file x).1 h)

theorem relink_links (d : Disk) (real out : Str) (f) {q : Str} (h : q ≠ out) : (d.relink real out f).1.links q = d.links q := by
  have h1 := dmakedirs_links (d.unlink out f.remove) (dirname out) f.makedirs
  unfold Disk.relink
  rcases hm : (d.unlink out f.remove).makedirs (dirname out) f.makedirs with ⟨d', r⟩
  rw [hm] at h1
  simp only at h1
  cases r with
  | error e => simp only [h1]; exact unlink_links _ _ _ h
  | ok u => simp only [symlink_links _ _ _ _ h, h1]; exact unlink_links _ _ _ h

theorem relink_links_self (d : Disk) (real out : Str) (f) {t : Str} (h : (d.relink real out f).1.links out = some t) :
    d.links out = some t ∨ t = real := by
  have h1 := dmakedirs_links (d.unlink out f.remove) (dirname out) f.makedirs
  unfold Disk.relink at h
  rcases hm : (d.unlink out f.remove).makedirs (dirname out) f.makedirs with ⟨d', r⟩
  rw [hm] at h1 h
  simp only at h1
  cases r with
  | error e => simp only [h1] at h; exact Or.inl (unlink_links_self _ _ _ h)
  | ok u =>
    simp only at h
    rcases symlink_links_self d' real out f.symlink with h2 | h2
    · rw [h2, h1] at h; exact Or.inl (unlink_links_self _ _ _ h)
    · rw [h2] at h; right; simpa using h.symm

theorem relink_ok {d : Disk} {real out : Str} {f} (h : (d.relink real out f).2 = .ok ()) :
    (d.relink real out f).1.links out = some real := by
  unfold Disk.relink at h ⊢
  rcases hm : (d.unlink out f.remove).makedirs (dirname out) f.makedirs with ⟨d', r⟩
  rw [hm] at h
  cases r with
  | error e => simp at h
  | ok u => exact symlink_ok h

/-! ### Parents of paths -/

theorem rstripChar_prefix (c : Char) (s : Str) : rstripChar c s <+: s := by
  unfold rstripChar
  have := List.dropWhile_suffix (l := s.reverse) (· == c)
  rw [← List.reverse_prefix, List.reverse_reverse] at this
  exact this

theorem dirname_prefix (p : Str) : dirname p <+: p := by
  unfold dirname psplit
  cases hs : rsplit1 '/' p with
  | none => exact List.nil_prefix
  | some db =>
    obtain ⟨d, b⟩ := db
    have hp := (rsplit1_eq_some.1 hs).1
    have h1 : d ++ ['/'] <+: p := ⟨b, by rw [hp]; simp⟩
    simp only
    split
    · exact h1
    · exact (rstripChar_prefix _ _).trans h1

theorem dirPrefixes_dirname_prefix {p q : Str} (h : q ∈ dirPrefixes (dirname p)) : q <+: p := by
  refine List.IsPrefix.trans ?_ (dirname_prefix p)
  rcases (mem_dirPrefixes h).2 with rfl | ⟨r, hr⟩
  · exact List.prefix_refl _
  · exact ⟨_, hr.symm⟩

theorem dropWhile_nil {α : Type} {p : α → Bool} {l : List α} (h : l.dropWhile p = []) : ∀ x ∈ l, p x = true := by
  induction l with
  | nil => simp
  | cons a l ih =>
    rw [List.dropWhile_cons] at h
    split at h
    · rename_i hp
      intro x hx
      rcases List.mem_cons.1 hx with rfl | hx
      · exact hp
      · exact ih h x hx
    · simp at h

theorem rstripChar_ne_nil {c : Char} {s : Str} (h : ∃ x ∈ s, x ≠ c) : rstripChar c s ≠ [] := by
  unfold rstripChar
  intro he
  rw [List.reverse_eq_nil_iff] at he
  obtain ⟨x, hx, hn⟩ := h
  have := dropWhile_nil he x (by simpa using hx)
  simp at this
  exact hn this

/-- The directory of a path with a parent is not empty. -/
theorem dirname_ne_nil {a b : Str} (h : ∃ c ∈ a, c ≠ '/') : dirname (a ++ '/' :: b) ≠ [] := by
  unfold dirname psplit
  cases hs : rsplit1 '/' (a ++ '/' :: b) with
  | none => exact absurd (rsplit1_eq_none.1 hs) (by simp)
  | some db =>
    obtain ⟨d, x⟩ := db
    obtain ⟨hp, hx⟩ := rsplit1_eq_some.1 hs
    simp only
    split
    · simp
    · apply rstripChar_ne_nil
      have hle : a.length ≤ d.length := by
        by_contra hlt
        have hc := congrArg (fun l => l[a.length]?) hp
        simp only [List.getElem?_append_right (Nat.le_refl _), Nat.sub_self, List.getElem?_cons_zero] at hc
        rw [List.getElem?_append_right (by omega)] at hc
        have h1 : a.length - d.length = (a.length - d.length - 1) + 1 := by omega
        rw [h1, List.getElem?_cons_succ] at hc
        exact hx (List.mem_of_getElem? hc.symm)
      have hpre : a <+: d := by
        have h1 : a <+: d ++ '/' :: x := ⟨'/' :: b, hp⟩
        exact List.prefix_of_prefix_length_le h1 (List.prefix_append _ _) hle
      obtain ⟨c, hc, hn⟩ := h
      exact ⟨c, List.mem_append_left _ (hpre.subset hc), hn⟩

theorem store_not_prefix_extract (cfg : PCfg) (x : Str) (v : Int) (f : PFile) : ¬ cfg.storePath x <+: cfg.extractPath v f := by
  rw [storePath_eq, extractPath_eq, List.prefix_append_right_inj]
  simp [List.cons_prefix_cons]

theorem extract_not_prefix_store (cfg : PCfg) (x : Str) (v : Int) (f : PFile) : ¬ cfg.extractPath v f <+: cfg.storePath x := by
  rw [storePath_eq, extractPath_eq, List.prefix_append_right_inj]
  simp [List.cons_prefix_cons]

theorem bundle_not_prefix_extract (cfg : PCfg) (b : Nat) (v : Int) (f : PFile) : ¬ cfg.bundlePath b <+: cfg.extractPath v f := by
  rw [bundlePath_eq, extractPath_eq, List.prefix_append_right_inj]
  simp [List.cons_prefix_cons]

theorem extract_not_prefix_bundle (cfg : PCfg) (b : Nat) (v : Int) (f : PFile) : ¬ cfg.extractPath v f <+: cfg.bundlePath b := by
  rw [bundlePath_eq, extractPath_eq, List.prefix_append_right_inj]
  simp [List.cons_prefix_cons]

theorem bundle_not_prefix_store (cfg : PCfg) (b : Nat) (x : Str) : ¬ cfg.bundlePath b <+: cfg.storePath x := by
  rw [bundlePath_eq, storePath_eq, List.prefix_append_right_inj]
  simp [List.cons_prefix_cons]

theorem store_not_prefix_bundle (cfg : PCfg) (b : Nat) (x : Str) : ¬ cfg.storePath x <+: cfg.bundlePath b := by
  rw [bundlePath_eq, storePath_eq, List.prefix_append_right_inj]
  simp [List.cons_prefix_cons]

theorem extract_dirname_ne_nil (cfg : PCfg) (v : Int) (f : PFile) : dirname (cfg.extractPath v f) ≠ [] := by
  have : cfg.extractPath v f = (rootPre cfg.base ++ "cdtb".toList) ++ '/' :: ("releases/".toList ++ cfg.patchline ++ '/' :: showInt v ++ "/files/".toList ++ fmtOpt f.name) := by
    rw [extractPath_eq]; simp
  rw [this]
  exact dirname_ne_nil ⟨'c', by simp, by decide⟩

theorem store_dirname_ne_nil (cfg : PCfg) (x : Str) : dirname (cfg.storePath x) ≠ [] := by
  have : cfg.storePath x = (rootPre cfg.base ++ "cdtb".toList) ++ '/' :: ("files/".toList ++ x) := by
    rw [storePath_eq]; simp
  rw [this]
  exact dirname_ne_nil ⟨'c', by simp, by decide⟩

theorem store_basename (cfg : PCfg) {x : Str} (h : '/' ∉ x) : basename (cfg.storePath x) = x := by
  have : cfg.storePath x = (rootPre cfg.base ++ "cdtb/files/".toList) ++ x := by rw [storePath_eq]; simp
  unfold basename
  rw [this, psplit_dir (Or.inr ⟨rootPre cfg.base ++ "cdtb/files".toList, by simp⟩) h]

end Cdtb
