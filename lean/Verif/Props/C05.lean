import Verif.Model.Download
import Verif.Lemmas.FS
import Verif.Lemmas.Str
/-!
# C05  Downloads are idempotent and never leave truncated files behind
-/
namespace Cdtb
set_option autoImplicit false
open Py

/-- A file already on disk (without force): no request, nothing changes. -/
theorem C05_present (base : Str) (fs : FS) (c : DownloadCall) (hf : c.force = false)
    (b : Bytes) (hb : fs (c.dest base) = some (.file b)) : download base fs c = (fs, .ok (), false) := by
  simp [download, hf, FS.isFile, hb]

/-- A successful download that made a request: the file is exactly the response. -/
theorem C05_success (base : Str) (fs fs' : FS) (c : DownloadCall)
    (h : download base fs c = (fs', .ok (), true)) :
    ∃ b, c.response = .ok b ∧ fs' (c.dest base) = some (.file b) := by
  unfold download at h
  split at h
  · simp at h
  · cases hr : c.response with
    | error e => rw [hr] at h; simp at h
    | ok b =>
      rw [hr] at h
      simp only [Prod.mk.injEq] at h
      obtain ⟨h1, h2, _⟩ := h
      refine ⟨b, rfl, ?_⟩
      rw [← h1, writeFileOrRemove_ok_fs h2]
      rw [writeFileOrRemove_result] at h2
      rw [(writeTry_ok h2).1]; simp [bodyBytes]

/-- Nothing but the destination is affected (no other file is created, modified or removed). -/
theorem C05_frame (base : Str) (fs : FS) (c : DownloadCall) (q : Str) (hq : q ≠ c.dest base) (b : Bytes) :
    (download base fs c).1 q = some (.file b) ↔ fs q = some (.file b) := by
  unfold download; split
  · rfl
  · cases hr : c.response with
    | error e => simp
    | ok content =>
      simp only
      rcases writeFileOrRemove_touches fs (c.dest base) [.write content] c.faults q hq with h | ⟨_, h2, h3⟩
      · rw [h]
      · rw [h2, h3]; simp

/-- Where the file is: in the storage directory, under the path given by the caller or, by default, under the path of the URL. -/
theorem C05_where (base : Str) (fs fs' : FS) (c : DownloadCall) (p : Str) (hp : c.path = some p ∨ c.path = none ∧ p = c.urlpath)
    (hrel : ∀ t, p ≠ '/' :: t) (hb : base ≠ []) (hb' : ∀ t, base ≠ t ++ ['/']) (h : download base fs c = (fs', .ok (), true)) :
    ∃ b, c.response = .ok b ∧ fs' (base ++ '/' :: p) = some (.file b) ∧
      ∀ q, q ≠ base ++ '/' :: p → ∀ x, fs' q = some (.file x) ↔ fs q = some (.file x) := by
  have hd : c.dest base = base ++ '/' :: p := by
    have : c.path.getD c.urlpath = p := by
      rcases hp with hp | ⟨hp, rfl⟩ <;> rw [hp] <;> rfl
    unfold DownloadCall.dest storageFspath pjoin
    rw [this, if_neg, if_neg]
    · rw [List.append_assoc]; rfl
    · rw [Bool.or_eq_true, endsWith_iff]
      rintro (h | ⟨t, ht⟩)
      · exact hb (List.isEmpty_iff.1 h)
      · exact hb' t ht
    · rw [startsWith_iff]
      rintro ⟨t, ht⟩
      exact hrel t ht
  obtain ⟨b, h1, h2⟩ := C05_success base fs fs' c h
  refine ⟨b, h1, hd ▸ h2, fun q hq x => ?_⟩
  have := C05_frame base fs c q (hd ▸ hq) x
  rwa [h] at this

/-- Any error of the request changes nothing on disk. -/
theorem C05_request_error (base : Str) (fs : FS) (c : DownloadCall) (e : Err) (hr : c.response = .error e) :
    (download base fs c).1 = fs := by
  unfold download; split
  · rfl
  · simp [hr]

/-- After a failed download there is no file at the destination, unless the request itself failed in
which case the destination is as before (absent, when `force` is not used). -/
theorem C05_failure (base : Str) (fs fs' : FS) (c : DownloadCall) (e : Err) (q : Bool)
    (h : download base fs c = (fs', .error e, q)) (hrm : c.faults.remove = false) :
    (∀ b, fs' (c.dest base) ≠ some (.file b)) ∨ (c.force = true ∧ fs' = fs ∧ c.response = .error e) := by
  unfold download at h
  split at h
  · simp at h
  · rename_i hc
    cases hr : c.response with
    | error e' =>
      rw [hr] at h
      simp only [Prod.mk.injEq, Except.error.injEq] at h
      obtain ⟨rfl, rfl, _⟩ := h
      by_cases hf : c.force = true
      · exact Or.inr ⟨hf, rfl, rfl⟩
      · left
        intro b hb
        exact hc (by simp [hf, FS.isFile, hb])
    | ok b =>
      rw [hr] at h
      simp only [Prod.mk.injEq] at h
      obtain ⟨rfl, h2, _⟩ := h
      left
      intro b'
      rw [writeFileOrRemove_error_fs h2, hrm]
      exact remove_not_file _ _ _

/-- One step of a history keeps every file of `P` equal to the server's content. -/
theorem download_keeps (base : Str) (server : Str → Bytes) (fs : FS) (c : DownloadCall) (dest : Str) (url : Str)
    (hresp : ∀ b, c.response = .ok b → b = server c.urlpath) (hrm : c.faults.remove = false)
    (hurl : c.dest base = dest → c.urlpath = url)
    (hfs : ∀ b, fs dest = some (.file b) → b = server url) :
    ∀ b, (download base fs c).1 dest = some (.file b) → b = server url := by
  intro b hb
  by_cases hd : dest = c.dest base
  · rcases hdl : download base fs c with ⟨fs', r, q⟩
    rw [hdl] at hb
    simp only at hb
    cases r with
    | ok u =>
      cases q with
      | true =>
        obtain ⟨b', h1, h2⟩ := C05_success base fs fs' c hdl
        rw [← hd] at h2
        rw [h2] at hb
        simp at hb
        rw [← hb, hresp b' h1, hurl hd.symm]
      | false =>
        unfold download at hdl
        split at hdl
        · simp only [Prod.mk.injEq] at hdl; rw [← hdl.1] at hb; exact hfs b hb
        · cases hr : c.response with
          | error e => rw [hr] at hdl; simp at hdl
          | ok content => rw [hr] at hdl; simp at hdl
    | error e =>
      rcases C05_failure base fs fs' c e q hdl hrm with h | ⟨_, h, _⟩
      · rw [← hd] at h; exact absurd hb (h b)
      · rw [h] at hb; exact hfs b hb
  · rw [C05_frame base fs c dest hd b] at hb
    exact hfs b hb

/-- Along any history of downloads, with any failures of requests and disk, a file present at a
destination has exactly its server content, provided it did (or was absent) at the start. Each
destination is assumed to be downloaded from a single URL, and removals to be possible. -/
theorem C05_history (base : Str) (server : Str → Bytes) (cs : List DownloadCall) (fs : FS)
    (hresp : ∀ c ∈ cs, ∀ b, c.response = .ok b → b = server c.urlpath)
    (hrm : ∀ c ∈ cs, c.faults.remove = false)
    (dest url : Str) (hurl : ∀ c ∈ cs, c.dest base = dest → c.urlpath = url)
    (hfs : ∀ b, fs dest = some (.file b) → b = server url) :
    ∀ b, downloads base fs cs dest = some (.file b) → b = server url := by
  induction cs generalizing fs with
  | nil => exact hfs
  | cons c cs ih =>
    have := ih (download base fs c).1 (fun c hc => hresp c (by simp [hc])) (fun c hc => hrm c (by simp [hc]))
      (fun c hc => hurl c (by simp [hc]))
      (download_keeps base server fs c dest url (hresp c (by simp)) (hrm c (by simp)) (hurl c (by simp)) hfs)
    simpa [downloads] using this

/-- Repeating: once all the destinations of a list of (unforced) calls are present, repeating them
makes no request and changes nothing, whatever the server and the disk would do. -/
theorem C05_repeat (base : Str) (cs : List DownloadCall) (fs : FS) (hf : ∀ c ∈ cs, c.force = false)
    (hp : ∀ c ∈ cs, ∃ b, fs (c.dest base) = some (.file b)) :
    downloads base fs cs = fs ∧ ∀ c ∈ cs, (download base fs c).2 = (.ok (), false) := by
  have h1 : ∀ c ∈ cs, download base fs c = (fs, .ok (), false) := by
    intro c hc
    obtain ⟨b, hb⟩ := hp c hc
    exact C05_present base fs c (hf c hc) b hb
  refine ⟨?_, fun c hc => by rw [h1 c hc]⟩
  induction cs with
  | nil => rfl
  | cons c cs ih =>
    have : downloads base fs (c :: cs) = downloads base (download base fs c).1 cs := rfl
    rw [this, h1 c (by simp)]
    exact ih (fun c hc => hf c (by simp [hc])) (fun c hc => hp c (by simp [hc])) (fun c hc => h1 c (by simp [hc]))

/-- A successful sequence of unforced calls leaves all its destinations present, so that repeating
it changes nothing. -/
theorem C05_success_then_repeat (base : Str) (cs : List DownloadCall) (fs : FS)
    (hf : ∀ c ∈ cs, c.force = false)
    (hok : ∀ pre c post, cs = pre ++ c :: post → (download base (downloads base fs pre) c).2.1 = .ok ()) :
    (∀ c ∈ cs, ∃ b, downloads base fs cs (c.dest base) = some (.file b)) ∧
    downloads base (downloads base fs cs) cs = downloads base fs cs := by
  have present : ∀ (fs : FS) (c : DownloadCall), c.force = false → (download base fs c).2.1 = .ok () →
      ∃ b, (download base fs c).1 (c.dest base) = some (.file b) := by
    intro fs c hfc h
    rcases hdl : download base fs c with ⟨fs', r, q⟩
    rw [hdl] at h
    simp only at h; subst h
    cases q with
    | true => obtain ⟨b, _, h⟩ := C05_success base fs fs' c hdl; exact ⟨b, h⟩
    | false =>
      unfold download at hdl
      split at hdl
      · rename_i hc
        simp only [Prod.mk.injEq] at hdl
        rw [← hdl.1]
        simp only [hfc, Bool.not_false, Bool.true_and, FS.isFile] at hc
        simp only
        cases hn : fs (c.dest base) with
        | none => rw [hn] at hc; simp at hc
        | some n => cases n with
          | file b => exact ⟨b, rfl⟩
          | dir => rw [hn] at hc; simp at hc
      · cases hr : c.response with
        | error e => rw [hr] at hdl; simp at hdl
        | ok content => rw [hr] at hdl; simp at hdl
  have stays : ∀ (fs : FS) (c : DownloadCall) (d : Str), c.force = false → (∃ b, fs d = some (.file b)) →
      ∃ b, (download base fs c).1 d = some (.file b) := by
    rintro fs c d hfc ⟨b, hb⟩
    by_cases hd : d = c.dest base
    · subst hd; exact ⟨b, by rw [C05_present base fs c hfc b hb]; exact hb⟩
    · exact ⟨b, (C05_frame base fs c d hd b).2 hb⟩
  have staysAll : ∀ (cs : List DownloadCall) (fs : FS) (d : Str), (∀ c ∈ cs, c.force = false) →
      (∃ b, fs d = some (.file b)) → ∃ b, downloads base fs cs d = some (.file b) := by
    intro cs
    induction cs with
    | nil => intro fs d _ h; exact h
    | cons c cs ih =>
      intro fs d hfc h
      exact ih (download base fs c).1 d (fun c hc => hfc c (by simp [hc])) (stays fs c d (hfc c (by simp)) h)
  have hpres : ∀ c ∈ cs, ∃ b, downloads base fs cs (c.dest base) = some (.file b) := by
    intro c hc
    obtain ⟨pre, post, rfl⟩ := List.append_of_mem hc
    have h1 := present _ c (hf c hc) (hok pre c post rfl)
    have h2 : downloads base fs (pre ++ c :: post)
        = downloads base (download base (downloads base fs pre) c).1 post := by
      simp [downloads]
    rw [h2]
    exact staysAll post _ _ (fun c hc => hf c (by simp [hc])) h1
  exact ⟨hpres, (C05_repeat base cs _ hf hpres).1⟩

/-- Boundary: the helper does not protect from a crash of the machine or a kill. The truncated file
left behind is then taken for a complete one by all later (unforced) downloads. -/
theorem C05_crash_boundary (base : Str) (fs : FS) (c : DownloadCall) (content : Bytes) (k : Nat)
    (hk : k < content.length) (c' : DownloadCall) (hd : c'.dest base = c.dest base) (hf : c'.force = false) :
    downloadCrash base fs c content k (c.dest base) = some (.file (content.take k)) ∧
    content.take k ≠ content ∧
    download base (downloadCrash base fs c content k) c' = (downloadCrash base fs c content k, .ok (), false) := by
  have h1 : downloadCrash base fs c content k (c.dest base) = some (.file (content.take k)) := by
    simp [downloadCrash]
  refine ⟨h1, ?_, C05_present _ _ _ hf (content.take k) (by rw [hd]; exact h1)⟩
  intro h
  have := congrArg List.length h
  simp at this; omega

/-! Non-vacuity: a history with a failed request, a failed write, then a success. -/
example :
    let url := "x.bundle".toList
    let c1 : DownloadCall := ⟨url, none, false, .error (.http 503), {}⟩
    let c2 : DownloadCall := ⟨url, none, false, .ok [7, 8], { write := fun _ => some (1, .os 28) }⟩
    let c3 : DownloadCall := ⟨url, none, false, .ok [7, 8], {}⟩
    (downloads "st".toList (fun _ => none) [c1, c2]) "st/x.bundle".toList = none ∧
    (downloads "st".toList (fun _ => none) [c1, c2, c3, c3]) "st/x.bundle".toList = some (.file [7, 8]) ∧
    (downloads "st".toList (fun _ => none) [{ c3 with path := some "a/b".toList }]) "st/a/b".toList = some (.file [7, 8]) := by
  decide +kernel

/-! ## Cases that meet the hypotheses -/

/-- `C05_present` and `C05_repeat`: files already stored -/
example :
    let fs : FS := fun p => if p = "st/a".toList ∨ p = "st/b".toList then some (.file [1]) else none
    let c (u : Str) : DownloadCall := ⟨u, none, false, .error (.http 404), {}⟩
    ∀ x ∈ [c "a".toList, c "b".toList], x.force = false ∧ fs (x.dest "st".toList) = some (.file [1]) := by decide +kernel

/-- `C05_where` -/
example :
    let c : DownloadCall := ⟨"u".toList, some "a/b".toList, false, .ok [7], {}⟩
    (download "st".toList (fun _ => none) c).2 = (.ok (), true) ∧ (∀ t, "a/b".toList ≠ '/' :: t) ∧ ∀ t, "st".toList ≠ t ++ ['/'] := by
  refine ⟨by decide +kernel, ?_, ?_⟩
  · intro t h
    have : some 'a' = some '/' := congrArg List.head? h
    exact absurd this (by decide)
  · intro t h
    have : some 't' = (t ++ ['/']).getLast? := congrArg List.getLast? h
    rw [List.getLast?_concat] at this
    exact absurd this (by decide)

/-- `C05_history`: a failure of the server, a full disk, then a success -/
example :
    let url := "x.bundle".toList
    let cs : List DownloadCall := [⟨url, none, false, .error (.http 503), {}⟩, ⟨url, none, false, .ok [7, 8], { write := fun _ => some (1, .os 28) }⟩,
      ⟨url, none, true, .ok [7, 8], {}⟩]
    ∀ b, downloads "st".toList (fun _ => none) cs "st/x.bundle".toList = some (.file b) → b = [7, 8] := by
  intro url cs
  refine C05_history "st".toList (fun _ => [7, 8]) cs (fun _ => none) ?_ ?_ _ url ?_ ?_
  · intro c hc b hb
    simp only [cs, List.mem_cons, List.not_mem_nil, or_false] at hc
    rcases hc with rfl | rfl | rfl
    · cases hb
    · cases hb; rfl
    · cases hb; rfl
  · intro c hc
    simp only [cs, List.mem_cons, List.not_mem_nil, or_false] at hc
    rcases hc with rfl | rfl | rfl <;> rfl
  · intro c hc _
    simp only [cs, List.mem_cons, List.not_mem_nil, or_false] at hc
    rcases hc with rfl | rfl | rfl <;> rfl
  · intro b hb; cases hb

/-- `C05_failure`: a forced download refused by the server keeps the old file -/
example :
    let fs : FS := fun p => if p = "st/a".toList then some (.file [1]) else none
    let r := download "st".toList fs ⟨"a".toList, none, true, .error (.http 404), {}⟩
    r.2 = (.error (.http 404), true) ∧ r.1 "st/a".toList = some (.file [1]) := by decide +kernel

end Cdtb
