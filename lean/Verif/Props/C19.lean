import Verif.Spec.Skn
import Verif.Lemmas.Struct
import Mathlib.Data.List.TakeWhile
import Mathlib.Data.List.Forall2
/-!
# C19 SKN meshes and OBJ faces
-/
namespace Cdtb
set_option autoImplicit false
open Py Spec

theorem sknPair_reads {w : Nat} {p : Nat × Nat} (h : Fits2 w p) : Reads (sknPair w) (pair w p) p :=
  Reads.bind (Reads.u h.1) (Reads.map (Reads.u h.2) rfl)

theorem sknTriple_reads {w : Nat} {p : Nat × Nat × Nat} (h : Fits3 w p) : Reads (sknTriple w) (triple w p) p :=
  Reads.bind (Reads.u h.1) (Reads.map (sknPair_reads h.2) rfl)

theorem sknQuad_reads {w : Nat} {p : Nat × Nat × Nat × Nat} (h : Fits4 w p) : Reads (sknQuad w) (quad w p) p :=
  Reads.bind (Reads.u h.1) (Reads.map (sknTriple_reads h.2) rfl)

theorem sknOptional_reads {w : Nat} {present : Bool} {o : Option (Nat × Nat × Nat × Nat)}
    (h : match o with | some q => Fits4 w q ∧ present = true | none => present = false) :
    Reads (sknOptional present w) (optional w o) o := by
  rcases o with _ | q
  · simp only at h; subst h; exact Reads.pure _
  · obtain ⟨h, rfl⟩ := h
    exact Reads.map (sknQuad_reads h) rfl

theorem sknVertex_reads {type : Option Nat} {v : SknVertex} (h : SknVertexFits type v) :
    Reads (sknVertex type) (sknVertexBytes v) v := by
  obtain ⟨position, bones, weight, normal, uv, color, tangent⟩ := v
  refine Reads.bind (sknTriple_reads h.position) ?_
  refine Reads.bind (sknQuad_reads h.bones) ?_
  refine Reads.bind (sknQuad_reads h.weight) ?_
  refine Reads.bind (sknTriple_reads h.normal) ?_
  refine Reads.bind (sknPair_reads h.uv) ?_
  refine Reads.bind (sknOptional_reads ?_) (Reads.map (sknOptional_reads ?_) rfl)
  · have := h.color
    rcases color with _ | q
    · simp only at this ⊢
      rcases type with _ | t
      · rfl
      · simp [this t rfl]
    · obtain ⟨h1, t, rfl, h2⟩ := this
      exact ⟨h1, by simpa using h2⟩
  · have := h.tangent
    rcases tangent with _ | q
    · simp only at this ⊢
      rcases type with _ | t
      · rfl
      · simp only [decide_eq_false_iff_not]
        rintro rfl
        exact this rfl
    · obtain ⟨h1, rfl⟩ := this
      exact ⟨h1, rfl⟩

theorem untilNul_pad {b : Bytes} (h : ∀ x ∈ b, x ≠ 0) (n : Nat) : untilNul (b ++ List.replicate n 0) = b := by
  unfold untilNul
  rw [List.takeWhile_append_of_pos (by intro x hx; simpa using h x hx)]
  cases n with
  | zero => simp
  | succ n => simp [List.replicate_succ]

theorem sknObject_reads {o : SknObject} (h : SknObjectFits o) : Reads sknObject (sknObjectBytes o) o := by
  refine Reads.bind (Reads.exact' ?_) ?_
  · rw [List.length_append, List.length_replicate]; have := h.name; omega
  refine Reads.bind_nil (a := o.name) (Reads.lift ?_) ?_
  · rw [untilNul_pad (utf8Bytes_ne_zero h.noNul)]; exact utf8_utf8Bytes _
  refine Reads.bind (Reads.u h.startVertex) ?_
  refine Reads.bind (Reads.u h.vertexCount) ?_
  refine Reads.bind (Reads.u h.startIndex) ?_
  exact Reads.map (Reads.u h.indexCount) rfl

theorem sknIndices_reads {raws : List Nat} (h : ∀ n ∈ raws, n < 256 ^ 2) :
    Reads (Rd.times sknIndex raws.length) (raws.flatMap (le 2)) (raws.map (· + 1)) := by
  rw [List.flatMap_def]
  refine Reads.timesMap (dec := fun n => n + 1) ?_
  intro n hn
  exact Reads.map (Reads.u (h n hn)) rfl

theorem sknVertices_reads {type : Option Nat} {vs : List SknVertex} (h : ∀ v ∈ vs, SknVertexFits type v) :
    Reads (Rd.times (sknVertex type) vs.length) (vs.flatMap sknVertexBytes) vs := by
  rw [List.flatMap_def]
  exact Reads.times (fun v hv => sknVertex_reads (h v hv))

theorem sknObjects_reads {os : List SknObject} (h : ∀ o ∈ os, SknObjectFits o) :
    Reads (Rd.times sknObject os.length) (os.flatMap sknObjectBytes) os := by
  rw [List.flatMap_def]
  exact Reads.times (fun o ho => sknObject_reads (h o ho))

/-- The items of `l` from position `start`, `count` of them (or as many as there are). -/
def range {α : Type} (l : List α) (start count : Nat) : List α := (l.drop start).take count

theorem drop_take_range {α : Type} (l : List α) (s n : Nat) : (l.take (s + n)).drop s = range l s n := by
  unfold range; rw [List.drop_take, Nat.add_sub_cancel_left]

/-- The submesh designated by an object of the file: its vertices, and its indices. -/
structure IsSubmesh (raws : List Nat) (vs : List SknVertex) (o : SknObject) (e : SknEntry) : Prop where
  name : e.name = o.name
  /-- exactly the vertices of the range -/
  vertices : e.vertices = range vs o.startVertex o.vertexCount
  /-- as many indices as in the range -/
  length : e.indices.length = (range raws o.startIndex o.indexCount).length
  /-- each index that designates a vertex of the range becomes its position, from 1 -/
  indices : ∀ (i raw : Nat), (range raws o.startIndex o.indexCount)[i]? = some raw →
    o.startVertex ≤ raw → raw < o.startVertex + o.vertexCount → raw < vs.length →
    ∃ x, e.indices[i]? = some x ∧ 1 ≤ x ∧ x ≤ e.vertices.length ∧ e.vertices[x - 1]? = vs[raw]? ∧
      vs[raw]? ≠ none

theorem isSubmesh_sknEntry (raws : List Nat) (vertices : List SknVertex) (o : SknObject) :
    IsSubmesh raws vertices o (sknEntry (raws.map (· + 1)) vertices o) := by
  have hv : (sknEntry (raws.map (· + 1)) vertices o).vertices = range vertices o.startVertex o.vertexCount :=
    drop_take_range _ _ _
  have hi : (sknEntry (raws.map (· + 1)) vertices o).indices = (range raws o.startIndex o.indexCount).map
      (fun r => (r + 1) - (if r + 1 < o.startVertex then 0 else o.startVertex)) := by
    unfold sknEntry
    simp only
    rw [drop_take_range]
    unfold range
    rw [← List.map_drop, ← List.map_take, List.map_map]
    rfl
  refine ⟨rfl, hv, by rw [hi, List.length_map], ?_⟩
  intro i raw h1 h2 h3 h4
  refine ⟨raw + 1 - o.startVertex, ?_, by omega, ?_, ?_, ?_⟩
  · rw [hi, List.getElem?_map, h1, Option.map_some, if_neg (by omega)]
  · rw [hv]; unfold range; rw [List.length_take, List.length_drop]; omega
  · rw [hv]; unfold range
    rw [List.getElem?_take, if_pos (by omega), List.getElem?_drop]
    congr 1
    omega
  · rw [List.getElem?_eq_getElem h4]; simp

/-- Version 1, 2 and 3 files: each object of the file gives its submesh. -/
theorem C19_mid (major minor : Nat) (hM : 1 ≤ major ∧ major ≤ 3) (hm : minor < 256 ^ 2) (objects : List SknObject)
    (raws : List Nat) (vertices : List SknVertex) (h1 : objects.length < 256 ^ 4) (h2 : raws.length < 256 ^ 4)
    (h3 : vertices.length < 256 ^ 4) (ho : ∀ o ∈ objects, SknObjectFits o) (hr : ∀ n ∈ raws, n < 256 ^ 2)
    (hv : ∀ v ∈ vertices, SknVertexFits none v) (trailing : Bytes) :
    ∃ skn, parseSkn.run (sknFileMid major minor objects raws vertices ++ trailing) = .ok skn ∧
      skn.major = major ∧ skn.minor = minor ∧ List.Forall₂ (IsSubmesh raws vertices) objects skn.entries := by
  refine ⟨{ major, minor, entries := objects.map (sknEntry (raws.map (· + 1)) vertices) }, ?_, rfl, rfl, ?_⟩
  · apply Reads.run
    refine Reads.bind (Reads.raw' rfl) ?_
    refine Reads.bind_nil (Reads.pure ()) ?_
    refine Reads.bind (Reads.u (by omega)) ?_
    refine Reads.bind (Reads.u hm) ?_
    rw [if_neg (by omega)]
    refine Reads.bind (Reads.u h1) ?_
    refine Reads.bind (sknObjects_reads ho) ?_
    refine Reads.bind_nil (a := ()) (by unfold sknUnknown; rw [if_neg (by omega)]; exact Reads.pure _) ?_
    refine Reads.bind (Reads.u h2) ?_
    refine Reads.bind (Reads.u h3) ?_
    refine Reads.bind_nil (a := none) (by unfold sknVertexType; rw [if_neg (by omega)]; exact Reads.pure _) ?_
    refine Reads.bind (sknIndices_reads hr) ?_
    exact Reads.map (sknVertices_reads hv) rfl
  · simp only
    rw [List.forall₂_map_right_iff, List.forall₂_same]
    intro o _
    exact isSubmesh_sknEntry raws vertices o

/-- Version 4 files: the same, with the vertex layout given by the vertex type. -/
theorem C19_v4 (minor : Nat) (hm : minor < 256 ^ 2) (objects : List SknObject) (unknown size type : Nat)
    (hu : unknown < 256 ^ 4) (hs : size < 256 ^ 4) (ht : type < 256 ^ 4) (boxMin boxMax sphere : Nat × Nat × Nat)
    (radius : Nat) (hb1 : Fits3 4 boxMin) (hb2 : Fits3 4 boxMax) (hb3 : Fits3 4 sphere) (hb4 : radius < 256 ^ 4)
    (raws : List Nat) (vertices : List SknVertex) (h1 : objects.length < 256 ^ 4) (h2 : raws.length < 256 ^ 4)
    (h3 : vertices.length < 256 ^ 4) (ho : ∀ o ∈ objects, SknObjectFits o) (hr : ∀ n ∈ raws, n < 256 ^ 2)
    (hv : ∀ v ∈ vertices, SknVertexFits (some type) v) (trailing : Bytes) :
    ∃ skn, parseSkn.run (sknFileV4 minor objects unknown size type boxMin boxMax sphere radius raws vertices ++ trailing)
        = .ok skn ∧
      skn.major = 4 ∧ skn.minor = minor ∧ List.Forall₂ (IsSubmesh raws vertices) objects skn.entries := by
  refine ⟨{ major := 4, minor, entries := objects.map (sknEntry (raws.map (· + 1)) vertices) }, ?_, rfl, rfl, ?_⟩
  · apply Reads.run
    refine Reads.bind (Reads.raw' rfl) ?_
    refine Reads.bind_nil (Reads.pure ()) ?_
    refine Reads.bind (Reads.u (by decide)) ?_
    refine Reads.bind (Reads.u hm) ?_
    rw [if_neg (by decide)]
    refine Reads.bind (Reads.u h1) ?_
    refine Reads.bind (sknObjects_reads ho) ?_
    refine Reads.bind (a := ()) (by unfold sknUnknown; rw [if_pos rfl]; exact Reads.map (Reads.u hu) rfl) ?_
    refine Reads.bind (Reads.u h2) ?_
    refine Reads.bind (Reads.u h3) ?_
    have htype : Reads (sknVertexType 4) (le 4 size ++ (le 4 type ++ (triple 4 boxMin ++ (triple 4 boxMax ++
        (triple 4 sphere ++ le 4 radius))))) (some type) := by
      unfold sknVertexType
      rw [if_pos rfl]
      refine Reads.bind (Reads.u hs) (Reads.bind (Reads.u ht) (Reads.bind (sknTriple_reads hb1)
        (Reads.bind (sknTriple_reads hb2) (Reads.bind (sknTriple_reads hb3) (Reads.map (Reads.u hb4) rfl)))))
    have := Reads.bind (f := fun type => do
      let indices ← Rd.times sknIndex raws.length
      let vs ← Rd.times (sknVertex type) vertices.length
      pure { major := 4, minor, entries := objects.map (sknEntry indices vs) : Skn}) htype
      (Reads.bind (sknIndices_reads hr) (Reads.map (sknVertices_reads hv) rfl))
    simpa only [List.append_assoc] using this
  · simp only
    rw [List.forall₂_map_right_iff, List.forall₂_same]
    intro o _
    exact isSubmesh_sknEntry raws vertices o

/-- Version 0 files: a single submesh with all the vertices and all the indices. -/
theorem C19_old (minor : Nat) (hm : minor < 256 ^ 2) (raws : List Nat) (vertices : List SknVertex)
    (h2 : raws.length < 256 ^ 4) (h3 : vertices.length < 256 ^ 4) (hr : ∀ n ∈ raws, n < 256 ^ 2)
    (hv : ∀ v ∈ vertices, SknVertexFits none v) (trailing : Bytes) :
    ∃ e, parseSkn.run (sknFileOld minor raws vertices ++ trailing) = .ok { major := 0, minor, entries := [e] } ∧
      e.vertices = vertices ∧ e.indices = raws.map (· + 1) := by
  refine ⟨{ name := "Unknown".toList, vertices, indices := raws.map (· + 1) }, ?_, rfl, rfl⟩
  apply Reads.run
  refine Reads.bind (Reads.raw' rfl) ?_
  refine Reads.bind_nil (Reads.pure ()) ?_
  refine Reads.bind (Reads.u (by decide)) ?_
  refine Reads.bind (Reads.u hm) ?_
  rw [if_pos rfl]
  refine Reads.bind (Reads.u h2) ?_
  refine Reads.bind (Reads.u h3) ?_
  refine Reads.bind (sknIndices_reads hr) ?_
  exact Reads.map (sknVertices_reads hv) rfl

/-- A file without the magic code raises `ValueError`. -/
theorem C19_magic (data : Bytes) (h : data.take 4 ≠ [0x33, 0x22, 0x11, 0x00]) : parseSkn.run data = .error .value := by
  have e1 : Rd.raw 4 data 0 = .ok (data.take 4, 0 + (data.take 4).length) := rfl
  have e2 : ∀ d p, sknMagic (data.take 4) d p = .error .value := by
    intro d p; unfold sknMagic; rw [if_pos h]; rfl
  unfold Rd.run parseSkn
  rw [Rd.bind_ok e1, Rd.bind_error (e2 _ _)]

theorem foldl_append_flatMap {α : Type} (f : α → Str) (l : List α) (acc : Str) :
    l.foldl (fun content v => content ++ f v) acc = acc ++ l.flatMap f := by
  induction l generalizing acc with
  | nil => simp
  | cons a l ih => simp [ih]

theorem objFaces_spec (l : List Nat) (content : Str) :
    objFaces content l = match triples l with
      | some fs => .ok (content ++ fs.flatMap (fun f => objFace f.1 f.2.1 f.2.2))
      | none => .error .value := by
  induction l using triples.induct generalizing content with
  | case1 => simp [objFaces, triples]
  | case2 a b c rest ih =>
    rw [objFaces, triples, ih]
    rcases triples rest with _ | fs
    · rfl
    · simp
  | case3 l h1 h2 =>
    have e1 : objFaces content l = .error .value := by
      unfold objFaces; split
      · exact absurd rfl h1
      · rename_i a b c r; exact absurd rfl (h2 a b c r)
      · rfl
    have e2 : triples l = none := by
      unfold triples; split
      · exact absurd rfl h1
      · rename_i a b c r; exact absurd rfl (h2 a b c r)
      · rfl
    rw [e1, e2]

theorem triples_flat (l : List Nat) : ∀ fs, triples l = some fs → l = fs.flatMap (fun f => [f.1, f.2.1, f.2.2]) := by
  induction l using triples.induct with
  | case1 => intro fs h; cases h; rfl
  | case2 a b c rest ih =>
    intro fs h
    rw [triples] at h
    obtain ⟨fs', h1, rfl⟩ := Option.map_eq_some_iff.1 h
    simp [← ih fs' h1]
  | case3 l h1 h2 =>
    intro fs h
    unfold triples at h; split at h
    · exact absurd rfl h1
    · rename_i a b c r; exact absurd rfl (h2 a b c r)
    · cases h

theorem triples_isSome (l : List Nat) : (triples l).isSome ↔ l.length % 3 = 0 := by
  induction l using triples.induct with
  | case1 => simp [triples]
  | case2 a b c rest ih =>
    rw [triples, Option.isSome_map, ih, List.length_cons, List.length_cons, List.length_cons]
    omega
  | case3 l h1 h2 =>
    match l with
    | [] => exact absurd rfl h1
    | [_] => simp [triples]
    | [_, _] => simp [triples]
    | a :: b :: c :: r => exact absurd rfl (h2 a b c r)

theorem objVertex_eq (showF : Nat → Str) : objVertex showF = objVertexLines showF := by
  funext v
  have e1 : "v ".toList = ['v', ' '] := by decide +kernel
  have e2 : "vt ".toList = ['v', 't', ' '] := by decide +kernel
  have e3 : "vn ".toList = ['v', 'n', ' '] := by decide +kernel
  have e4 : " ".toList = [' '] := by decide +kernel
  have e5 : "\n".toList = ['\n'] := by decide +kernel
  have e6 : "v".toList = ['v'] := by decide +kernel
  have e7 : "vt".toList = ['v', 't'] := by decide +kernel
  have e8 : "vn".toList = ['v', 'n'] := by decide +kernel
  unfold objVertex objVertexLines
  rw [e1, e2, e3, e4, e5, e6, e7, e8]
  simp only [join]
  simp only [List.append_assoc, List.cons_append, List.nil_append]

theorem objFace_eq : (fun f : Nat × Nat × Nat => objFace f.1 f.2.1 f.2.2) = objFaceLine := by
  funext f
  have e1 : "f ".toList = ['f', ' '] := by decide +kernel
  have e2 : "/".toList = ['/'] := by decide +kernel
  have e3 : "/ ".toList = ['/', ' '] := by decide +kernel
  have e4 : " ".toList = [' '] := by decide +kernel
  have e5 : "\n".toList = ['\n'] := by decide +kernel
  have e6 : "f".toList = ['f'] := by decide +kernel
  unfold objFace objFaceLine objRef
  rw [e1, e2, e3, e4, e5, e6]
  simp only [join]
  simp only [List.append_assoc, List.cons_append, List.nil_append]

/-- The text written: the lines of every vertex, in order, then one face line for each group of three
indices, in order. A number of indices that is not a multiple of three raises `ValueError`. -/
theorem C19_obj (showF : Nat → Str) (e : SknEntry) :
    (e.indices.length % 3 ≠ 0 → toObj showF e = .error .value) ∧
    (e.indices.length % 3 = 0 → ∃ faces : List (Nat × Nat × Nat),
      e.indices = faces.flatMap (fun f => [f.1, f.2.1, f.2.2]) ∧
      toObj showF e = .ok (e.vertices.flatMap (objVertexLines showF) ++ faces.flatMap objFaceLine)) := by
  constructor
  · intro h
    unfold toObj
    rw [objFaces_spec]
    have := (triples_isSome e.indices).not.2 h
    rw [Option.not_isSome_iff_eq_none] at this
    rw [this]
  · intro h
    obtain ⟨fs, hfs⟩ := Option.isSome_iff_exists.1 ((triples_isSome e.indices).2 h)
    refine ⟨fs, triples_flat _ _ hfs, ?_⟩
    unfold toObj
    rw [objFaces_spec, hfs, foldl_append_flatMap, List.nil_append, objVertex_eq, objFace_eq]

/-- Boundary: an index just before the range of the submesh becomes 0, which OBJ does not allow. -/
theorem C19_boundary (raws : List Nat) (vertices : List SknVertex) (o : SknObject) (i raw : Nat)
    (h1 : (range raws o.startIndex o.indexCount)[i]? = some raw) (h2 : raw + 1 = o.startVertex) :
    (sknEntry (raws.map (· + 1)) vertices o).indices[i]? = some 0 := by
  unfold sknEntry
  simp only
  rw [drop_take_range]
  unfold range at *
  rw [← List.map_drop, ← List.map_take, List.map_map, List.getElem?_map, h1, Option.map_some]
  simp only [Function.comp]
  rw [if_neg (by omega)]
  congr 1
  omega

/-- Non-vacuity: a file with two submeshes. -/
example :
    let v (n : Nat) : SknVertex := { position := (n, 0, 0), bones := (0, 0, 0, 0), weight := (0, 0, 0, 0),
                                     normal := (0, 0, 0), uv := (0, 0), color := none, tangent := none }
    let os : List SknObject := [{ name := "A".toList, startVertex := 0, vertexCount := 1, startIndex := 0, indexCount := 3 },
                                { name := "B".toList, startVertex := 1, vertexCount := 3, startIndex := 3, indexCount := 3 }]
    parseSkn.run (sknFileMid 2 1 os [0, 0, 0, 1, 3, 2] [v 7, v 8, v 9, v 10]) =
      .ok { major := 2, minor := 1, entries := [{ name := "A".toList, vertices := [v 7], indices := [1, 1, 1] },
              { name := "B".toList, vertices := [v 8, v 9, v 10], indices := [1, 3, 2] }] } := by
  intro v os
  have h := C19_mid 2 1 (by decide) (by decide) os [0, 0, 0, 1, 3, 2] [v 7, v 8, v 9, v 10] (by decide) (by decide)
    (by decide) (by
      intro o ho
      simp only [os, List.mem_cons, List.not_mem_nil, or_false] at ho
      rcases ho with rfl | rfl <;> exact ⟨by decide, by decide, by decide, by decide, by decide, by decide⟩)
    (by decide) (by
      intro x hx
      simp only [List.mem_cons, List.not_mem_nil, or_false] at hx
      rcases hx with rfl | rfl | rfl | rfl <;>
        exact ⟨by decide, by decide, by decide, by decide, by decide, by simp [v], by simp [v]⟩) []
  obtain ⟨skn, h, _⟩ := h
  clear h
  decide +kernel

/-- Non-vacuity of `C19_v4`: a file with colors and tangents, whose submeshes share vertices -/
example :
    let v (n : Nat) : SknVertex := { position := (n, 0, 0), bones := (1, 2, 3, 4), weight := (0, 0, 0, 0),
                                     normal := (0, 0, 0), uv := (5, 6), color := some (255, 0, 0, n), tangent := some (1, 0, 0, n) }
    let os : List SknObject := [{ name := "Body".toList, startVertex := 0, vertexCount := 2, startIndex := 0, indexCount := 3 },
                                { name := "Weapon".toList, startVertex := 1, vertexCount := 2, startIndex := 3, indexCount := 3 }]
    ∃ skn, parseSkn.run (sknFileV4 1 os 0 52 2 (0, 0, 0) (1, 1, 1) (2, 2, 2) 3 [0, 1, 1, 1, 2, 2] [v 7, v 8, v 9]) = .ok skn ∧
      skn.major = 4 ∧ List.Forall₂ (IsSubmesh [0, 1, 1, 1, 2, 2] [v 7, v 8, v 9]) os skn.entries := by
  intro v os
  obtain ⟨skn, h1, h2, -, h3⟩ := C19_v4 1 (by decide) os 0 52 2 (by decide) (by decide) (by decide) (0, 0, 0) (1, 1, 1) (2, 2, 2) 3 (by decide) (by decide)
    (by decide) (by decide) [0, 1, 1, 1, 2, 2] [v 7, v 8, v 9] (by decide) (by decide) (by decide) (by
      intro o ho
      simp only [os, List.mem_cons, List.not_mem_nil, or_false] at ho
      rcases ho with rfl | rfl <;> exact ⟨by decide, by decide, by decide, by decide, by decide, by decide⟩)
    (by decide) (by
      intro x hx
      simp only [List.mem_cons, List.not_mem_nil, or_false] at hx
      rcases hx with rfl | rfl | rfl <;>
        exact ⟨by decide, by decide, by decide, by decide, by decide, by decide, by decide⟩) []
  rw [List.append_nil] at h1
  exact ⟨skn, h1, h2, h3⟩

/-- Non-vacuity of `C19_old` -/
example :
    let v (n : Nat) : SknVertex := { position := (n, 0, 0), bones := (0, 0, 0, 0), weight := (0, 0, 0, 0),
                                     normal := (0, 0, 0), uv := (0, 0), color := none, tangent := none }
    ∃ e, parseSkn.run (sknFileOld 2 [0, 1, 0] [v 3, v 4] ++ [9]) = .ok { major := 0, minor := 2, entries := [e] } ∧
      e.vertices = [v 3, v 4] ∧ e.indices = [1, 2, 1] := by
  intro v
  refine C19_old 2 (by decide) [0, 1, 0] [v 3, v 4] (by decide) (by decide) (by decide) ?_ [9]
  intro x hx
  simp only [List.mem_cons, List.not_mem_nil, or_false] at hx
  rcases hx with rfl | rfl <;>
    exact ⟨by decide, by decide, by decide, by decide, by decide, by simp [v], by simp [v]⟩

end Cdtb
