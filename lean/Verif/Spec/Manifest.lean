import Verif.Spec.Info
/-!
# Specification: layout of the body of manifests (a restricted form of FlatBuffers)

All is said with bytes at positions: entries, tables of offsets and texts can be anywhere.
-/
namespace Cdtb.Spec
set_option autoImplicit false
open Py

/-- These bytes are at this position. -/
def Has (data : Bytes) (p : Nat) (bs : Bytes) : Prop := p + bs.length ≤ data.length ∧ (data.drop p).take bs.length = bs

/-- The signed 32 bit distance from `p` to `q` is at position `at_`. -/
def Dist (data : Bytes) (at_ : Nat) (p q : Nat) : Prop :=
  -2147483648 ≤ (q : Int) - p ∧ (q : Int) - p < 2147483648 ∧ Has data at_ (leI 4 ((q : Int) - p))

/-- Values of fields: an integer of a given width, a reference to a position, a text -/
inductive FieldVal where
  | int (w n : Nat)
  | ref (q : Nat)
  | text (s : Str)

/-- A value at a position: references and texts are relative. -/
def FieldAt (data : Bytes) (p : Nat) : FieldVal → Prop
  | .int w n => n < 256 ^ w ∧ Has data p (le w n)
  | .ref q => Dist data p p q
  | .text s => ∃ q, Dist data p p q ∧ Fits32 s ∧ Has data q (text32 s)

/-- The table of offsets of an entry -/
structure VTable (data : Bytes) (entry : Nat) (slots : List Nat) : Prop where
  count : 4 + 2 * slots.length < 256 ^ 2
  small : ∀ s ∈ slots, s < 256 ^ 2
  /-- the entry starts with the distance from its table; the table gives its size, the size of the
  object (not used), then the offsets -/
  table : ∃ p, ∃ objectSize : Bytes, Dist data entry p entry ∧ objectSize.length = 2 ∧
    Has data p (le 2 (4 + 2 * slots.length) ++ (objectSize ++ slots.flatMap (le 2)))

/-- A field of an entry: absent when beyond the table or when its offset is 0, otherwise at the given
offset in the entry. -/
def SlotIs (data : Bytes) (entry : Nat) (slots : List Nat) (i : Nat) : Option FieldVal → Prop
  | none => slots[i]?.getD 0 = 0
  | some v => slots[i]?.getD 0 ≠ 0 ∧ FieldAt data (entry + slots[i]?.getD 0) v

/-- An entry with given fields (by index) -/
def EntryAt (data : Bytes) (entry : Nat) (fields : List (Nat × Option FieldVal)) : Prop :=
  ∃ slots, VTable data entry slots ∧ ∀ f ∈ fields, SlotIs data entry slots f.1 f.2

/-- A table: the number of entries, then the distances to them -/
def TableAt {α : Type} (data : Bytes) (p : Nat) (E : Nat → α → Prop) (l : List α) : Prop :=
  l.length < 2147483648 ∧ Has data p (le 4 l.length) ∧
  ∀ i (h : i < l.length), ∃ q, Dist data (p + 4 + 4 * i) (p + 4 + 4 * i) q ∧ E q l[i]

structure MChunk where
  id : Nat
  size : Nat
  target : Nat

structure MBundle where
  id : Nat
  chunks : List MChunk

structure MDir where
  id : Option Nat
  parent : Option Nat
  name : Str

structure MFile where
  name : Str
  dir : Option Nat
  size : Option Nat
  flags : Option Nat
  link : Option Str
  chunks : List Nat

structure MBody where
  bundles : List MBundle
  flags : List (Nat × Str)
  files : List MFile
  dirs : List MDir

/-- A 64 or 32 bit field -/
def fint (w : Nat) (n : Nat) : Option FieldVal := some (.int w n)

def ChunkAt (data : Bytes) (p : Nat) (c : MChunk) : Prop := EntryAt data p [(0, fint 8 c.id), (1, fint 4 c.size), (2, fint 4 c.target)]
def BundleAt (data : Bytes) (p : Nat) (b : MBundle) : Prop :=
  ∃ q, EntryAt data p [(0, fint 8 b.id), (1, some (.ref q))] ∧ TableAt data q (ChunkAt data) b.chunks
/-- A flag: after 7 unused bytes its id, then the distance to its name -/
def FlagAt (data : Bytes) (p : Nat) (f : Nat × Str) : Prop :=
  f.1 < 256 ∧ (∃ unused : Bytes, unused.length = 3 ∧ Has data (p + 4) (unused ++ le 1 f.1)) ∧
  ∃ q, Dist data (p + 8) (p + 8) q ∧ Fits32 f.2 ∧ Has data q (text32 f.2)
def DirAt (data : Bytes) (p : Nat) (d : MDir) : Prop :=
  EntryAt data p [(0, d.id.map (.int 8)), (1, d.parent.map (.int 8)), (2, some (.text d.name))]
/-- A file; chunks are a list of ids preceded by its length -/
def FileAt (data : Bytes) (p : Nat) (f : MFile) : Prop :=
  ∃ id q, EntryAt data p [(0, id), (1, f.dir.map (.int 8)), (2, f.size.map (.int 4)), (3, some (.text f.name)), (4, f.flags.map (.int 8)),
    (7, some (.ref q)), (9, f.link.map .text)] ∧ (∀ n, id = some n → ∃ k, n = .int 8 k) ∧
    f.chunks.length < 256 ^ 4 ∧ (∀ c ∈ f.chunks, c < 256 ^ 8) ∧ Has data q (le 4 f.chunks.length ++ f.chunks.flatMap (le 8))

/-- The body: a header preceded by its length, the distances to six tables -/
structure BodyAt (data : Bytes) (m : MBody) : Prop where
  layout : ∃ (header : Nat) (t0 t1 t2 t3 : Nat), header < 2147483648 ∧ Has data 0 (le 4 header) ∧
    Dist data (4 + header) (4 + header) t0 ∧ Dist data (8 + header) (8 + header) t1 ∧
    Dist data (12 + header) (12 + header) t2 ∧ Dist data (16 + header) (16 + header) t3 ∧
    4 + header + 24 ≤ data.length ∧
    TableAt data t0 (BundleAt data) m.bundles ∧ TableAt data t1 (FlagAt data) m.flags ∧
    TableAt data t2 (FileAt data) m.files ∧ TableAt data t3 (DirAt data) m.dirs

/-- Names of the directories that contain something, the root first -/
inductive Ancestors (dirs : List MDir) : Option Nat → List Str → Prop
  | root : Ancestors dirs none []
  | child {d : Nat} {e : MDir} {names : List Str} : lastWith MDir.id dirs (some d) = some e →
      Ancestors dirs e.parent names → Ancestors dirs (some d) (names ++ [e.name])

/-- Position of the `i`th chunk of a bundle: after the previous ones -/
def MBundle.offset (b : MBundle) (i : Nat) : Nat := ((b.chunks.take i).map MChunk.size).sum

/-- Where a chunk is: its bundle, its position and size there, and its size once decompressed -/
structure Loc where
  bundle : Nat
  offset : Nat
  size : Nat
  target : Nat
deriving DecidableEq

/-- All the chunks, with their id -/
def MBody.locs (m : MBody) : List (Nat × Loc) :=
  m.bundles.flatMap (fun b => b.chunks.zipIdx.map (fun ci => (ci.1.id, ⟨b.id, b.offset ci.2, ci.1.size, ci.1.target⟩)))

/-- The parent of a directory -/
def Up (dirs : List MDir) (a b : Nat) : Prop := ∃ e, lastWith MDir.id dirs (some a) = some e ∧ e.parent = some b

/-- Going up from a directory, by any number of levels -/
inductive UpTo (dirs : List MDir) : Nat → Nat → Prop
  | here {a : Nat} : UpTo dirs a a
  | up {a b c : Nat} : Up dirs a b → UpTo dirs b c → UpTo dirs a c

/-- Ids of the flags of a mask: one more than the index of each of its bits -/
def maskIds (mask : Nat) : List Nat := ((List.range 64).filter mask.testBit).map (· + 1)

end Cdtb.Spec
