import Verif.Py.Str
/-!
# Trees of paths (cdtb/export.py:29-76)
-/
namespace Cdtb
set_option autoImplicit false
open Py

/-- Nested mappings: `None` for leafs, dicts for directories (cdtb/export.py:29-37) -/
inductive Tree where
  | leaf
  | node (d : List (Str × Tree))

/-- The loop body of `paths_to_tree` for one path, split in parts (cdtb/export.py:41-45): `setdefault` on a leaf raises
`AttributeError`, and item assignment `TypeError`, because they are `None`. -/
def treeInsert (d : Dict Str Tree) : List Str → Res (Dict Str Tree)
  | [] => .ok d
  | [leaf] => .ok (d.set leaf .leaf)
  | parent :: q :: ps =>
    match d.get? parent with
    | none => do
      let sub ← treeInsert [] (q :: ps)
      pure (d.set parent (.node sub))
    | some (.node sub) => do
      let sub' ← treeInsert sub (q :: ps)
      pure (d.set parent (.node sub'))
    | some .leaf => .error (if ps.isEmpty then .type else .attribute)

/-- `paths_to_tree` (cdtb/export.py:29-46) -/
def pathsToTree (paths : List Str) : Res (Dict Str Tree) :=
  paths.foldlM (fun d p => treeInsert d (splitChar '/' p)) []

mutual
/-- `tree1 == tree2`: equality of dicts ignores order. -/
def Tree.eq : Tree → Tree → Bool
  | .leaf, .leaf => true
  | .node a, .node b => decide (a.length = b.length) && Tree.eqItems a b
  | _, _ => false
/-- Every item of the first dict is equal in the second one. -/
def Tree.eqItems : List (Str × Tree) → Dict Str Tree → Bool
  | [], _ => true
  | (k, v) :: r, b =>
    (match b.get? k with
     | some v' => Tree.eq v v'
     | none => false) && Tree.eqItems r b
end

/-- `tree[name]`: `KeyError` when missing, `TypeError` on `None` -/
def Tree.item (t : Tree) (name : Str) : Res Tree :=
  match t with
  | .leaf => .error .type
  | .node d => Dict.get d name

/-- `None if excludes is None else excludes.get(name)`: `None` for missing names and for leafs
(cdtb/export.py:57) -/
def Tree.getNone (t : Tree) (name : Str) : Tree :=
  match t with
  | .leaf => .leaf
  | .node d => (Dict.get? d name).getD .leaf

/-- `is None` -/
def Tree.isNone : Tree → Bool
  | .leaf => true
  | .node _ => false

mutual
/-- `reduce_common_trees` (cdtb/export.py:48-57), evaluated by `list()` -/
def reduceTrees (parts : List Str) : Tree → Tree → Tree → Res (List Str)
  | .leaf, _, _ => .ok [join ['/'] parts]
  | .node d1, t2, ex =>
    if Tree.eq (.node d1) t2 && ex.isNone then .ok [join ['/'] parts] else reduceItems parts d1 t2 ex
/-- the loop of `reduce_common_trees` (cdtb/export.py:54-57) -/
def reduceItems (parts : List Str) : List (Str × Tree) → Tree → Tree → Res (List Str)
  | [], _, _ => .ok []
  | (name, c1) :: r, t2, ex => do
    let c2 ← t2.item name
    let a ← reduceTrees (parts ++ [name]) c1 c2 (ex.getNone name)
    let b ← reduceItems parts r t2 ex
    pure (a ++ b)
end

/-- `reduce_common_paths` (cdtb/export.py:59-76); sets of paths are given as lists in their iteration order -/
def reduceCommonPaths (paths1 paths2 excludes : List Str) : Res (List Str) := do
  let tree1 ← pathsToTree paths1
  let tree2 ← pathsToTree paths2
  let ex ← pathsToTree excludes
  let ret ← reduceTrees [] (.node tree1) (.node tree2) (.node ex)
  pure (if decide (ret.length = 1) && decide (ret.head? = some []) then tree1.keys else ret)

example : reduceCommonPaths ["a/x".toList, "a/y".toList, "b".toList, "c/d/e".toList]
    ["a/x".toList, "b".toList, "a/y".toList, "c/z".toList, "c/d/e".toList] ["c/new".toList] =
    .ok ["a".toList, "b".toList, "c/d".toList] := by decide +kernel

end Cdtb
