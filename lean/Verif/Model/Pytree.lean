import Verif.Model.GridCtor

/-!
# Pytrees (`jax_cfd/base/grids.py`: the registered nodes; `jax.tree_util`: flattening)

Leaves are arbitrary objects of a type `L`.  Containers are tuples, lists, `None`, and the three node types the code
registers.  Dictionaries and dataclasses of the user are not modelled.
-/

namespace JaxCfd
variable {K : Type}

/-- `boundaries.ConstantBoundaryConditions` (boundaries.py:43-69) with the attributes as Python tuples of any length. -/
structure RawBC (K : Type) where
  cls : BCClass
  types : List (BCType × BCType)
  bcValues : List (Option K × Option K)
  deriving DecidableEq

deriving instance DecidableEq for RawGrid

/-- Objects made of tuples, lists, `None`, GridArray (grids.py:41-77), GridVariable (grids.py:265-308) and
GridArrayTensor (grids.py:114-138; `items` in C order). -/
inductive PyTree (K : Type) (L : Type) where
  | leaf (x : L)
  | none
  | tuple (xs : List (PyTree K L))
  | list (xs : List (PyTree K L))
  | gridArray (data : PyTree K L) (offset : List ℚ) (grid : RawGrid K)
  | gridVariable (array : PyTree K L) (bc : RawBC K)
  | tensor (shape : List ℕ) (items : List (PyTree K L))

/-- `jax.tree_util.PyTreeDef`: the containers and their auxiliary data. -/
abbrev TreeDef (K : Type) := PyTree K Unit

namespace PyTree
variable {L M : Type}

mutual
/-- `jax.tree_util.tree_leaves`: children of a GridArray are `(data,)` (grids.py:68-72), of a GridVariable `(array,)`
(grids.py:300-304), of a GridArrayTensor `tensor.ravel().tolist()` (grids.py:136). -/
def leaves : PyTree K L → List L
  | leaf x => [x]
  | none => []
  | tuple xs => leavesL xs
  | list xs => leavesL xs
  | gridArray data _ _ => leaves data
  | gridVariable array _ => leaves array
  | tensor _ items => leavesL items
/-- The leaves of consecutive children. -/
def leavesL : List (PyTree K L) → List L
  | [] => []
  | t :: ts => leaves t ++ leavesL ts
end

mutual
/-- `jax.tree_util.tree_structure`: auxiliary data `(offset, grid)` (grids.py:71), `(bc,)` (grids.py:303), `tensor.shape`
(grids.py:136). -/
def struct : PyTree K L → TreeDef K
  | leaf _ => leaf ()
  | none => none
  | tuple xs => tuple (structL xs)
  | list xs => list (structL xs)
  | gridArray data offset grid => gridArray (struct data) offset grid
  | gridVariable array bc => gridVariable (struct array) bc
  | tensor shape items => tensor shape (structL items)
def structL : List (PyTree K L) → List (TreeDef K)
  | [] => []
  | t :: ts => struct t :: structL ts
end

/-- `GridVariable(array, bc)` with `__post_init__` (grids.py:290-298). -/
def mkVariable (array : PyTree K L) (bc : RawBC K) : Except Err (PyTree K L) :=
  match array with
  | gridArray data offset grid => do
      variableRankCheck bc.types grid.shape
      return gridVariable (gridArray data offset grid) bc
  | _ => .error .value

/-- `isinstance(x, GridArray)` -/
def isGridArray : PyTree K L → Bool
  | gridArray _ _ _ => true
  | _ => false

/-- `GridArrayTensor(np.asarray(arrays).reshape(shape))` (grids.py:137).  Items that are not GridArrays (which
`np.asarray` might stack) are not modelled: TypeError. -/
def mkTensor (shape : List ℕ) (items : List (PyTree K L)) : Except Err (PyTree K L) :=
  if items.all isGridArray = false then .error .type
  else if items.length ≠ shape.prod then .error .value
  else .ok (tensor shape items)

mutual
/-- The recursion of `jax.tree_util.tree_unflatten`: consume leaves from left to right and call the constructors
`tree_unflatten` of the registered nodes (grids.py:74-77, 306-309, 137); too few leaves are a ValueError. -/
def build : TreeDef K → List L → Except Err (PyTree K L × List L)
  | leaf _, ls => match ls with
      | [] => .error .value
      | x :: rest => .ok (leaf x, rest)
  | none, ls => .ok (none, ls)
  | tuple xs, ls => do
      let r ← buildL xs ls
      return (tuple r.1, r.2)
  | list xs, ls => do
      let r ← buildL xs ls
      return (list r.1, r.2)
  | gridArray data offset grid, ls => do
      let r ← build data ls
      return (gridArray r.1 offset grid, r.2)
  | gridVariable array bc, ls => do
      let r ← build array ls
      let v ← mkVariable r.1 bc
      return (v, r.2)
  | tensor shape items, ls => do
      let r ← buildL items ls
      let v ← mkTensor shape r.1
      return (v, r.2)
def buildL : List (TreeDef K) → List L → Except Err (List (PyTree K L) × List L)
  | [], ls => .ok ([], ls)
  | t :: ts, ls => do
      let r ← build t ls
      let rs ← buildL ts r.2
      return (r.1 :: rs.1, rs.2)
end

/-- `jax.tree_util.tree_unflatten(treedef, leaves)`; left-over leaves are a ValueError. -/
def unflatten (t : TreeDef K) (ls : List L) : Except Err (PyTree K L) := do
  let r ← build t ls
  if r.2.isEmpty then return r.1 else throw .value

mutual
/-- `treedef.flatten_up_to(tree)`: the subtrees standing at the leaves of `treedef`; a different container or
different auxiliary data is a ValueError. -/
def flattenUpTo [DecidableEq K] : TreeDef K → PyTree K L → Except Err (List (PyTree K L))
  | leaf _, s => .ok [s]
  | none, s => match s with
      | none => .ok []
      | _ => .error .value
  | tuple xs, s => match s with
      | tuple ys => flattenUpToL xs ys
      | _ => .error .value
  | list xs, s => match s with
      | list ys => flattenUpToL xs ys
      | _ => .error .value
  | gridArray data o g, s => match s with
      | gridArray data' o' g' => if o = o' ∧ g = g' then flattenUpTo data data' else .error .value
      | _ => .error .value
  | gridVariable array bc, s => match s with
      | gridVariable array' bc' => if bc = bc' then flattenUpTo array array' else .error .value
      | _ => .error .value
  | tensor shape items, s => match s with
      | tensor shape' items' => if shape = shape' then flattenUpToL items items' else .error .value
      | _ => .error .value
def flattenUpToL [DecidableEq K] : List (TreeDef K) → List (PyTree K L) → Except Err (List (PyTree K L))
  | [], ss => match ss with
      | [] => .ok []
      | _ => .error .value
  | t :: ts, ss => match ss with
      | [] => .error .value
      | s :: ss => do
          let r ← flattenUpTo t s
          let rs ← flattenUpToL ts ss
          return r ++ rs
end

/-- `jax.tree_map(f, tree)` -/
def treeMap (f : L → M) (t : PyTree K L) : Except Err (PyTree K M) := unflatten (struct t) ((leaves t).map f)

/-- `jax.tree_map(f, tree, other)`; `f` receives the leaf of the first and the subtree of the second tree. -/
def treeMap2 [DecidableEq K] (f : L → PyTree K L → M) (t s : PyTree K L) : Except Err (PyTree K M) := do
  let subs ← flattenUpTo (struct t) s
  unflatten (struct t) (List.zipWith f (leaves t) subs)

/-- `GridArrayTensor([[a, b, ..], [c, d, ..], ..])` (grids.py:130-131): a rank 2 tensor from rows of equal length (rows of
different lengths are a ValueError). -/
def tensorOfRows (rows : List (List (PyTree K L))) (cols : ℕ) : Except Err (PyTree K L) :=
  if rows.all (fun r => r.length == cols) = false then .error .value
  else mkTensor [rows.length, cols] rows.flatten

end PyTree
end JaxCfd
