import Verif.Model.Arr

/-!
# `jax_cfd/base/grids.py`
-/

namespace JaxCfd

variable {d : ℕ} {K : Type}

/-- `grids.Grid` (grids.py:500-555): shape and domain; `step` is the derived attribute below.
The rank is the type index `d`; the constructor, with its argument checks, is `Grid.mk?` in
`Model/GridCtor.lean`. -/
@[ext]
structure Grid (d : ℕ) (K : Type) where
  shape : Fin d → ℕ
  domain : Fin d → K × K
  deriving DecidableEq

/-- `Grid.step` (grids.py:553-555): `(upper - lower) / size`. -/
def Grid.step [Field K] (g : Grid d K) (a : Fin d) : K :=
  ((g.domain a).2 - (g.domain a).1) / (g.shape a : K)

/-- `grids.GridArray` (grids.py:41-66).  The number of array dimensions is the rank of the grid
(the code's unenforced convention, grids.py:59-63). -/
structure GridArray (d : ℕ) (K : Type) extends NArr d K where
  offset : Fin d → ℚ
  grid : Grid d K

namespace GridArray
/-- Two grid arrays are the same: same offset, grid, shape and in-range entries. -/
def Eqv (u v : GridArray d K) : Prop :=
  u.offset = v.offset ∧ u.grid = v.grid ∧ u.toNArr.Eqv v.toNArr
end GridArray

/-- `boundaries.BCType` (boundaries.py:32-35); `invalid` stands for any other string. -/
inductive BCType where
  | periodic | dirichlet | neumann | invalid
  deriving DecidableEq, Repr

/-- Which of the two classes a boundary condition object belongs to: `ConstantBoundaryConditions`
or its subclass `HomogeneousBoundaryConditions` (boundaries.py:44-68, 533-552). -/
inductive BCClass where
  | constant | homogeneous
  deriving DecidableEq, Repr

/-- `boundaries.ConstantBoundaryConditions` (boundaries.py:43-69).  `none` is Python's `None`. -/
@[ext]
structure BC (d : ℕ) (K : Type) where
  cls : BCClass
  types : Fin d → BCType × BCType
  bcValues : Fin d → Option K × Option K
  deriving DecidableEq

/-- `grids.GridVariable` (grids.py:265-298).  Its rank check (grids.py:291-298) is enforced by the type
index here and modelled explicitly in `Model/GridCtor.lean`. -/
structure GridVariable (d : ℕ) (K : Type) where
  array : GridArray d K
  bc : BC d K

namespace GridVariable
/-- Same boundary condition object and same array. -/
def Eqv (u v : GridVariable d K) : Prop := u.bc = v.bc ∧ u.array.Eqv v.array
end GridVariable

/-- Python `{f(x) for x in xs}` has exactly one element, which is returned; `err` is raised otherwise.
The common core of `consistent_offset` (grids.py:461-469), `consistent_grid` (grids.py:476-482) and
`unique_boundary_conditions` (grids.py:489-496). -/
def uniqueOr {α β : Type} [DecidableEq β] (err : Err) (f : α → β) (xs : List α) : Except Err β :=
  match (xs.map f).dedup with
  | [b] => .ok b
  | _ => .error err

/-- `grids.consistent_offset` (grids.py:461-469). -/
def consistentOffset (us : List (GridArray d K)) : Except Err (Fin d → ℚ) :=
  uniqueOr .offset GridArray.offset us

/-- `grids.consistent_grid` (grids.py:476-482). -/
def consistentGrid [DecidableEq K] (us : List (GridArray d K)) : Except Err (Grid d K) :=
  uniqueOr .grid GridArray.grid us

/-- `grids.unique_boundary_conditions` (grids.py:489-496). -/
def uniqueBoundaryConditions [DecidableEq K] (us : List (GridVariable d K)) : Except Err (BC d K) :=
  uniqueOr .bc GridVariable.bc us

/-- `GridArray.__array_ufunc__` (grids.py:89-108) for a binary ufunc on two GridArrays: the data is computed
first (arrays of different shapes are rejected; broadcasting between them is not modelled), then offsets are
compared, then grids. -/
def gmap2 [DecidableEq K] (f : K → K → K) (u v : GridArray d K) : Except Err (GridArray d K) :=
  if u.shape ≠ v.shape then .error .type
  else do
    let o ← consistentOffset [u, v]
    let g ← consistentGrid [u, v]
    return ⟨u.toNArr.map2 f v.toNArr, o, g⟩

/-- `GridArray.__array_ufunc__` (grids.py:89-108) for one GridArray and scalars. -/
def gmap (f : K → K) (u : GridArray d K) : GridArray d K := ⟨u.toNArr.map f, u.offset, u.grid⟩

end JaxCfd
