import Verif.Model.Boundaries
import Verif.Model.Seq

/-!
# One-dimensional laplacian matrices (`jax_cfd/base/array_utils.py:168-290`)
-/

namespace JaxCfd
variable {d : ℕ} {K : Type}

/-- A two-dimensional numpy array; only entries `0 ≤ i < rows`, `0 ≤ j < cols` are meaningful. -/
structure Mat (K : Type) where
  rows : ℕ
  cols : ℕ
  e : ℤ → ℤ → K

namespace Mat
/-- `m[i, j] = x` for non-negative indices. -/
def set (m : Mat K) (i j : ℤ) (x : K) : Mat K :=
  { m with e := fun i' j' => if i' = i ∧ j' = j then x else m.e i' j' }

/-- `m[:-1, :-1]` -/
def dropLast (m : Mat K) : Mat K := ⟨m.rows - 1, m.cols - 1, m.e⟩
end Mat

/-- The first column of the periodic laplacian (array_utils.py:170-172): `zeros(size)`, then `column[0]`, then
`column[1]` and `column[-1]` are assigned (not accumulated). -/
def laplacianColumn [Field K] (size : ℕ) (step : K) (k : ℤ) : K :=
  if k = (size : ℤ) - 1 then 1 / step ^ 2
  else if k = 1 then 1 / step ^ 2
  else if k = 0 then -2 / step ^ 2
  else 0

/-- `laplacian_matrix` (array_utils.py:168-173): `scipy.linalg.circulant(column)[i, j] = column[(i - j) mod size]`.
`column[0]` / `column[1]` are IndexErrors for sizes 0 / 1. -/
def laplacianMatrix [Field K] (size : ℕ) (step : K) : Except Err (Mat K) :=
  if size ≤ 1 then .error .index
  else .ok ⟨size, size, fun i j => laplacianColumn size step ((i - j) % (size : ℤ))⟩

/-- Which side of an axis. -/
inductive Side where
  | lower | upper
  deriving DecidableEq, Repr

/-- `laplacians[axis][0, -1] = 0.0; laplacians[axis][-1, 0] = 0.0` (array_utils.py:211-212, 241-242). -/
def zeroCorners [Field K] (m : Mat K) : Mat K :=
  (m.set 0 ((m.cols : ℤ) - 1) 0).set ((m.rows : ℤ) - 1) 0 0

/-- `_laplacian_boundary_dirichlet_cell_centered` (array_utils.py:176-213). -/
def laplacianDirichlet [Field K] (m : Mat K) (step : K) : Side → Mat K
  | .lower => zeroCorners (m.set 0 0 (m.e 0 0 - 1 / step ^ 2))
  | .upper => zeroCorners (m.set ((m.rows : ℤ) - 1) ((m.cols : ℤ) - 1)
      (m.e ((m.rows : ℤ) - 1) ((m.cols : ℤ) - 1) - 1 / step ^ 2))

/-- `_laplacian_boundary_neumann_cell_centered` (array_utils.py:216-243). -/
def laplacianNeumann [Field K] (m : Mat K) (step : K) : Side → Mat K
  | .lower => zeroCorners (m.set 0 0 (m.e 0 0 + 1 / step ^ 2))
  | .upper => zeroCorners (m.set ((m.rows : ℤ) - 1) ((m.cols : ℤ) - 1)
      (m.e ((m.rows : ℤ) - 1) ((m.cols : ℤ) - 1) + 1 / step ^ 2))

/-- One side of a cell-centred axis (array_utils.py:272-278). -/
def laplacianSide [Field K] (t : BCType) (step : K) (side : Side) (m : Mat K) : Mat K :=
  if t = .neumann then laplacianNeumann m step side
  else if t = .dirichlet then laplacianDirichlet m step side
  else m

/-- One axis of `laplacian_matrix_w_boundaries` (array_utils.py:270-289), given the periodic matrix. -/
def laplacianMatrixAxis [Field K] (types : BCType × BCType) (offset : ℚ) (step : K) (m : Mat K) : Except Err (Mat K) :=
  let m := if offset = 1 / 2 then laplacianSide types.2 step .upper (laplacianSide types.1 step .lower m) else m
  if Int.fract offset = 0 then
    if types.1 = .dirichlet ∧ types.2 = .dirichlet then .ok m.dropLast
    else if types.1 = .neumann ∨ types.2 = .neumann then .error .notImplemented
    else .ok m
  else .ok m

/-- `laplacian_matrix_w_boundaries` (array_utils.py:246-290).  Every `BC` is a `ConstantBoundaryConditions`, so the
class check (array_utils.py:266-268) passes. -/
def laplacianMatrixWB [Field K] (g : Grid d K) (offset : Fin d → ℚ) (bc : BC d K) : Except Err (Fin d → Mat K) := do
  let ms ← seqFin fun a => laplacianMatrix (g.shape a) (g.step a)
  seqFin fun a => laplacianMatrixAxis (bc.types a) (offset a) (g.step a) (ms a)

end JaxCfd
