import Verif.Model.BCUtils
import Verif.Model.FiniteDifferences

/-!
# Pressure projection (`jax_cfd/base/pressure.py`)

The solver is an arbitrary function argument, as in the code (`solve: Callable`); the concrete solver
`solve_fast_diag` is modelled in `Model/FastDiag.lean`.
-/

namespace JaxCfd
variable {d : ℕ} {K : Type} [Field K] [HasNan K] [DecidableEq K]

/-- A pressure solver `solve(v, q0, pressure_bc)` (pressure.py:192). -/
abbrev PressureSolver (d : ℕ) (K : Type) :=
  (Fin d → GridVariable d K) → GridVariable d K → BC d K → Except Err (GridArray d K)

/-- `pressure.projection` (pressure.py:181-198). -/
def projection (v : Fin d → GridVariable d K) (solve : PressureSolver d K) :
    Except Err (Fin d → GridVariable d K) := do
  let g ← consistentGrid (List.ofFn fun a => (v a).array)
  let bc ← pressureBCFromVelocity (List.ofFn v)
  let q0 ← bc.imposeBC ⟨⟨g.shape, fun _ => 0⟩, fun _ => 1 / 2, g⟩
  let q ← solve v q0 bc
  let qv ← bc.imposeBC q
  let grad ← forwardDifferences qv
  seqFin fun a => do
    let w ← gmap2 (fun x y => x - y) (v a).array (grad a)
    (v a).bc.imposeBC w

end JaxCfd
