import Verif.Model.Arr
import Mathlib.LinearAlgebra.Matrix.DotProduct
import Mathlib.LinearAlgebra.Matrix.Diagonal
import Mathlib.Analysis.SpecialFunctions.Pow.NNReal
import Mathlib.Data.Real.Sign

/-!
# `jax_cfd/base/array_utils.py`: `gram_schmidt_qr`

Matrices are Mathlib matrices over the reals; a division by a zero norm is 0 here and NaN in the code, so that the theorems are
about matrices for which no such division happens.
-/

namespace JaxCfd
open Matrix
variable {n m : ℕ}

/-- `jnp.linalg.norm` of a vector. -/
noncomputable def vnorm (v : Fin n → ℝ) : ℝ := Real.sqrt (v ⬝ᵥ v)

/-- `orthogonalize` (array_utils.py:321-327): the components along `others` are removed one after the other. -/
noncomputable def orthogonalize (vector : Fin n → ℝ) (others : List (Fin n → ℝ)) : Fin n → ℝ :=
  let w := others.foldl (fun c x => c - (c ⬝ᵥ x) • x) vector
  (vnorm w)⁻¹ • w

/-- `q_columns` after the loop (array_utils.py:329-338). -/
noncomputable def qColumns (columns : List (Fin n → ℝ)) : List (Fin n → ℝ) :=
  columns.foldl (fun qs c => qs ++ [orthogonalize c qs]) []

/-- `gram_schmidt_qr` (array_utils.py:299-344).  A matrix without columns is rejected by `jnp.split`. -/
noncomputable def gramSchmidtQR (a : Matrix (Fin n) (Fin m) ℝ) : Except Err (Matrix (Fin n) (Fin m) ℝ × Matrix (Fin m) (Fin m) ℝ) :=
  if m = 0 then .error .zeroDivision
  else
    let qs := qColumns (List.ofFn fun k => aᵀ k)
    let q : Matrix (Fin n) (Fin m) ℝ := Matrix.of fun i k => qs.getD k 0 i
    let r : Matrix (Fin m) (Fin m) ℝ := Matrix.of fun k i => if k ≤ i then aᵀ i ⬝ᵥ qs.getD k 0 else 0
    let d : Matrix (Fin m) (Fin m) ℝ := Matrix.diagonal fun k => Real.sign (r k k)
    .ok (q * d, d * r)

end JaxCfd
