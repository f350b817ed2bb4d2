import Verif.SpecML
import Verif.Model.Patches
import Mathlib.Algebra.MvPolynomial.PDeriv
import Mathlib.MeasureTheory.Integral.Pi
import Mathlib.Analysis.SpecialFunctions.Integrals.Basic

/-! Specification vocabulary for polynomial accuracy: derivatives at the origin, cell averages, stencil points. -/

namespace JaxCfd
variable {d : ℕ}

/-- The mixed partial derivative of orders `m` of a polynomial, evaluated at the origin. -/
noncomputable def derivAtZero (m : Fin d → ℕ) (p : MvPolynomial (Fin d) ℝ) : ℝ :=
  MvPolynomial.eval 0 ((List.finRange d).foldr (fun a q => (MvPolynomial.pderiv a)^[m a] q) p)

/-- The average of a polynomial over the cell of width `h` centred at `x`. -/
noncomputable def cellAverage (h : ℝ) (p : MvPolynomial (Fin d) ℝ) (x : Fin d → ℝ) : ℝ :=
  (1 / h ^ d) * ∫ y in Set.pi Set.univ fun a => Set.Ioc (x a - h / 2) (x a + h / 2), MvPolynomial.eval y p

/-- The points of a tensor-product stencil in row-major order. -/
noncomputable def stencilPoints (stencils : Fin d → List ℝ) : List (Fin d → ℝ) :=
  (cartesian (List.ofFn stencils)).map fun l a => l.getD a 0

/-- The weighted sum of samples `xs` with coefficients `c`. -/
def weighted (xs c : List ℝ) : ℝ := (List.zipWith (fun x y => x * y) xs c).sum

/-- What is used about `np.linalg.solve(A, b)`: a result has as many entries as `A` has columns and solves
the equations. -/
def SolvesExactly (solve : List (List ℝ) → List ℝ → Except Err (List ℝ)) : Prop :=
  ∀ (rows : List (List ℝ × ℝ)) (c : List ℝ), solve (rows.map fun q => q.1) (rows.map fun q => q.2) = .ok c →
    ∀ q ∈ rows, q.1.length = c.length ∧ weighted q.1 c = q.2

/-- What is used about the right factor of `np.linalg.svd(A)` for an `m × n` matrix with `m ≤ n`: it is
`n × n`, and its rows after the first `m` are mapped to 0 by `A`. -/
def SvdNullRows (svd : List (List ℝ) → List (List ℝ)) : Prop :=
  ∀ (A : List (List ℝ)) (n : ℕ), A ≠ [] → (∀ r ∈ A, r.length = n) → A.length ≤ n →
    (svd A).length = n ∧ (∀ v ∈ svd A, v.length = n) ∧
    ∀ v ∈ (svd A).drop A.length, ∀ r ∈ A, weighted r v = 0

end JaxCfd
