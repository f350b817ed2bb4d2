import Verif.Model.FastDiag
import Mathlib.Algebra.Polynomial.AlgebraMap

/-!
# Specification vocabulary for separable linear operators

Independent of how the library diagonalizes: the operator `A ⊗ I + I ⊗ B + …` acts on an array by applying each matrix along
its axis and adding the results; a polynomial of it is a combination of its iterates.
-/

namespace JaxCfd
variable {d : ℕ} {K : Type} [Field K]

/-- `(A ⊗ I ⊗ … + I ⊗ B ⊗ … + …) x`: matrix `M a` of size `n a` acts along axis `a`. -/
noncomputable def kronSum (n : Fin d → ℕ) (M : Fin d → ℤ → ℤ → K) (x : Idx d → K) : Idx d → K :=
  fun i => ∑ a, ∑ j ∈ Finset.Ico (0 : ℤ) (n a), M a (i a) j * x (Function.update i a j)

/-- `p(L) x = Σ_k p_k L^k x` -/
noncomputable def polyApply (p : Polynomial K) (L : (Idx d → K) → Idx d → K) (x : Idx d → K) : Idx d → K :=
  fun i => p.sum fun k c => c * (L^[k] x) i

/-- The separable operator given by a list of matrices. -/
noncomputable def separable (ops : List (Mat ℝ)) : (Idx d → ℝ) → Idx d → ℝ :=
  kronSum (fun a => (opAt ops a).rows) fun a => (opAt ops a).e

/-- A real symmetric matrix. -/
def Mat.Symmetric (m : Mat ℝ) : Prop :=
  m.rows = m.cols ∧ ∀ i j : ℤ, 0 ≤ i → i < m.rows → 0 ≤ j → j < m.rows → m.e i j = m.e j i

/-- A circulant matrix: the entry depends on the difference of the indices modulo the size. -/
def Mat.Circulant (m : Mat ℝ) : Prop :=
  m.rows = m.cols ∧ ∀ i j : ℤ, 0 ≤ i → i < m.rows → 0 ≤ j → j < m.rows → m.e i j = m.e ((i - j) % m.rows) 0

/-- A complex eigenvalue of a real square matrix. -/
def IsEigenvalue (m : Mat ℝ) (z : ℂ) : Prop :=
  ∃ u : ℤ → ℂ, (∃ i : ℤ, 0 ≤ i ∧ i < m.rows ∧ u i ≠ 0) ∧
    ∀ i : ℤ, 0 ≤ i → i < m.rows → ∑ j ∈ Finset.Ico (0 : ℤ) m.rows, (m.e i j : ℂ) * u j = z * u i

/-- A sum of one eigenvalue of each matrix: the eigenvalues of the separable operator. -/
def IsEigenvalueSum (d : ℕ) (ops : List (Mat ℝ)) (z : ℂ) : Prop :=
  ∃ ev : Fin d → ℂ, (∀ a, IsEigenvalue (opAt ops a) (ev a)) ∧ z = ∑ a, ev a

/-- Specification of `np.linalg.eigh` on one real symmetric matrix: the eigenvector matrix is square of the same size, its
columns are orthonormal, and column `k` is an eigenvector for the `k`-th eigenvalue. -/
def IsEigh (m : Mat K) (r : (ℤ → K) × Mat K) : Prop :=
  r.2.rows = m.rows ∧ r.2.cols = m.rows ∧
  (∀ k l : ℤ, 0 ≤ k → k < m.rows → 0 ≤ l → l < m.rows →
    ∑ j ∈ Finset.Ico (0 : ℤ) m.rows, r.2.e j k * r.2.e j l = if k = l then 1 else 0) ∧
  (∀ i k : ℤ, 0 ≤ i → i < m.rows → 0 ≤ k → k < m.rows →
    ∑ j ∈ Finset.Ico (0 : ℤ) m.rows, m.e i j * r.2.e j k = r.1 k * r.2.e i k)

end JaxCfd
