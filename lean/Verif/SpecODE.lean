import Mathlib.Analysis.Calculus.IteratedDeriv.Defs
import Mathlib.Analysis.Calculus.ContDiff.Basic
import Mathlib.Analysis.InnerProductSpace.Basic

/-!
# Ordinary differential equations: the vocabulary of C75
-/

namespace JaxCfd
variable {V : Type} [NormedAddCommGroup V] [NormedSpace ℝ V]

/-- `y` solves `y' = f y` from time 0 on. -/
def SolvesODE (f : V → V) (y : ℝ → V) : Prop := ∀ t, 0 ≤ t → HasDerivAt y (f (y t)) t

/-- The path is `n` times continuously differentiable, with `n`-th derivative bounded by `M` from time 0 on. -/
def SmoothPath (n : ℕ) (M : ℝ) (y : ℝ → V) : Prop := ContDiff ℝ n y ∧ ∀ t, 0 ≤ t → ‖iteratedDeriv n y t‖ ≤ M

/-- Within distance `R` of the path, `f` is Lipschitz with constant `L`. -/
def LipschitzNear (f : V → V) (y : ℝ → V) (R L : ℝ) : Prop :=
  ∀ t, 0 ≤ t → ∀ x z, ‖x - y t‖ ≤ R → ‖z - y t‖ ≤ R → ‖f x - f z‖ ≤ L * ‖x - z‖

/-- Within distance `R` of the path, `f` is differentiable, its derivative is bounded by `L` and Lipschitz with constant `K`. -/
def SmoothNear (f : V → V) (y : ℝ → V) (R L K : ℝ) : Prop :=
  ∀ t, 0 ≤ t → ∀ x, ‖x - y t‖ ≤ R → DifferentiableAt ℝ f x ∧ ‖fderiv ℝ f x‖ ≤ L ∧ ∀ z, ‖z - y t‖ ≤ R → ‖fderiv ℝ f x - fderiv ℝ f z‖ ≤ K * ‖x - z‖

/-- A linear projection. -/
def IsProjection (P : V →ₗ[ℝ] V) : Prop := ∀ x, P (P x) = P x

/-- A linear operator whose flow does not increase the norm. -/
def Dissipative {V : Type} [NormedAddCommGroup V] [InnerProductSpace ℝ V] (G : V →ₗ[ℝ] V) : Prop := ∀ x, Inner.inner ℝ (G x) x ≤ 0

end JaxCfd
