import Verif.Model.Arr
import Mathlib.Algebra.BigOperators.Group.Finset.Basic
import Mathlib.Algebra.Module.Defs

/-!
# Textbook time stepping schemes

Written down from the literature, independently of the code: coefficients are functions of the stage numbers and the stages are
simply required to exist.
-/

namespace JaxCfd.Spec

variable {K V : Type} [Field K] [AddCommGroup V] [Module K V]

/-- One step of an explicit Runge-Kutta method with `s` stages for `u' = F u`, every stage projected by `P` (the "reference
method" of projected Runge-Kutta methods).  `a i j` is used for `j < i`.  `F` and `P` may fail. -/
def IsProjectedRKStep {E : Type} (s : ℕ) (a : ℕ → ℕ → K) (b : ℕ → K) (F P : V → Except E V) (dt : K) (u0 r : V) : Prop :=
  ∃ U k : ℕ → V, U 0 = u0 ∧ (∀ i < s, F (U i) = .ok (k i)) ∧
    (∀ i, 0 < i → i < s → P (u0 + dt • ∑ j ∈ Finset.range i, a i j • k j) = .ok (U i)) ∧
    P (u0 + dt • ∑ j ∈ Finset.range s, b j • k j) = .ok r

/-- For the step size `h`, `Ginv` solves the implicit equation `y - h G y = x` for `y`. -/
def SolvesImplicit (G : V → V) (Ginv : V → K → V) (h : K) : Prop := ∀ x, Ginv x h - h • G (Ginv x h) = x

/-- For the step size `h`, every solution of the implicit equation is the one found by `Ginv`. -/
def UniqueImplicit (G : V → V) (Ginv : V → K → V) (h : K) : Prop := ∀ y, Ginv (y - h • G y) h = y

/-- One step of an implicit-explicit Runge-Kutta method with `s` stages for `y' = F y + G y`: all stage values `Y i` satisfy the
stage equations, diagonally implicit in `G`. -/
def IsIMEXStep (s : ℕ) (aEx aIm : ℕ → ℕ → K) (bEx bIm : ℕ → K) (F G : V → V) (dt : K) (y0 r : V) : Prop :=
  ∃ Y : ℕ → V, Y 0 = y0 ∧
    (∀ i, 0 < i → i < s → Y i = y0 + dt • ∑ j ∈ Finset.range i, aEx i j • F (Y j) +
      dt • ∑ j ∈ Finset.range (i + 1), aIm i j • G (Y j)) ∧
    r = y0 + dt • ∑ j ∈ Finset.range s, bEx j • F (Y j) + dt • ∑ j ∈ Finset.range s, bIm j • G (Y j)

end JaxCfd.Spec
