import Verif.Spec
import Mathlib.Analysis.Calculus.IteratedDeriv.Defs
import Mathlib.Analysis.Calculus.ContDiff.Basic

/-!
# Smooth functions and their samples on a grid: the vocabulary of C73 and C74
-/

namespace JaxCfd
variable {d : ℕ}

/-- The position in space of the grid point `i` of an array with offset `o`. -/
noncomputable def Grid.position (g : Grid d ℝ) (o : Fin d → ℚ) (i : Idx d) : Fin d → ℝ := fun a => (g.domain a).1 + ((i a : ℝ) + (o a : ℝ)) * g.step a

/-- The function `f` on space has the period of the domain of the grid along every axis. -/
def PeriodicOn (g : Grid d ℝ) (f : (Fin d → ℝ) → ℝ) : Prop := ∀ x a, f (Function.update x a (x a + ((g.domain a).2 - (g.domain a).1))) = f x

/-- The entries of the array are the values of `f` at the grid points. -/
def GridArray.Samples (u : GridArray d ℝ) (f : (Fin d → ℝ) → ℝ) : Prop := ∀ i : Idx d, InR u.shape i → u.data i = f (u.grid.position u.offset i)

/-- The entries of the array are within `ε` of the values of `f` at the grid points. -/
def GridArray.Approximates (u : GridArray d ℝ) (f : (Fin d → ℝ) → ℝ) (ε : ℝ) : Prop :=
  ∀ i : Idx d, InR u.shape i → |u.data i - f (u.grid.position u.offset i)| ≤ ε

/-- The `n`-th partial derivative of `f` along axis `a`. -/
noncomputable def partialDeriv (n : ℕ) (a : Fin d) (f : (Fin d → ℝ) → ℝ) (x : Fin d → ℝ) : ℝ := iteratedDeriv n (fun t => f (Function.update x a t)) (x a)

/-- Along axis `a` the function is `n` times continuously differentiable and its `n`-th partial derivative is bounded by `M`. -/
def SmoothAlong (n : ℕ) (a : Fin d) (M : ℝ) (f : (Fin d → ℝ) → ℝ) : Prop :=
  (∀ x, ContDiff ℝ n fun t => f (Function.update x a t)) ∧ ∀ x, |partialDeriv n a f x| ≤ M

/-- At every point the function of time and space is twice continuously differentiable in time, with second derivative bounded by `T` from time 0 on. -/
def SmoothInTime (C : ℝ → (Fin d → ℝ) → ℝ) (T : ℝ) : Prop := (∀ x, ContDiff ℝ (2 : ℕ) fun t => C t x) ∧ ∀ x t, 0 ≤ t → |iteratedDeriv 2 (fun t => C t x) t| ≤ T

/-- The variable `w` is the result of an explicit Euler step `u + dt * r`. -/
def EulerStep (u : GridVariable d ℝ) (r : GridArray d ℝ) (dt : ℝ) (w : GridVariable d ℝ) : Prop :=
  w.bc = u.bc ∧ w.array.grid = u.array.grid ∧ w.array.shape = u.array.shape ∧ w.array.offset = u.array.offset ∧
    ∀ i : Idx d, InR u.array.shape i → w.array.data i = u.array.data i + dt * r.data i

/-- A grid with cells of positive size. -/
def Grid.Valid (g : Grid d ℝ) : Prop := ∀ a, 0 < g.shape a ∧ (g.domain a).1 < (g.domain a).2

/-- The function obeys the boundary conditions: it has the period of the domain along periodic axes, the prescribed value on every Dirichlet wall and the prescribed derivative along the axis on every
Neumann wall. -/
def BC.Obeys [HasNan ℝ] (bc : BC d ℝ) (g : Grid d ℝ) (f : (Fin d → ℝ) → ℝ) : Prop := ∀ a x,
  (bc.types a = (.periodic, .periodic) → f (Function.update x a (x a + ((g.domain a).2 - (g.domain a).1))) = f x) ∧
    ((bc.types a).1 = .dirichlet → f (Function.update x a (g.domain a).1) = (bc.constantValues a).1) ∧
    ((bc.types a).2 = .dirichlet → f (Function.update x a (g.domain a).2) = (bc.constantValues a).2) ∧
    ((bc.types a).1 = .neumann → partialDeriv 1 a f (Function.update x a (g.domain a).1) = (bc.constantValues a).1) ∧
    ((bc.types a).2 = .neumann → partialDeriv 1 a f (Function.update x a (g.domain a).2) = (bc.constantValues a).2)

/-- The error of the value beyond a wall, divided by `h ^ 2`, for data at the cell centres and a function with second and third derivatives bounded by `M2` and `M3`. -/
noncomputable def BCType.wallError (M2 M3 h : ℝ) : BCType → ℝ
  | .dirichlet => M2 / 4
  | .neumann => M3 * h / 24
  | _ => 0

/-- The additional error of a second difference along axis `a` at cell `i`, next to a wall between which the data lie at the cell centres: `M2 / 4` at a Dirichlet wall and `M3 h / 24` at a Neumann wall,
for a function with second and third derivatives bounded by `M2` and `M3`. -/
noncomputable def GridVariable.wallError (u : GridVariable d ℝ) (a : Fin d) (M2 M3 : ℝ) (i : Idx d) : ℝ :=
  (if i a = 0 ∧ u.array.offset a = 1 / 2 then (u.bc.types a).1.wallError M2 M3 (u.array.grid.step a) else 0) +
    (if i a + 1 = u.array.shape a ∧ u.array.offset a = 1 / 2 then (u.bc.types a).2.wallError M2 M3 (u.array.grid.step a) else 0)

end JaxCfd
