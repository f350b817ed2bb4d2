import Verif.SpecSmooth
import Verif.Props.InitialConditions
import Mathlib.Analysis.SpecialFunctions.Exp

/-!
# The incompressible Navier-Stokes equations: the vocabulary of C76
-/

namespace JaxCfd
variable {d : ℕ}

/-- The root mean square, over the cells of the grid, of the Euclidean norm of the error of a velocity on the faces. -/
noncomputable def rmsError (g : Grid d ℝ) (w : Fin d → GridVariable d ℝ) (V : Fin d → (Fin d → ℝ) → ℝ) : ℝ :=
  Real.sqrt ((∑ a, ∑ i ∈ box g.shape, ((w a).array.data i - V a (g.position (w a).array.offset i)) ^ 2) / (∏ a, g.shape a : ℕ))

/-- The length of the diagonal of the domain. -/
noncomputable def Grid.diagonal (g : Grid d ℝ) : ℝ := Real.sqrt (∑ a, ((g.domain a).2 - (g.domain a).1) ^ 2)

/-- `V` and `p` solve the incompressible Navier-Stokes equations from time 0 on, with the force density `F`. -/
structure NavierStokesSolution (density viscosity : ℝ) (F : Fin d → (Fin d → ℝ) → ℝ) (V : ℝ → Fin d → (Fin d → ℝ) → ℝ) (p : ℝ → (Fin d → ℝ) → ℝ) : Prop where
  momentum : ∀ t, 0 ≤ t → ∀ i x, deriv (fun s => V s i x) t =
    -∑ a, partialDeriv 1 a (fun x => V t i x * V t a x) x + viscosity / density * ∑ a, partialDeriv 2 a (V t i) x + F i x / density - partialDeriv 1 i (p t) x / density
  incompressible : ∀ t, 0 ≤ t → ∀ x, ∑ a, partialDeriv 1 a (V t a) x = 0

/-- Bounds on a velocity field, its first three derivatives along every axis, and the second derivatives of `∂V_b/∂x_b` along every axis. -/
structure VelocityBounds (V : Fin d → (Fin d → ℝ) → ℝ) (U G₁ G₂ G₃ H : ℝ) : Prop where
  speed : ∀ b x, |V b x| ≤ U
  first : ∀ a b, SmoothAlong 1 a G₁ (V b)
  second : ∀ a b, SmoothAlong 2 a G₂ (V b)
  third : ∀ a b, SmoothAlong 3 a G₃ (V b)
  mixed : ∀ a b, SmoothAlong 2 a H (partialDeriv 1 b (V b))

/-- The solution is periodic and smooth: uniform bounds from time 0 on for the velocity, for its fourth derivatives, its second time derivative and the third derivatives of the pressure. -/
structure SmoothFlow (g : Grid d ℝ) (V : ℝ → Fin d → (Fin d → ℝ) → ℝ) (p : ℝ → (Fin d → ℝ) → ℝ) (U G₁ G₂ G₃ G₄ H T P : ℝ) : Prop where
  periodic : ∀ t, 0 ≤ t → ∀ a, PeriodicOn g (V t a)
  pressure_periodic : ∀ t, 0 ≤ t → PeriodicOn g (p t)
  bounds : ∀ t, 0 ≤ t → VelocityBounds (V t) U G₁ G₂ G₃ H
  fourth : ∀ t, 0 ≤ t → ∀ a b, SmoothAlong 4 a G₄ (V t b)
  time : ∀ a, SmoothInTime (fun t => V t a) T
  pressure : ∀ t, 0 ≤ t → ∀ a, SmoothAlong 3 a P (p t)

/-- The forcing samples the force density `F`, whatever the velocity. -/
def SteadyForcing (g : Grid d ℝ) (forcing : Option (ForcingFn d)) (F : Fin d → (Fin d → ℝ) → ℝ) : Prop :=
  match forcing with
  | none => ∀ a x, F a x = 0
  | some f => ∀ u, PeriodicField g u → ∃ Φ, f u = .ok Φ ∧ ∀ a, (Φ a).grid = g ∧ (Φ a).shape = g.shape ∧ (Φ a).offset = (u a).array.offset ∧ (Φ a).Samples (F a)

/-- The discretisation error of the spatial terms, as a multiple of the square of the largest mesh size. -/
noncomputable def spatialConstant (d : ℕ) (nu U G₁ G₂ G₃ G₄ H P : ℝ) : ℝ := d * (5 / 24 * (U * G₃) + 3 / 8 * (G₁ * G₂) + (G₁ * G₂ + U * H) / 8) + nu * (d * G₄ / 12) + P / 24

/-- The error bound of C76 after time `t`, for an initial error `ε`: `diag` is the diagonal of the domain, `nu` the kinematic viscosity, `P` bounds the third derivatives of the pressure over the
density, `η` is the largest mesh size. The error terms are `O(ε + dt + η²)` for a given solution and a given time. -/
noncomputable def fluidErrorBound (d : ℕ) (diag nu U G₁ G₂ G₃ G₄ H T P η dt t ε : ℝ) : ℝ :=
  Real.exp (d * G₁ * t) * (ε + t * ((2 * Real.sqrt d * U + d * G₁ * diag) * (d * G₃ * η ^ 2 / 24) + Real.sqrt d * (T * dt / 2 + spatialConstant d nu U G₁ G₂ G₃ G₄ H P * η ^ 2))) +
    diag * (d * G₃ * η ^ 2 / 24)

/-- The second derivatives of the velocity are Lipschitz in time. -/
def SteadyCurvature (V : ℝ → Fin d → (Fin d → ℝ) → ℝ) (S : ℝ) : Prop :=
  ∀ t t', 0 ≤ t → 0 ≤ t' → ∀ a b x, |partialDeriv 2 b (V t' a) x - partialDeriv 2 b (V t a) x| ≤ S * |t' - t|

/-- The root mean square error of the difference quotients of the velocity, along all axes. -/
noncomputable def rmsGradientError (g : Grid d ℝ) (w : Fin d → GridVariable d ℝ) (V : Fin d → (Fin d → ℝ) → ℝ) : ℝ :=
  Real.sqrt ((∑ a, ∑ b, ∑ i ∈ box g.shape, ((((w a).array.data (rollIdx g.shape b 1 i) - V a (g.position (w a).array.offset (rollIdx g.shape b 1 i))) -
    ((w a).array.data i - V a (g.position (w a).array.offset i))) / g.step b) ^ 2) / (∏ a, g.shape a : ℕ))

/-- The error in the norm in which a step of length `dt` with implicit diffusion and kinematic viscosity `nu` is stable. -/
noncomputable def rmsEnergyError (g : Grid d ℝ) (nu dt : ℝ) (w : Fin d → GridVariable d ℝ) (V : Fin d → (Fin d → ℝ) → ℝ) : ℝ :=
  Real.sqrt (rmsError g w V ^ 2 + 2 * (dt * nu) * rmsGradientError g w V ^ 2)

/-- The error bound of C76 for implicit diffusion: as for explicit diffusion, with the diffusion term taken at the end of the step. -/
noncomputable def implicitErrorBound (d : ℕ) (diag nu U G₁ G₂ G₃ G₄ H T S P η dt t ε : ℝ) : ℝ :=
  fluidErrorBound d diag nu U G₁ G₂ G₃ (3 * G₄) H (T + 2 * (nu * (d * S))) P η dt t ε

end JaxCfd
