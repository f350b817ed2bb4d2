import Verif.Model.FiniteDifferences
import Verif.Model.Advection
import Mathlib.Order.WithBot
import Mathlib.Analysis.Real.Sqrt

/-!
# Explicit diffusion and the choice of the time step

`jax_cfd/base/diffusion.py` (explicit part) and the time step functions of `jax_cfd/base/equations.py`.
-/

namespace JaxCfd
variable {d : ℕ} {K : Type}

section
variable [Field K] [HasNan K] [DecidableEq K]

/-- `diffusion.diffuse` (diffusion.py:35-37). -/
def diffuse (c : GridVariable d K) (nu : K) : Except Err (GridArray d K) := do
  let l ← laplacian c
  return gmap (fun x => nu * x) l

end

section
variable [Field K] [LinearOrder K]

/-- `diffusion.stable_time_step` (diffusion.py:40-57); `⊤` is `float('inf')`. -/
def diffusionStableTimeStep (viscosity : K) (g : Grid d K) : Except Err (WithTop K) :=
  if viscosity = 0 then .ok ⊤
  else do
    let dx ← pyMin (List.ofFn g.step)
    return ((dx ^ 2 / (viscosity * 2 ^ d) : K) : WithTop K)

/-- The comparison of the two time steps in `equations.stable_time_step` (equations.py:53-59). -/
def checkDiffusionStep (dt : WithTop K) (viscosity : K) (g : Grid d K) (implicitDiffusion : Bool) :
    Except Err (WithTop K) :=
  if implicitDiffusion = true then .ok dt
  else do
    let ddt ← diffusionStableTimeStep viscosity g
    if ddt < dt then throw .value else return dt

/-- `equations.stable_time_step` (equations.py:44-59), called with Python floats (a zero velocity raises
ZeroDivisionError). -/
def stableTimeStep (maxVelocity maxCourant viscosity : K) (g : Grid d K) (implicitDiffusion : Bool := false) :
    Except Err (WithTop K) := do
  let dt ← advectionStableTimeStep maxVelocity maxCourant g
  checkDiffusionStep (dt : WithTop K) viscosity g implicitDiffusion

end

/-- `jnp.max` of an array over all entries; an empty array raises ValueError. -/
def jnpMax [LinearOrder K] (x : NArr d K) : Except Err K :=
  if h : (box x.shape).Nonempty then .ok ((box x.shape).sup' h x.data) else .error .value

/-- `equations.dynamic_time_step` (equations.py:62-70) over the reals.  The velocity is an array scalar here, so a zero
velocity gives an infinite advective step (for a positive Courant number) instead of an exception.  The components are required
to have one shape (broadcasting is not modelled). -/
noncomputable def dynamicTimeStep (v : Fin d → GridVariable d ℝ) (maxCourant viscosity : ℝ) (g : Grid d ℝ)
    (implicitDiffusion : Bool := false) : Except Err (WithTop ℝ) := do
  let s ← uniqueOr .type (fun u : GridVariable d ℝ => u.array.shape) (List.ofFn v)
  let m ← jnpMax (⟨s, fun i => ∑ a, (v a).array.data i ^ 2⟩ : NArr d ℝ)
  let vmax := Real.sqrt m
  let dx ← pyMin (List.ofFn g.step)
  checkDiffusionStep (if vmax = 0 then ⊤ else ((maxCourant * dx / vmax : ℝ) : WithTop ℝ)) viscosity g implicitDiffusion

end JaxCfd
