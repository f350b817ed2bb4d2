import Verif.Model.Advection

/-!
# Interpolation modules without parameters (`jax_cfd/ml/interpolations.py`) and scaling of grid variables (`jax_cfd/ml/towers.py`)
-/

namespace JaxCfd.ML
variable {d : ℕ} {K : Type} [Field K] [LinearOrder K] [HasNan K]

/-- `linear` (ml/interpolations.py:197-200): all arguments of the module are ignored. -/
def linearModule : InterpFn d K := linearFn

/-- `upwind` (ml/interpolations.py:203-206). -/
def upwindModule : InterpFn d K := upwindFn

/-- `lax_wendroff` (ml/interpolations.py:209-212). -/
def laxWendroffModule : InterpFn d K := laxWendroff

/-- `tvd_limiter_transformation` (ml/interpolations.py:216-222). -/
def tvdTransformation (fn : InterpFn d K) (limiter : K → K := vanLeer) : InterpFn d K := tvdInterpolation fn limiter

/-- `transformed` (ml/interpolations.py:225-254), with its default base interpolation and transformation. -/
def transformed (base : InterpFn d K := laxWendroffModule) (transformation : InterpFn d K → InterpFn d K := fun f => tvdTransformation f) :
    InterpFn d K := transformation base

omit [LinearOrder K] in
/-- `fixed_scale_gridvar` (ml/towers.py:77-85). -/
def fixedScaleGridvar (one : K) (inputs : List (GridVariable d K)) : Except Err (List (GridVariable d K)) :=
  inputs.mapM fun x => x.bc.imposeBC (gmap (fun y => y * one) x.array)

end JaxCfd.ML
