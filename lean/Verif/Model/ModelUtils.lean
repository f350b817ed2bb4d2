import Verif.Model.ArrayUtils
import Verif.Model.TimeStepping

/-!
# `jax_cfd/ml/model_builder.py`, `jax_cfd/ml/model_utils.py`, `jax_cfd/ml/time_integrators.py`

Model states are values of an arbitrary type.  Physics-space data are tuples of arrays of one rank (`split_along_axis` insists on it)
with time as axis 0.  `hk.scan` computes what `jax.lax.scan` computes; like every traced function the scanned function returns
arrays whose number and shapes do not depend on the values.  `hk.remat` does not change values.
-/

namespace JaxCfd.ML
variable {d : ℕ} {K S Y : Type}

/-- `repeated` (model_builder.py:105-111). -/
def repeated (f : S → Except Err S) (steps : ℕ) (x : S) : Except Err S := do
  let r ← laxScan (fun c (_ : Unit) => do
    let c' ← f c
    return (c', ())) x (List.replicate steps ())
  return r.1

/-- `step_fn` after line 147 of `trajectory_from_step` (model_builder.py:146-147). -/
def innerStep (step : S → Except Err S) (inner : ℕ) : S → Except Err S :=
  if inner ≠ 1 then repeated step inner else step

/-- `step` in `trajectory_from_step` (model_builder.py:149-152). -/
def outerStep (step : S → Except Err S) (start : Bool) (post : S → Except Err Y) (c : S) (_ : Unit) : Except Err (S × Y) := do
  let c' ← step c
  let y ← post (if start then c else c')
  return (c', y)

/-- The frames of a scan as one array per leaf, with a new axis 0 (model_builder.py:155): `proto` is the frame obtained by tracing. -/
def stackFrames (proto : List (NArr d K)) (frames : List (List (NArr d K))) : Except Err (List (NArr (d + 1) K)) :=
  if ∀ f ∈ frames, f.map NArr.shape = proto.map NArr.shape then
    .ok (List.ofFn fun k : Fin proto.length =>
      ⟨Fin.cons frames.length (proto[k]).shape, fun i => ((((frames[(i 0).toNat]?).getD proto)[(k : ℕ)]?).getD proto[k]).data fun b => i b.succ⟩)
  else .error .type

/-- `trajectory_from_step` (model_builder.py:115-157).  The traced call determines the shapes even if `outer_steps` is 0. -/
def trajectoryFromStep (step : S → Except Err S) (outer inner : ℕ) (start : Bool) (post : S → Except Err (List (NArr d K))) (x : S) :
    Except Err (S × List (NArr (d + 1) K)) := do
  let proto ← outerStep (innerStep step inner) start post x ()
  let r ← laxScan (outerStep (innerStep step inner) start post) x (List.replicate outer ())
  let tr ← stackFrames proto.2 r.2
  return (r.1, tr)

/-- `DynamicalSystem` / `ModularStepModel` (model_builder.py:24-96): what a model provides. -/
structure System (d : ℕ) (K S : Type) where
  encode : List (NArr (d + 1) K) → Except Err S
  decode : S → Except Err (List (NArr d K))
  advance : S → Except Err S

/-- `with_split_input` (model_utils.py:25-45): the first part of `split_along_axis(x, split_index, axis=0)`; the second is discarded. -/
def splitInput (n : ℤ) (x : List (NArr (d + 1) K)) : Except Err (List (NArr (d + 1) K)) :=
  if x = [] then .error .value else .ok (x.map fun a => sliceAx a 0 ⟨some 0, some n, 1⟩)

/-- `with_input_included` (model_utils.py:48-55): leaf by leaf `jnp.concatenate([x, unroll], axis=0)`. -/
def includeInput (x unroll : List (NArr (d + 1) K)) : Except Err (List (NArr (d + 1) K)) :=
  if x.length = unroll.length then (x.zip unroll).mapM fun p => concatN 0 p.1 [p.2] else .error .value

/-- `decoded_trajectory_with_inputs` (model_utils.py:58-86), with `with_preprocessing` (model_utils.py:7-13) inlined. -/
def decodedTrajectory (M : System d K S) (n : ℤ) (x : List (NArr (d + 1) K)) (outer inner : ℕ) :
    Except Err (S × List (NArr (d + 1) K)) := do
  let init ← splitInput n x
  let s ← M.encode init
  let r ← trajectoryFromStep M.advance outer inner false M.decode s
  let out ← includeInput init r.2
  return (r.1, out)

section Euler
variable {V : Type} [Field K] [AddCommGroup V] [Module K V]

/-- `euler_integrator` (time_integrators.py:12-35): final state and trajectory. -/
def eulerIntegrator (deriv : V → Except Err V) (x : V) (dt : K) (steps : ℕ) : Except Err (V × List V) :=
  laxScan (fun c (_ : Unit) => do
    let k ← deriv c
    return (c + dt • k, c + dt • k)) x (List.replicate steps ())

/-- `step_fn` of `time_derivative_network_model` (ml/equations.py:175-195) with the default integrator: the modules are applied one
after the other and the forcing, evaluated at the state, is added. -/
def timeDerivativeStep (modules : List (V → Except Err V)) (forcing : V → Except Err V) (dt : K) (x : V) : Except Err V := do
  let r ← eulerIntegrator (fun v => do
    let f ← forcing v
    let y ← modules.foldlM (fun a m => m a) v
    return y + f) x dt 1
  return r.1

end Euler

/-- `identity_model` (ml/equations.py:200-205). -/
def identityModel (s : S) : Except Err S := .ok s

end JaxCfd.ML
