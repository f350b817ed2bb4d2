import Verif.Model.SpatialDerivative
import Verif.Model.Advection
import Verif.Model.Equations

/-!
# `jax_cfd/ml/interpolations.py`, `jax_cfd/ml/advections.py` and the modular Navier-Stokes model of `jax_cfd/ml/equations.py`

Networks, `np.linalg.solve` and `np.linalg.svd` are parameters; `hk.to_module` and named calls are ignored.
-/

namespace JaxCfd.ML
variable {d : ℕ}

/-- `(u.offset, target_offset, tag)` (interpolations.py:74). -/
abbrev InterpKey (d : ℕ) := (Fin d → ℚ) × (Fin d → ℚ) × Option String

/-- Inserting a key into an `OrderedDict`: a key that is present keeps its place. -/
def insertKey (ks : List (InterpKey d)) (k : InterpKey d) : List (InterpKey d) := if k ∈ ks then ks else ks ++ [k]

/-- The keys of `derivatives` in their order (interpolations.py:71-74). -/
def learnedKeys (v : List (GridVariable d ℝ)) (tags : List (Option String)) : List (InterpKey d) :=
  (v.flatMap fun u => (List.finRange d).flatMap fun j => tags.map fun t => (u.array.offset, controlVolumeOffsets u.array j, t)).foldl insertKey []

/-- `stencil_size_fn` for an integer `stencil_size` (interpolations.py:66-67). -/
def isotropicStencil (n : ℕ) : InterpKey d → Fin d → ℕ := fun _ _ => n

/-- `_nearest_neighhbor_stencil_size_fn` (interpolations.py:122-129), used by `anisotropic_learned_interpolation` (interpolations.py:132-140). -/
def anisotropicStencil (n : ℕ) : InterpKey d → Fin d → ℕ := fun k a => if k.1 a = k.2.1 a then 1 else n

/-- A network: the number of its output channels and its input (`tower_factory(n, ndim)`). -/
abbrev ChanTower (d : ℕ) := ℤ → Chan d ℝ → Except Err (Chan d ℝ)

/-- `jnp.stack([u.data for u in v], axis=-1)` (interpolations.py:86). -/
def stackChan (v : List (GridVariable d ℝ)) : Except Err (Chan d ℝ) :=
  match v with
  | [] => .error .value
  | u :: us =>
    if ∃ w ∈ us, w.array.shape ≠ u.array.shape then .error .value
    else .ok { shape := u.array.shape, chan := us.length + 1, data := fun i c => (((u :: us)[c.toNat]?).map fun w => w.array.data i).getD 0 }

/-- The parameters of a `FusedLearnedInterpolation`. -/
structure FusedConfig (d : ℕ) where
  tags : List (Option String) := [none]
  stencil : InterpKey d → Fin d → ℕ := isotropicStencil 4
  tower : ChanTower d
  patchMethod : String := "roll"
  fuseConstraints : Bool := false
  fusePatches : Bool := false
  tileLayout : Option (Fin d → ℕ) := none

/-- The state of a `FusedLearnedInterpolation`: the keys and layers of `derivatives`, and the logits of all of them. -/
structure FusedInterp (d : ℕ) where
  keys : List (InterpKey d)
  derivs : List (SpatialDeriv d)
  logits : Chan d ℝ
  fuseConstraints : Bool
  fusePatches : Bool

section
variable (solve : List (List ℝ) → List ℝ → Except Err (List ℝ)) (svd : List (List ℝ) → List (List ℝ))

/-- The layer of one key (interpolations.py:75-82): an interpolation is a derivative of order 0 along every axis. -/
noncomputable def interpLayer (g : Grid d ℝ) (cfg : FusedConfig d) (k : InterpKey d) : Except Err (SpatialDeriv d) :=
  mkSpatialDeriv solve svd (cfg.stencil k) k.1 k.2.1 (fun _ => 0) g.step cfg.patchMethod cfg.tileLayout .finiteVolume

/-- `FusedLearnedInterpolation.__init__` (interpolations.py:44-98), with `constrain_with_conv=False`.  Errors that
`fuse_spatial_derivative_layers` raises while fusing appear when an interpolator is used. -/
noncomputable def mkFused (g : Grid d ℝ) (cfg : FusedConfig d) (v : List (GridVariable d ℝ)) : Except Err (FusedInterp d) := do
  let keys := learnedKeys v cfg.tags
  let derivs ← keys.mapM (interpLayer solve svd g cfg)
  let inputs ← stackChan v
  let logits ← cfg.tower ((derivs.map fun s => s.constraint.nullspaceSize).sum) inputs
  return ⟨keys, derivs, logits, cfg.fuseConstraints, cfg.fusePatches⟩

end

/-- Part `k` of `jnp.split(all_logits, np.cumsum(output_sizes), axis=-1)` (interpolations.py:94).  Sizes are not negative for layers of order 0. -/
def splitLogits (ds : List (SpatialDeriv d)) (logits : Chan d ℝ) (k : ℕ) : Chan d ℝ :=
  logits.slice (((ds.map fun s => s.constraint.nullspaceSize.toNat).take k).sum) (((ds.map fun s => s.constraint.nullspaceSize.toNat).take (k + 1)).sum)

/-- `jnp.expand_dims(c.data, -1)`. -/
def expandLast (c : NArr d ℝ) : Chan d ℝ := { shape := c.shape, chan := 1, data := fun i _ => c.data i }

/-- `jnp.squeeze(x, axis=-1)`. -/
def squeezeLast (x : Chan d ℝ) : Except Err (NArr d ℝ) := if x.chan = 1 then .ok ⟨x.shape, fun i => x.data i 0⟩ else .error .value

/-- Interpolator `k` of a `FusedLearnedInterpolation` (interpolations.py:90-98). -/
noncomputable def FusedInterp.apply (s : FusedInterp d) (k : Fin s.derivs.length) (x : Chan d ℝ) : Except Err (Chan d ℝ) :=
  if s.fuseConstraints then fusedDerivative s.derivs s.logits s.fusePatches k x
  else (s.derivs.get k).call x (splitLogits s.derivs s.logits k)

/-- What `FusedLearnedInterpolation.__call__` returns: a variable whose data has the rank of the grid or, if the offset does not change, a variable
whose data has one axis (of length 1) more. -/
inductive LearnedResult (d : ℕ) where
  | variable (u : GridVariable d ℝ)
  | expanded (x : Chan d ℝ) (offset : Fin d → ℚ) (grid : Grid d ℝ) (bc : BC d ℝ)

/-- `FusedLearnedInterpolation.__call__` (interpolations.py:100-119). -/
noncomputable def FusedInterp.call (s : FusedInterp d) (c : GridVariable d ℝ) (offset : Fin d → ℚ) (tag : Option String) : Except Err (LearnedResult d) :=
  if c.array.offset = offset then .ok (.expanded (expandLast c.array.toNArr) c.array.offset c.array.grid c.bc)
  else
    if h : s.keys.idxOf (c.array.offset, offset, tag) < s.derivs.length then do
      let r ← s.apply ⟨_, h⟩ (expandLast c.array.toNArr)
      let x ← squeezeLast r
      return .variable ⟨⟨x, offset, c.array.grid⟩, c.bc⟩
    else .error .key

/-- A learned interpolation used as `InterpolationFn`.  What finite volume functions do with the array of too high rank is not modelled: here they
refuse it. -/
noncomputable def FusedInterp.fn (s : FusedInterp d) (tag : Option String) : InterpFn d ℝ := fun c offset _ _ => do
  match ← s.call c offset tag with
  | .variable u => return u
  | .expanded _ _ _ _ => .error .type

/-- `IndividualLearnedInterpolation.__call__` (interpolations.py:143-194): one layer with its own network for every pair of offsets. `tower` gives
the network of a pair of offsets. -/
noncomputable def individualFn (solve : List (List ℝ) → List ℝ → Except Err (List ℝ)) (svd : List (List ℝ) → List (List ℝ)) (g : Grid d ℝ)
    (stencilSize : ℕ) (tower : (Fin d → ℚ) × (Fin d → ℚ) → ChanTower d) : InterpFn d ℝ := fun c offset v _ =>
  if c.array.offset = offset then .ok c
  else do
    let s ← mkSpatialDeriv solve svd (fun _ => stencilSize) c.array.offset offset (fun _ => 0) g.step "roll" none .finiteVolume
    let r ← s.callTower (tower (c.array.offset, offset) s.constraint.nullspaceSize) (expandLast c.array.toNArr)
      (List.ofFn fun a => expandLast (v a).array.toNArr)
    let x ← squeezeLast r
    return ⟨⟨x, offset, c.array.grid⟩, c.bc⟩

/-! ### Advection modules -/

/-- `modular_advection` (advections.py:23-44) with its modules already applied. -/
noncomputable def modularAdvection [HasNan ℝ] (cFn uFn : InterpFn d ℝ) (c : GridVariable d ℝ) (v : Fin d → GridVariable d ℝ) (dt : ℝ) : Except Err (GridArray d ℝ) :=
  advectGeneral uFn cFn c v dt

/-- `modular_self_advection` (advections.py:47-70): one interpolation module with two tags. -/
noncomputable def modularSelfAdvection [HasNan ℝ] (fn : Option String → InterpFn d ℝ) (c : GridVariable d ℝ) (v : Fin d → GridVariable d ℝ) (dt : ℝ) :
    Except Err (GridArray d ℝ) :=
  advectGeneral (fn (some "u")) (fn (some "c")) c v dt

/-- `self_advection` (advections.py:73-87): the advection function is applied to every component, with the time step of the solver. -/
def selfAdvection (advect : GridVariable d ℝ → (Fin d → GridVariable d ℝ) → ℝ → Except Err (GridArray d ℝ)) (dt : ℝ) : ConvectFn d := fun v =>
  seqFin fun a => advect (v a) v dt

/-! ### The modular Navier-Stokes model -/

section
variable [HasNan ℝ]

/-- `modular_navier_stokes_model` (ml/equations.py:91-147) with the default `implicit_diffusion_navier_stokes` (ml/equations.py:48-60).  Convection and
accelerations are built from the current state (`v=v`), and then applied to it; `sum_forcings` of ml/forcings.py:19-23 is that of base. -/
noncomputable def modularNavierStokes (density viscosity dt : ℝ) (solve : PressureSolver d ℝ)
    (diffusionSolve : (Fin d → GridVariable d ℝ) → ℝ → ℝ → Except Err (Fin d → GridVariable d ℝ))
    (convection : (Fin d → GridVariable d ℝ) → Except Err (ConvectFn d)) (active : ForcingFn d)
    (modules : List ((Fin d → GridVariable d ℝ) → Except Err (ForcingFn d))) (v : Fin d → GridVariable d ℝ) :
    Except Err (Fin d → GridVariable d ℝ) := do
  let convect ← convection v
  let accelerations ← modules.mapM fun m => m v
  implicitDiffusionNavierStokes density viscosity dt solve diffusionSolve (some convect) (some (sumForcings (active :: accelerations))) v

/-- `modular_navier_stokes_model` with the explicit `semi_implicit_navier_stokes` (ml/equations.py:33-45) as `equation_solver`. -/
noncomputable def modularNavierStokesExplicit (density viscosity dt : ℝ) (solve : PressureSolver d ℝ) (diffuse : DiffuseFn d)
    (convection : (Fin d → GridVariable d ℝ) → Except Err (ConvectFn d)) (active : ForcingFn d)
    (modules : List ((Fin d → GridVariable d ℝ) → Except Err (ForcingFn d))) (stepper : Stepper d) (v : Fin d → GridVariable d ℝ) :
    Except Err (Fin d → GridVariable d ℝ) := do
  let convect ← convection v
  let accelerations ← modules.mapM fun m => m v
  semiImplicitNavierStokes density (some viscosity) dt solve (some convect) diffuse (some (sumForcings (active :: accelerations))) stepper v

/-- `self_advection` with `modular_self_advection` and `FusedLearnedInterpolation` as modules: the network sees the state from which the step starts. -/
noncomputable def learnedSelfAdvection (solve : List (List ℝ) → List ℝ → Except Err (List ℝ)) (svd : List (List ℝ) → List (List ℝ)) (g : Grid d ℝ)
    (cfg : FusedConfig d) (dt : ℝ) (v : Fin d → GridVariable d ℝ) : Except Err (ConvectFn d) := do
  let s ← mkFused solve svd g cfg (List.ofFn v)
  return selfAdvection (modularSelfAdvection s.fn) dt

end

/-! ### Forcing modules -/

/-- `kolmogorov_forcing` and `taylor_green_forcing` of ml/forcings.py:71-97: the constant forcing, plus a linear one if its coefficient is not 0. -/
noncomputable def withLinear (force : ForcingFn d) (linearCoefficient : ℝ) : ForcingFn d :=
  if linearCoefficient ≠ 0 then sumForcings [force, linearForcing linearCoefficient] else force

end JaxCfd.ML
