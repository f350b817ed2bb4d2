import Verif.Model.Equations
import Verif.Model.Tiling
import Mathlib.Analysis.SpecialFunctions.Pow.Real

/-!
# Eddy viscosity models

`jax_cfd/base/subgrid_models.py` and the viscosity models of `jax_cfd/ml/viscosities.py`, over the reals.  A `GridArrayTensor` of rank
two (grids.py:114-137) is a function of two axes.
-/

namespace JaxCfd
variable {d : ℕ}

/-- A `GridArrayTensor` with one entry per pair of axes (grids.py:114-130). -/
abbrev Tensor (d : ℕ) := Fin d → Fin d → GridArray d ℝ

/-- `ViscosityFn` (subgrid_models.py:34-35). -/
abbrev ViscosityFn (d : ℕ) := Tensor d → (Fin d → GridVariable d ℝ) → Except Err (Tensor d)

section
variable [HasNan ℝ]

/-- `s_ij` in `evm_model` (subgrid_models.py:124-128). -/
noncomputable def strainRate (v : Fin d → GridVariable d ℝ) : Except Err (Tensor d) :=
  seqFin fun i => seqFin fun j => do
    let a ← forwardDifference (v i) j
    let b ← forwardDifference (v j) i
    let s ← gmap2 (fun x y => x + y) a b
    return gmap (fun x => 1 / 2 * x) s

/-- `tau` in `evm_model` (subgrid_models.py:130) for one entry: `jax.tree.map` requires equal tree structures (offset and grid belong to
the structure), different shapes are a TypeError (broadcasting is not modelled). -/
noncomputable def eddyStress (nu s : GridArray d ℝ) : Except Err (GridArray d ℝ) :=
  open Classical in
  if s.offset ≠ nu.offset ∨ s.grid ≠ nu.grid then .error .value
  else if s.shape ≠ nu.shape then .error .type
  else .ok ⟨⟨nu.shape, fun i => -2 * nu.data i * s.data i⟩, nu.offset, nu.grid⟩

/-- `evm_model` (subgrid_models.py:101-134). -/
noncomputable def evmModel (viscosityFn : ViscosityFn d) (v : Fin d → GridVariable d ℝ) : Except Err (Fin d → GridArray d ℝ) :=
  if hasAllPeriodic (List.ofFn v) = false then .error .value
  else do
    let _ ← consistentGrid (List.ofFn fun a => (v a).array)
    let s ← strainRate v
    let nu ← viscosityFn s v
    let tau ← seqFin fun i => seqFin fun j => eddyStress (nu i j) (s i j)
    seqFin fun i => do
      let r ← divergence (List.ofFn fun j => (⟨tau i j, periodicBC d⟩ : GridVariable d ℝ))
      return gmap (fun x => -x) r

/-- `np.trace(centered_s_ij.dot(centered_s_ij))` (subgrid_models.py:93).  NumPy adds the products from left to right; here the sums
start with 0. -/
noncomputable def traceSquare (c : Tensor d) : Except Err (GridArray d ℝ) := do
  let rows ← seqFin fun i => do
    let ps ← seqFin fun k => gmap2 (fun x y => x * y) (c i k) (c k i)
    sumArrays (List.ofFn ps)
  sumArrays (List.ofFn rows)

/-- `wrapped_interp_fn` (subgrid_models.py:80-81), with the periodic boundary conditions of line 84. -/
def wrappedInterp (interp : InterpFn d ℝ) (dt : ℝ) (v : Fin d → GridVariable d ℝ) (c : GridArray d ℝ) (offset : Fin d → ℚ) :
    Except Err (GridArray d ℝ) := do
  let r ← interp ⟨c, periodicBC d⟩ offset v dt
  return r.array

/-- The dictionary of viscosities by offset and the tensor built from it (subgrid_models.py:85-86, 94-98, viscosities.py:87-88, 95-100):
the leaves replace those of `s_ij`, whose offsets and grids are kept. -/
noncomputable def viscosityByOffset (f : (Fin d → ℚ) → Except Err (NArr d ℝ)) (s : Tensor d) : Except Err (Tensor d) :=
  seqFin fun i => seqFin fun j => do
    let x ← f (s i j).offset
    return ⟨x, (s i j).offset, (s i j).grid⟩

/-- `cutoff` (subgrid_models.py:91). -/
noncomputable def smagorinskyCutoff (g : Grid d ℝ) : ℝ := (∏ a, g.step a) ^ (1 / (d : ℝ))

/-- `smagorinsky_viscosity` (subgrid_models.py:40-98). -/
noncomputable def smagorinskyViscosity (cs : ℝ) (dt : ℝ) (interp : InterpFn d ℝ := linearFn) : ViscosityFn d := fun s v =>
  if hasAllPeriodic (List.ofFn v) = false then .error .value
  else do
    let _ ← uniqueBoundaryConditions (List.ofFn v)
    let g ← consistentGrid ((List.ofFn fun i => List.ofFn fun j => s i j).flatten ++ List.ofFn fun a => (v a).array)
    let c ← seqFin fun i => seqFin fun j => wrappedInterp interp dt v (s i j) g.cellCenter
    let t ← traceSquare c
    let nu := gmap (fun x => (cs * smagorinskyCutoff g) ^ 2 * Real.sqrt (2 * x)) t
    viscosityByOffset (fun o => do
      let r ← wrappedInterp interp dt v nu o
      return r.toNArr) s

/-- The linear operator of `implicit_evm_solve_with_diffusion` (subgrid_models.py:173-177). -/
noncomputable def evmLinearOp (evm : (Fin d → GridVariable d ℝ) → Except Err (Fin d → GridArray d ℝ)) (bc : BC d ℝ) (viscosity dt : ℝ)
    (velocity : Fin d → GridArray d ℝ) : Except Err (Fin d → GridArray d ℝ) := do
  let acceleration ← evm fun a => ⟨velocity a, bc⟩
  seqFin fun a => do
    let l ← laplacian ⟨velocity a, bc⟩
    let s ← gmap2 (fun x y => x + y) (acceleration a) (gmap (fun x => viscosity * x) l)
    gmap2 (fun x y => x - y) (velocity a) (gmap (fun x => dt * x) s)

/-- `jax.scipy.sparse.linalg.cg` on tuples of arrays, as called in subgrid_models.py:182-183: operator and right hand side. -/
abbrev TupleCG (d : ℕ) :=
  ((Fin d → GridArray d ℝ) → Except Err (Fin d → GridArray d ℝ)) → (Fin d → GridArray d ℝ) → Except Err (Fin d → GridArray d ℝ)

/-- `implicit_evm_solve_with_diffusion` (subgrid_models.py:138-185).  The conjugate gradient solver is a parameter. -/
noncomputable def implicitEvmSolve (cg : TupleCG d) (evm : (Fin d → GridVariable d ℝ) → Except Err (Fin d → GridArray d ℝ))
    (v : Fin d → GridVariable d ℝ) (viscosity dt : ℝ) : Except Err (Fin d → GridVariable d ℝ) :=
  if hasAllPeriodic (List.ofFn v) = false then .error .value
  else do
    let bc ← uniqueBoundaryConditions (List.ofFn v)
    let w ← cg (evmLinearOp evm bc viscosity dt) fun a => (v a).array
    return fun a => ⟨w a, (v a).bc⟩

/-- `forcing` in `explicit_smagorinsky_navier_stokes` (subgrid_models.py:205-212). -/
noncomputable def smagorinskyForcing (cs dt : ℝ) (forcing : Option (ForcingFn d)) : ForcingFn d :=
  match forcing with
  | none => evmModel (smagorinskyViscosity cs dt)
  | some f => sumForcings [f, evmModel (smagorinskyViscosity cs dt)]

/-- `explicit_smagorinsky_navier_stokes` (subgrid_models.py:188-213). -/
noncomputable def explicitSmagorinsky (dt cs : ℝ) (forcing : Option (ForcingFn d)) (density : ℝ) (viscosity : Option ℝ)
    (solve : PressureSolver d ℝ) (convect : Option (ConvectFn d) := none) (diffuse : DiffuseFn d := JaxCfd.diffuse)
    (stepper : Stepper d := forwardEuler) (v : Fin d → GridVariable d ℝ) : Except Err (Fin d → GridVariable d ℝ) :=
  semiImplicitNavierStokes density viscosity dt solve convect diffuse (some (smagorinskyForcing cs dt forcing)) stepper v

/-- `implicit_smagorinsky_navier_stokes` (subgrid_models.py:216-241). -/
noncomputable def implicitSmagorinsky (cg : TupleCG d) (dt cs density viscosity : ℝ) (solve : PressureSolver d ℝ)
    (convect : Option (ConvectFn d) := none) (forcing : Option (ForcingFn d) := none) (v : Fin d → GridVariable d ℝ) :
    Except Err (Fin d → GridVariable d ℝ) :=
  implicitDiffusionNavierStokes density viscosity dt solve (implicitEvmSolve cg (evmModel (smagorinskyViscosity cs dt))) convect
    forcing v

/-- `learned_tensor_viscosity` (viscosities.py:167-210).  `net` is the tower applied to the stacked velocity, one channel per entry of
`offsets`, the list of distinct offsets of the strain tensor in the order of the set. -/
noncomputable def learnedTensorViscosity (scale : ℝ) (offsets : List (Fin d → ℚ)) (net : (Fin d → GridVariable d ℝ) → Except Err (Chan d ℝ)) :
    ViscosityFn d := fun s v => do
  let out ← net v
  if out.chan ≠ offsets.length then .error .value
  else viscosityByOffset (fun o =>
    if o ∈ offsets then .ok ⟨out.shape, fun i => (scale + 1 / 10 ^ 6) * out.data i (offsets.idxOf o)⟩ else .error .key) s

/-- `learned_scalar_viscosity` (viscosities.py:46-102).  `net` is the tower applied to the stacked velocity. -/
noncomputable def learnedScalarViscosity (scale : ℝ) (g : Grid d ℝ) (dt : ℝ) (net : (Fin d → GridVariable d ℝ) → Except Err (NArr d ℝ))
    (interp : InterpFn d ℝ := linearFn) : ViscosityFn d := fun s v => do
  let out ← net v
  viscosityByOffset (fun o => do
    let r ← wrappedInterp interp dt v (⟨out.map fun x => (scale + 1 / 10 ^ 6) * x, g.cellCenter, g⟩ : GridArray d ℝ) o
    return r.toNArr) s

end
end JaxCfd
