import Verif.Model.Equations

/-!
# Collocated velocity fields (`jax_cfd/collocated/*.py`)

All components are stored at the same points.  `jax.scipy.sparse.linalg.cg` and the random noise are parameters.
-/

namespace JaxCfd.Collocated
variable {d : ℕ}

section
variable {K : Type} [Field K] [HasNan K] [DecidableEq K]

/-- One flux of `advect_linear` (collocated/advection.py:34-39): the boundary condition comes from `get_advection_flux_bc_from_velocity_and_scalar(u, c, direction)`. -/
def flux (c u : GridVariable d K) (dir : Fin d) : Except Err (GridVariable d K) := do
  let bc ← advectionFluxBC u c dir
  let p ← gmap2 (fun x y => x * y) c.array u.array
  bc.imposeBC p

/-- `advect_linear` (collocated/advection.py:29-40).  (The code makes all boundary conditions before the first product; only the
kind of error depends on that order.) -/
def advectLinear (c : GridVariable d K) (v : Fin d → GridVariable d K) : Except Err (GridArray d K) := do
  let fl ← seqFin fun a => flux c (v a) a
  let r ← centeredDivergence (List.ofFn fl)
  return gmap (fun x => -x) r

/-- `_velocities_to_flux` (collocated/advection.py:43-67): entries below the diagonal are copied from above it.  (The code interleaves
the two; here an entry below the diagonal is recomputed from the same arguments.) -/
def velocitiesToFlux (v : Fin d → GridVariable d K) : Except Err (Fin d → Fin d → GridVariable d K) :=
  seqFin fun i => seqFin fun j => if i ≤ j then flux (v i) (v j) j else flux (v j) (v i) i

/-- `convect_linear` (collocated/advection.py:70-81). -/
def convectLinear (v : Fin d → GridVariable d K) : Except Err (Fin d → GridArray d K) := do
  let fl ← velocitiesToFlux v
  seqFin fun i => do
    let r ← centeredDivergence (List.ofFn (fl i))
    return gmap (fun x => -x) r

/-- `central_difference(u, axis=None)`, every component wrapped with the boundary condition of `u`
(collocated/diffusion.py:32-33, collocated/pressure.py:71-73). -/
def centralGradient (u : GridVariable d K) : Except Err (Fin d → GridVariable d K) := do
  let g ← centralDifferences u
  return fun a => ⟨g a, u.bc⟩

/-- `diffuse` (collocated/diffusion.py:28-34). -/
def diffuse (c : GridVariable d K) (nu : K) : Except Err (GridArray d K) :=
  if hasAllPeriodic [c] = false then .error .value
  else do
    let g ← centralGradient c
    let r ← centeredDivergence (List.ofFn g)
    return gmap (fun x => nu * x) r

/-- `laplacian_with_bcs` (collocated/pressure.py:67-74), given `q0.bc`. -/
def laplacianWithBC (q0 : GridVariable d K) (x : GridArray d K) : Except Err (GridArray d K) :=
  if hasAllPeriodic [q0] = false then .error .value
  else do
    let g ← centralGradient ⟨x, q0.bc⟩
    centeredDivergence (List.ofFn g)

/-- `jax.scipy.sparse.linalg.cg(A, b, x0=x0, ...)`. -/
abbrev CGFn (d : ℕ) (K : Type) :=
  (GridArray d K → Except Err (GridArray d K)) → GridArray d K → GridArray d K → Except Err (GridArray d K)

/-- `solve_cg` (collocated/pressure.py:40-83).  `cg` itself rejects an `x0` whose tree structure or shape differs from that of `b`. -/
def solveCG (cg : CGFn d K) (v : Fin d → GridVariable d K) (q0 : GridVariable d K) : Except Err (GridArray d K) := do
  let rhs ← centeredDivergence (List.ofFn v)
  if q0.array.offset ≠ rhs.offset ∨ q0.array.grid ≠ rhs.grid ∨ q0.array.shape ≠ rhs.shape then .error .value
  else cg (laplacianWithBC q0) rhs q0.array

/-- `projection` (collocated/pressure.py:86-103). -/
def projection (v : Fin d → GridVariable d K)
    (solve : (Fin d → GridVariable d K) → GridVariable d K → Except Err (GridArray d K)) :
    Except Err (Fin d → GridVariable d K) := do
  let g ← consistentGrid (List.ofFn fun a => (v a).array)
  let bc ← pressureBCFromVelocity (List.ofFn v)
  let q ← solve v ⟨⟨⟨g.shape, fun _ => 0⟩, fun _ => 1 / 2, g⟩, bc⟩
  let grad ← centralDifferences ⟨q, bc⟩
  seqFin fun a => do
    let w ← gmap2 (fun x y => x - y) (v a).array (grad a)
    return (⟨w, (v a).bc⟩ : GridVariable d K)

end

section
variable [HasNan ℝ]

/-- A pressure solver of the collocated code: `solve(v, q0)` (collocated/pressure.py:97). -/
abbrev Solver (d : ℕ) := (Fin d → GridVariable d ℝ) → GridVariable d ℝ → Except Err (GridArray d ℝ)

/-- The diffusion term of `accelerations` (collocated/equations.py:70-72). -/
noncomputable def diffusionTerm (diffuse : DiffuseFn d) (viscosity : Option ℝ) (density : ℝ) (v : Fin d → GridVariable d ℝ) :
    Except Err (List (Fin d → GridArray d ℝ)) :=
  match viscosity with
  | none => .ok []
  | some nu => do
      let k ← pyDiv nu density
      let df ← seqFin fun a => diffuse (v a) k
      return [df]

/-- The forcing term of `accelerations` (collocated/equations.py:73-76). -/
noncomputable def forcingTerm (forcing : Option (ForcingFn d)) (density : ℝ) (v : Fin d → GridVariable d ℝ) :
    Except Err (List (Fin d → GridArray d ℝ)) :=
  match forcing with
  | none => .ok []
  | some f => do
      let fv ← f v
      return [fun a => gmap (fun x => x / density) (fv a)]

/-- `accelerations` and their sum (collocated/equations.py:68-77). -/
noncomputable def accelerations (density : ℝ) (viscosity : Option ℝ) (convect : ConvectFn d) (diffuse : DiffuseFn d)
    (forcing : Option (ForcingFn d)) (v : Fin d → GridVariable d ℝ) : Except Err (Fin d → GridArray d ℝ) := do
  let c ← convect v
  let df ← diffusionTerm diffuse viscosity density v
  let fo ← forcingTerm forcing density v
  sumFields (c :: (df ++ fo))

/-- `semi_implicit_navier_stokes` (collocated/equations.py:41-85); the default `convect` is van Leer advection. -/
noncomputable def semiImplicitNavierStokes (density : ℝ) (viscosity : Option ℝ) (dt : ℝ) (solve : Solver d)
    (convect : Option (ConvectFn d) := none) (diffuse : DiffuseFn d := Collocated.diffuse) (forcing : Option (ForcingFn d) := none)
    (v : Fin d → GridVariable d ℝ) : Except Err (Fin d → GridVariable d ℝ) := do
  let dvdt ← accelerations density viscosity (convectOr convect dt) diffuse forcing v
  let v1 ← seqFin fun a => do
    let w ← gmap2 (fun x y => x + y) (v a).array (gmap (fun x => x * dt) (dvdt a))
    return (⟨w, (v a).bc⟩ : GridVariable d ℝ)
  projection v1 solve

/-- `project_and_normalize` of `filtered_velocity_field` (collocated/initial_conditions.py:93-98). -/
noncomputable def projectAndNormalize (solve : Solver d) (maximum : ℝ) (v : Fin d → GridVariable d ℝ) :
    Except Err (Fin d → GridVariable d ℝ) := do
  let w ← projection v solve
  let vmax ← maxSpeed w
  return fun a => ⟨gmap (fun x => maximum * x / vmax) (w a).array, (w a).bc⟩

/-- `filtered_velocity_field` (collocated/initial_conditions.py:50-102).  The random noise is an argument. -/
noncomputable def filteredVelocityField (solve : Solver d) (noise : Fin d → NArr d ℝ) (g : Grid d ℝ) (maximum : ℝ := 1)
    (peak : ℝ := 3) (iterations : ℕ := 3) : Except Err (Fin d → GridVariable d ℝ) := do
  let comps ← seqFin fun a => spectralFilter (logNormalDensity d peak) (noise a) g
  repeated 0 (projectAndNormalize solve maximum) iterations fun a => ⟨⟨comps a, fun _ => 1 / 2, g⟩, periodicBC d⟩

end
end JaxCfd.Collocated
