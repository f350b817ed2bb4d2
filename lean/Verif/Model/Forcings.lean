import Verif.Model.Solvers
import Verif.Model.SpectralUtils
import Verif.Model.TimeStepping
import Verif.Model.Diffusion

/-!
# Forcings, filters, validation problems and initial conditions

`jax_cfd/base/forcings.py`, `jax_cfd/base/filter_utils.py`, `jax_cfd/base/validation_problems.py` (`TaylorGreen`) and
`jax_cfd/base/initial_conditions.py`, over the reals.  A tuple with one entry per axis is a function on `Fin d`.
-/

namespace JaxCfd
variable {d : ℕ}

/-- `ForcingFn` (forcings.py:33). -/
abbrev ForcingFn (d : ℕ) := (Fin d → GridVariable d ℝ) → Except Err (Fin d → GridArray d ℝ)

/-- `sum_fields` (equations.py:41-42) for one entry of the tuples: `jax.tree.map` requires equal tree structures, and the offset and
the grid belong to the structure of a `GridArray` (grids.py:67-75).  The data are added from left to right, starting with 0; different
shapes are rejected (broadcasting is not modelled). -/
noncomputable def sumField (us : List (GridArray d ℝ)) : Except Err (GridArray d ℝ) :=
  open Classical in
  match us with
  | [] => .error .type
  | u :: rest =>
      if ∃ w ∈ rest, w.offset ≠ u.offset ∨ w.grid ≠ u.grid then .error .value
      else if ∃ w ∈ rest, w.shape ≠ u.shape then .error .type
      else .ok ⟨⟨u.shape, fun i => (u :: rest).foldl (fun s w => s + w.data i) 0⟩, u.offset, u.grid⟩

/-- `sum_fields` (equations.py:41-42). -/
noncomputable def sumFields (fs : List (Fin d → GridArray d ℝ)) : Except Err (Fin d → GridArray d ℝ) :=
  seqFin fun a => sumField (fs.map fun f => f a)

/-- `linear_forcing` (forcings.py:107-113). -/
noncomputable def linearForcing (coefficient : ℝ) : ForcingFn d :=
  fun v => .ok fun a => gmap (fun x => coefficient * x) (v a).array

/-- `no_forcing` (forcings.py:116-122). -/
noncomputable def noForcing : ForcingFn d := fun v => .ok fun a => gmap (fun x => 0 * x) (v a).array

/-- `sum_forcings` (forcings.py:125-129). -/
noncomputable def sumForcings (forcings : List (ForcingFn d)) : ForcingFn d := fun v => do
  let fs ← forcings.mapM fun f => f v
  sumFields fs

/-- The component of `kolmogorov_forcing` that is not zero: `scale * sin(k * x)` with the coordinate `x` along axis `along`
(forcings.py:75-76, 88-89). -/
noncomputable def sineArray (g : Grid d ℝ) (scale k : ℝ) (offset : Fin d → ℚ) (along : Fin d) : Except Err (GridArray d ℝ) := do
  let mesh ← g.mesh (some (List.ofFn fun a => (offset a : ℝ)))
  return gmap (fun x => scale * x) ⟨(mesh along).map fun x => Real.sin (k * x), offset, g⟩

/-- `kolmogorov_forcing` (forcings.py:63-104).  The zero components always carry the offsets of the cell faces, whatever `offsets` is.
On a grid with fewer than two axes the second axis is an IndexError. -/
noncomputable def kolmogorovForcing (g : Grid d ℝ) (scale : ℝ := 1) (k : ℝ := 2) (swapXY : Bool := false)
    (offsets : Option (Fin d → Fin d → ℚ) := none) : Except Err (ForcingFn d) :=
  if h : d < 2 then .error .index
  else
    let main : Fin d := ⟨if swapXY then 1 else 0, by split <;> omega⟩
    let along : Fin d := ⟨if swapXY then 0 else 1, by split <;> omega⟩
    do
      let u ← sineArray g scale k (offsets.getD g.cellFaces main) along
      if 3 < d then throw .notImplemented
      else return fun _ => .ok fun a => if a = main then u else ⟨⟨u.shape, fun _ => 0⟩, g.cellFaces a, g⟩

/-- `TaylorGreen.__init__` (validation_problems.py:66-78): the grid of the problem. -/
noncomputable def taylorGreenGrid (shape : Fin 2 → ℕ) : Grid 2 ℝ := ⟨shape, fun _ => (0, 2 * Real.pi)⟩

/-- `TaylorGreen.velocity` (validation_problems.py:80-106).  A size 0 is a ZeroDivisionError of the grid constructor. -/
noncomputable def taylorGreenVelocity (shape : Fin 2 → ℕ) (viscosity kx ky t : ℝ) (offsets : Option (Fin 2 → Fin 2 → ℚ) := none) :
    Except Err (Fin 2 → GridVariable 2 ℝ) :=
  if ∃ a, shape a = 0 then .error .zeroDivision
  else
    let g := taylorGreenGrid shape
    let o := offsets.getD g.cellFaces
    let scale := Real.exp (-2 * viscosity * t)
    do
      let mu ← g.mesh (some (List.ofFn fun a => (o 0 a : ℝ)))
      let mv ← g.mesh (some (List.ofFn fun a => (o 1 a : ℝ)))
      return ![⟨⟨(mu 0).map2 (fun x y => scale * Real.cos (kx * x) * Real.sin (ky * y)) (mu 1), o 0, g⟩, periodicBC 2⟩,
        ⟨⟨(mv 0).map2 (fun x y => -scale * Real.sin (kx * x) * Real.cos (ky * y)) (mv 1), o 1, g⟩, periodicBC 2⟩]

/-- `taylor_green_forcing` (forcings.py:35-60).  On a grid with fewer than two axes the grid constructor of the problem raises
ValueError.  In three dimensions the fields are repeated along the last axis (`jnp.broadcast_to`). -/
noncomputable def taylorGreenForcing : {d : ℕ} → Grid d ℝ → (scale k : ℝ) → Except Err (ForcingFn d)
  | 0, _, _, _ => .error .value
  | 1, _, _, _ => .error .value
  | 2, g, scale, k => do
      let v ← taylorGreenVelocity ![g.shape 0, g.shape 1] 0 k k 0
      return fun _ => .ok fun a => ⟨(v a).array.toNArr.map fun x => x * scale, (v a).array.offset, g⟩
  | 3, g, scale, k => do
      let v ← taylorGreenVelocity ![g.shape 0, g.shape 1] 0 k k 0
      return fun _ => .ok ![⟨⟨g.shape, fun i => (v 0).array.data ![i 0, i 1] * scale⟩, ![1, 1 / 2, 1 / 2], g⟩,
        ⟨⟨g.shape, fun i => (v 1).array.data ![i 0, i 1] * scale⟩, ![1 / 2, 1, 1 / 2], g⟩,
        ⟨⟨g.shape, fun _ => 0⟩, ![1 / 2, 1 / 2, 1], g⟩]
  | _ + 4, g, _, k => do
      let _ ← taylorGreenVelocity ![g.shape 0, g.shape 1] 0 k k 0
      throw .notImplemented

/-- `simple_turbulence_forcing` (forcings.py:136-178) with the table `FORCING_FUNCTIONS` (forcings.py:132-133). -/
noncomputable def simpleTurbulenceForcing (g : Grid d ℝ) (magnitude : ℝ := 0) (wavenumber : ℝ := 2) (linearCoefficient : ℝ := 0)
    (forcingType : String := "kolmogorov") : Except Err (ForcingFn d) := do
  let constant ←
    if forcingType = "kolmogorov" then kolmogorovForcing g magnitude wavenumber
    else if forcingType = "taylor_green" then taylorGreenForcing g magnitude wavenumber
    else .error .value
  return sumForcings [linearForcing linearCoefficient, constant]

/-! ### Spectral filters -/

/-- `_angular_frequency_magnitude` (filter_utils.py:25-29) at mode `k`. -/
noncomputable def angularMagnitude (g : Grid d ℝ) (k : Idx d) : ℝ :=
  Real.sqrt (∑ a, (2 * Real.pi * fftfreq (g.shape a) (g.step a) (k a)) ^ 2)

/-- `filters` (filter_utils.py:38-39) at mode `k`. -/
noncomputable def filterGain (density : ℝ → ℝ) (g : Grid d ℝ) (k : Idx d) : ℝ :=
  if 0 < angularMagnitude g k then density (angularMagnitude g k) else 0

/-- `filter` (filter_utils.py:32-42), for a density applied elementwise.  `jnp.stack` of no axes is a ValueError; other shapes are
a TypeError (broadcasting is not modelled). -/
noncomputable def spectralFilter (density : ℝ → ℝ) (x : NArr d ℝ) (g : Grid d ℝ) : Except Err (NArr d ℝ) :=
  if d = 0 then .error .value
  else if x.shape ≠ g.shape then .error .type
  else .ok ((ifftn ⟨x.shape, fun k => (fftn (x.map fun r : ℝ => (r : ℂ))).data k * (filterGain density g k : ℂ)⟩).map Complex.re)

/-- `filtered_forcing` (forcings.py:181-199): the result of `grids.applied` carries offset and grid of its argument. -/
noncomputable def filteredForcing (density : ℝ → ℝ) (g : Grid d ℝ) : ForcingFn d :=
  fun v => seqFin fun a => do
    let x ← spectralFilter density (v a).array.toNArr g
    return ⟨x, (v a).array.offset, (v a).array.grid⟩

/-- `filtered_linear_forcing` (forcings.py:202-226). -/
noncomputable def filteredLinearForcing (lower upper coefficient : ℝ) (g : Grid d ℝ) : ForcingFn d :=
  filteredForcing (fun k => if 2 * Real.pi * lower ≤ k ∧ k ≤ 2 * Real.pi * upper then coefficient else 0) g

/-! ### Initial conditions -/

section
variable [HasNan ℝ]

/-- `wrap_variables` without a batch dimension (initial_conditions.py:40-57).  `zip` stops at the shortest argument; here all have one
entry per axis. -/
noncomputable def wrapVariables (var : Fin d → NArr d ℝ) (g : Grid d ℝ) (bcs : Fin d → BC d ℝ)
    (offsets : Option (Fin d → Fin d → ℚ) := none) : Except Err (Fin d → GridVariable d ℝ) :=
  seqFin fun a => (bcs a).imposeBC ⟨var a, offsets.getD g.cellFaces a, g⟩

/-- `_max_speed` (initial_conditions.py:67-68); `jnp.array` needs components of one shape. -/
noncomputable def maxSpeed (v : Fin d → GridVariable d ℝ) : Except Err ℝ := do
  let s ← uniqueOr .value (fun u : GridVariable d ℝ => u.array.shape) (List.ofFn v)
  jnpMax (⟨s, fun i => Real.sqrt (∑ a, (v a).array.data i ^ 2)⟩ : NArr d ℝ)

/-- `project_and_normalize` of `filtered_velocity_field` (initial_conditions.py:112-117). -/
noncomputable def projectAndNormalize (solve : PressureSolver d ℝ) (maximum : ℝ) (v : Fin d → GridVariable d ℝ) :
    Except Err (Fin d → GridVariable d ℝ) := do
  let w ← projection v solve
  let vmax ← maxSpeed w
  return fun a => ⟨gmap (fun x => maximum * x / vmax) (w a).array, (w a).bc⟩

/-- The spectral density of `filtered_velocity_field` (initial_conditions.py:60-64, 95-96). -/
noncomputable def logNormalDensity (ndim : ℕ) (peak k : ℝ) : ℝ :=
  Real.exp (-(Real.log peak + 1 / 4 - Real.log k) ^ 2 / 2 / (1 / 4) - Real.log k) / k ^ (ndim - 1)

/-- `filtered_velocity_field` (initial_conditions.py:71-121).  The random noise is an argument; `solve` is the default solver of
`pressure.projection`. -/
noncomputable def filteredVelocityField (solve : PressureSolver d ℝ) (noise : Fin d → NArr d ℝ) (g : Grid d ℝ) (maximum : ℝ := 1)
    (peak : ℝ := 3) (iterations : ℕ := 3) : Except Err (Fin d → GridVariable d ℝ) := do
  let comps ← seqFin fun a => spectralFilter (logNormalDensity d peak) (noise a) g
  let v ← wrapVariables comps g fun _ => periodicBC d
  repeated 0 (projectAndNormalize solve maximum) iterations v

/-- `initial_velocity_field` (initial_conditions.py:124-161). -/
noncomputable def initialVelocityField (fns : Fin d → (Fin d → ℝ) → ℝ) (g : Grid d ℝ) (bc : Option (Fin d → BC d ℝ))
    (solve : PressureSolver d ℝ) (iterations : Option ℕ) : Except Err (Fin d → GridVariable d ℝ) := do
  let v ← seqFin fun a => do
    let u ← g.evalOnMesh (fns a) (g.cellFaces a)
    return (⟨u, bc.getD (fun _ => periodicBC d) a⟩ : GridVariable d ℝ)
  match iterations with
  | none => return v
  | some n => repeated 0 (fun v => projection v solve) n v

end

end JaxCfd
