import Verif.Model.Forcings

/-!
# The Navier-Stokes steps of `jax_cfd/base/equations.py`

The state is a tuple of one `GridVariable` per axis.  The time steppers of `Model/TimeStepping.lean` work on the leaves of the state:
`tree_math.Vector` arithmetic acts on the arrays and requires equal tree structures, and offsets, grids and boundary conditions belong
to the structure (grids.py:67-77, 300-309).
-/

namespace JaxCfd
variable {d : ℕ}

/-- `ConvectFn` (equations.py:36). -/
abbrev ConvectFn (d : ℕ) := (Fin d → GridVariable d ℝ) → Except Err (Fin d → GridArray d ℝ)

/-- `DiffuseFn` (equations.py:37). -/
abbrev DiffuseFn (d : ℕ) := GridVariable d ℝ → ℝ → Except Err (GridArray d ℝ)

/-- The leaves of a state: the values inside the shapes. -/
abbrev Leaves (d : ℕ) := Fin d → Idx d → ℝ

/-- The leaves of a tuple of variables (`tree_math.Vector(v)`); what lies outside the shape is not part of an array, here it is 0. -/
noncomputable def leaves (v : Fin d → GridVariable d ℝ) : Leaves d :=
  fun a i => open Classical in if InR (v a).array.shape i then (v a).array.data i else 0

/-- The tuple with the tree structure and shapes of `v` and the leaves `x`. -/
def withLeaves (v : Fin d → GridVariable d ℝ) (x : Leaves d) : Fin d → GridVariable d ℝ :=
  fun a => ⟨⟨⟨(v a).array.shape, x a⟩, (v a).array.offset, (v a).array.grid⟩, (v a).bc⟩

/-- The leaves of `r` as an operand of `tree_math` arithmetic with `v`: another tree structure is a ValueError of `jax.tree.map`, other
shapes are a TypeError (broadcasting is not modelled). -/
noncomputable def leavesLike (v r : Fin d → GridVariable d ℝ) : Except Err (Leaves d) :=
  open Classical in
  if ∃ a, (r a).array.offset ≠ (v a).array.offset ∨ (r a).array.grid ≠ (v a).array.grid ∨ (r a).bc ≠ (v a).bc then .error .value
  else if ∃ a, (r a).array.shape ≠ (v a).array.shape then .error .type
  else .ok (leaves r)

section
variable [HasNan ℝ]

/-- The default `convect` (equations.py:89-92, 165-169). -/
noncomputable def defaultConvect (dt : ℝ) : ConvectFn d := fun v => seqFin fun a => advectVanLeerUsingLimiters (v a) v dt

/-- `convect` as passed by the caller or the default (equations.py:89-92, 165-169). -/
noncomputable def convectOr (convect : Option (ConvectFn d)) (dt : ℝ) : ConvectFn d := convect.getD (defaultConvect dt)

/-- `viscosity / density` (equations.py:107): a Python float division. -/
noncomputable def pyDiv (x y : ℝ) : Except Err ℝ := if y = 0 then .error .zeroDivision else .ok (x / y)

/-- `dv_dt += diffusion_(v, viscosity / density)` (equations.py:106-107); `viscosity` may be `None`.  Sums of `tree_math` vectors add
the leaves, as `sumFields` does. -/
noncomputable def addDiffusion (diffuse : DiffuseFn d) (viscosity : Option ℝ) (density : ℝ) (v : Fin d → GridVariable d ℝ)
    (dvdt : Fin d → GridArray d ℝ) : Except Err (Fin d → GridArray d ℝ) :=
  match viscosity with
  | none => .ok dvdt
  | some nu => do
      let k ← pyDiv nu density
      let df ← seqFin fun a => diffuse (v a) k
      sumFields [dvdt, df]

/-- `dv_dt += forcing(v) / density` (equations.py:108-109).  The division is one of arrays; a density 0 is not modelled here (the code
would produce infinities). -/
noncomputable def addForcing (forcing : Option (ForcingFn d)) (density : ℝ) (v : Fin d → GridVariable d ℝ)
    (dvdt : Fin d → GridArray d ℝ) : Except Err (Fin d → GridArray d ℝ) :=
  match forcing with
  | none => .ok dvdt
  | some f => do
      let fv ← f v
      sumFields [dvdt, fun a => gmap (fun x => x / density) (fv a)]

/-- The function returned by `navier_stokes_explicit_terms` (equations.py:77-116). -/
noncomputable def explicitTerms (density : ℝ) (viscosity : Option ℝ) (dt : ℝ) (convect : Option (ConvectFn d) := none)
    (diffuse : DiffuseFn d := JaxCfd.diffuse) (forcing : Option (ForcingFn d) := none) (v : Fin d → GridVariable d ℝ) :
    Except Err (Fin d → GridVariable d ℝ) := do
  let c ← convectOr convect dt v
  let x ← addDiffusion diffuse viscosity density v c
  let y ← addForcing forcing density v x
  return fun a => ⟨y a, (v a).bc⟩

/-- The type of `time_stepper(ode, dt)` (equations.py:129, 150): `F` are the explicit terms, `P` the pressure projection, on leaves. -/
abbrev Stepper (d : ℕ) := (F P : Leaves d → Except Err (Leaves d)) → (dt : ℝ) → Leaves d → Except Err (Leaves d)

/-- `F = tree_math.unwrap(equation.explicit_terms)` (time_stepping.py:82, equations.py:135-142) on the leaves of a state laid out like
`v`. -/
noncomputable def termsOnLeaves (density : ℝ) (viscosity : Option ℝ) (dt : ℝ) (convect : Option (ConvectFn d))
    (diffuse : DiffuseFn d) (forcing : Option (ForcingFn d)) (v : Fin d → GridVariable d ℝ) (x : Leaves d) : Except Err (Leaves d) := do
  let r ← explicitTerms density viscosity dt convect diffuse forcing (withLeaves v x)
  leavesLike v r

/-- `P = tree_math.unwrap(equation.pressure_projection)` (time_stepping.py:83, equations.py:144-149) on the leaves of a state laid out
like `v`.  The result is required to have the tree structure of `v` (projections keep it). -/
noncomputable def projectOnLeaves (solve : PressureSolver d ℝ) (v : Fin d → GridVariable d ℝ) (x : Leaves d) : Except Err (Leaves d) := do
  let r ← projection (withLeaves v x) solve
  leavesLike v r

/-- `semi_implicit_navier_stokes` (equations.py:120-151). -/
noncomputable def semiImplicitNavierStokes (density : ℝ) (viscosity : Option ℝ) (dt : ℝ) (solve : PressureSolver d ℝ)
    (convect : Option (ConvectFn d) := none) (diffuse : DiffuseFn d := JaxCfd.diffuse) (forcing : Option (ForcingFn d) := none)
    (stepper : Stepper d := forwardEuler) (v : Fin d → GridVariable d ℝ) : Except Err (Fin d → GridVariable d ℝ) := do
  let x ← stepper (termsOnLeaves density viscosity dt convect diffuse forcing v) (projectOnLeaves solve v) dt (leaves v)
  return withLeaves v x

/-- `accelerations` and `sum_fields(*accelerations)` (equations.py:179-185). -/
noncomputable def accelerations (density : ℝ) (convect : ConvectFn d) (forcing : Option (ForcingFn d)) (v : Fin d → GridVariable d ℝ) :
    Except Err (Fin d → GridArray d ℝ) := do
  let c ← convect v
  match forcing with
  | none => sumFields [c]
  | some f => do
      let fv ← f v
      sumFields [c, fun a => gmap (fun x => x / density) (fv a)]

/-- `implicit_diffusion_navier_stokes` (equations.py:154-195).  `viscosity` (not `viscosity / density`) is passed to the solver. -/
noncomputable def implicitDiffusionNavierStokes (density viscosity dt : ℝ) (solve : PressureSolver d ℝ)
    (diffusionSolve : (Fin d → GridVariable d ℝ) → ℝ → ℝ → Except Err (Fin d → GridVariable d ℝ))
    (convect : Option (ConvectFn d) := none) (forcing : Option (ForcingFn d) := none) (v : Fin d → GridVariable d ℝ) :
    Except Err (Fin d → GridVariable d ℝ) := do
  let dvdt ← accelerations density (convectOr convect dt) forcing v
  let v1 ← seqFin fun a => do
    let w ← gmap2 (fun x y => x + y) (v a).array (gmap (fun x => x * dt) (dvdt a))
    return (⟨w, (v a).bc⟩ : GridVariable d ℝ)
  let v2 ← projection v1 solve
  diffusionSolve v2 viscosity dt

end
end JaxCfd
