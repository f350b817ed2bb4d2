import Verif.Model.FastDiag
import Verif.Model.Pressure
import Verif.Model.GridCtor

/-!
# Direct solvers: `pressure.solve_fast_diag` and `diffusion.solve_fast_diag`

Over the reals.  `eigh`, `tpu` and `cutoff` are those of `Model/FastDiag.lean`.
-/

namespace JaxCfd
variable {d : ℕ} [HasNan ℝ]

/-- One iteration of the loop of `pressure._rhs_transform` (pressure.py:58-63): the mean of all entries is subtracted when
both sides of the axis are Neumann. -/
noncomputable def subtractMean (bc : BC d ℝ) (u : NArr d ℝ) (a : Fin d) : NArr d ℝ :=
  if (bc.types a).1 = .neumann ∧ (bc.types a).2 = .neumann then
    u.map fun x => x - u.sum / (∏ b, (u.shape b : ℝ))
  else u

/-- `pressure._rhs_transform` (pressure.py:42-64). -/
noncomputable def pressureRhs (u : GridArray d ℝ) (bc : BC d ℝ) : NArr d ℝ :=
  (List.finRange d).foldl (subtractMean bc) u.toNArr

/-- `pressure.solve_fast_diag` (pressure.py:115-157), with its `pressure_bc` argument resolved. -/
noncomputable def pressureFastDiagWith (tpu : Bool) (eigh : EighFn ℝ) (cutoff : ℝ) (v : Fin d → GridVariable d ℝ) (bc : BC d ℝ)
    (implementation : Option Impl) : Except Err (GridArray d ℝ) := do
  let circulant := hasAllPeriodic (List.ofFn v)
  let implementation := if circulant = true then implementation else some .matmul
  let rhs ← divergence (List.ofFn v)
  let laplacians ← laplacianMatrixWB rhs.grid rhs.offset bc
  let pinv ← pseudoinverse (d := d) tpu eigh cutoff (List.ofFn laplacians) true circulant implementation
  let q ← pinv (pressureRhs rhs bc)
  return ⟨q, rhs.offset, rhs.grid⟩

/-- `pressure.solve_fast_diag` (pressure.py:115-157). -/
noncomputable def pressureFastDiag (tpu : Bool) (eigh : EighFn ℝ) (cutoff : ℝ) (v : Fin d → GridVariable d ℝ)
    (pressureBC : Option (BC d ℝ)) (implementation : Option Impl) : Except Err (GridArray d ℝ) :=
  match pressureBC with
  | some bc => pressureFastDiagWith tpu eigh cutoff v bc implementation
  | none => do
      let bc ← pressureBCFromVelocity (List.ofFn v)
      pressureFastDiagWith tpu eigh cutoff v bc implementation

/-- `pressure.solve_fast_diag_channel_flow` (pressure.py:160-178). -/
noncomputable def pressureFastDiagChannel (tpu : Bool) (eigh : EighFn ℝ) (cutoff : ℝ) (v : Fin d → GridVariable d ℝ)
    (pressureBC : Option (BC d ℝ)) : Except Err (GridArray d ℝ) := do
  let bc ← match pressureBC with
    | some bc => .ok bc
    | none => pressureBCFromVelocity (List.ofFn v)
  pressureFastDiag tpu eigh cutoff v (some bc) (some .matmul)

/-! ### Diffusion -/

/-- The vector `grid.mesh(offset)[axis][0]` of `_subtract_linear_part_dirichlet` (diffusion.py:89), two-dimensional grids:
the first row of the mesh of coordinates along `axis`.  It has the length of axis 1; it is constant for `axis = 0`. -/
noncomputable def meshRow (g : Grid 2 ℝ) (offset : Fin 2 → ℚ) (axis : Fin 2) : NArr 1 ℝ :=
  ⟨fun _ => g.shape 1, fun k =>
    if axis = 0 then (g.domain 0).1 + (offset 0 : ℝ) * g.step 0
    else (g.domain 1).1 + ((k 0 : ℝ) + (offset 1 : ℝ)) * g.step 1⟩

/-- `_subtract_linear_part_dirichlet` (diffusion.py:60-100) on a two-dimensional grid, with `one_d_grid` and `y_boundary`.
`jnp.apply_along_axis` of a subtraction of a vector requires the length of the axis (broadcasting of vectors of length 1 is not
modelled).  -/
noncomputable def subtractLinear2 (c : NArr 2 ℝ) (g : Grid 2 ℝ) (axis : Fin 2) (offset : Fin 2 → ℚ) (lower upper : ℝ) :
    Except Err (NArr 2 ℝ) := do
  let y ← (dirichletBC (K := ℝ) 1 none).trimBoundary
    ⟨meshRow g offset axis, fun _ => offset axis, ⟨fun _ => g.shape axis, fun _ => g.domain axis⟩⟩
  if y.shape 0 ≠ c.shape axis then .error .type
  else .ok ⟨c.shape, fun i => c.data i - (lower + (upper - lower) * (y.data (fun _ => i axis) - (g.domain axis).1) /
    ((g.domain axis).2 - (g.domain axis).1))⟩

/-- `_subtract_linear_part_dirichlet` (diffusion.py:60-100) for any rank: for rank 1 `mesh[0][0]` is a scalar and the trim fails
with IndexError; for rank 3 and above the linear part has rank ≥ 2, the result has too many axes, and applying the transform to
it is a ValueError. -/
noncomputable def subtractLinear : {d : ℕ} → NArr d ℝ → Grid d ℝ → Fin d → (Fin d → ℚ) → ℝ → ℝ → Except Err (NArr d ℝ)
  | 0, _, _, _, _, _, _ => .error .index
  | 1, _, _, _, _, _, _ => .error .index
  | 2, c, g, a, o, lo, up => subtractLinear2 c g a o lo up
  | _ + 3, _, _, _, _, _, _ => .error .value

/-- One side of one axis in the loop of `diffusion._rhs_transform` (diffusion.py:124-133).  A Dirichlet value `None` is a
TypeError in the arithmetic; `any` treats `None` and 0 as false. -/
noncomputable def diffusionRhsSide (g : Grid d ℝ) (offset : Fin d → ℚ) (bc : BC d ℝ) (a : Fin d) (side : Side) (u : NArr d ℝ) :
    Except Err (NArr d ℝ) :=
  let t := if side = .lower then (bc.types a).1 else (bc.types a).2
  let b := if side = .lower then (bc.bcValues a).1 else (bc.bcValues a).2
  if t = .dirichlet then
    match b with
    | none => .error .type
    | some b => if side = .lower then subtractLinear u g a offset b 0 else subtractLinear u g a offset 0 b
  else if t = .neumann then
    if ((bc.bcValues a).1.getD 0 ≠ 0) ∨ ((bc.bcValues a).2.getD 0 ≠ 0) then .error .notImplemented else .ok u
  else .ok u

/-- `diffusion._rhs_transform` (diffusion.py:103-134). -/
noncomputable def diffusionRhs (u : GridArray d ℝ) (bc : BC d ℝ) : Except Err (NArr d ℝ) :=
  (List.finRange d).foldlM (fun x a => do
    let x ← diffusionRhsSide u.grid u.offset bc a .lower x
    diffusionRhsSide u.grid u.offset bc a .upper x) u.toNArr

/-- `func` of `diffusion.solve_fast_diag` (diffusion.py:176-178). -/
noncomputable def diffusionFn (nu dt : ℝ) (x : ℂ) : ℂ := (((dt * nu : ℝ) : ℂ) * x) / (1 - ((dt * nu : ℝ) : ℂ) * x)

/-- One component of `diffusion.solve_fast_diag` (diffusion.py:195-211). -/
noncomputable def diffusionFastDiagOne (tpu : Bool) (eigh : EighFn ℝ) (nu dt : ℝ) (circulant : Bool) (impl : Option Impl)
    (u : GridVariable d ℝ) : Except Err (GridVariable d ℝ) := do
  let laplacians ← laplacianMatrixWB u.array.grid u.array.offset u.bc
  let op ← transform (d := d) tpu eigh (diffusionFn nu dt) (List.ofFn laplacians) true circulant impl
  let inner ← u.bc.trimBoundary u.array
  let rhs ← diffusionRhs inner u.bc
  let w ← op rhs
  let r ← gmap2 (fun x y => x + y) inner ⟨w, inner.offset, inner.grid⟩
  u.bc.padAndImposeBC r (some u.array.offset)

/-- `diffusion.solve_fast_diag` (diffusion.py:166-212). -/
noncomputable def diffusionFastDiag (tpu : Bool) (eigh : EighFn ℝ) (v : Fin d → GridVariable d ℝ) (nu dt : ℝ)
    (implementation : Option Impl) : Except Err (Fin d → GridVariable d ℝ) :=
  let circulant := hasAllPeriodic (List.ofFn v)
  let implementation := if circulant = true then implementation else some .matmul
  seqFin fun a => diffusionFastDiagOne tpu eigh nu dt circulant implementation (v a)

/-- The argument check of `diffusion.solve_cg` (diffusion.py:144-145) in front of a conjugate gradient solver for one component,
which is a parameter. -/
def diffusionCG (solve : GridVariable d ℝ → Except Err (GridArray d ℝ)) (v : Fin d → GridVariable d ℝ) :
    Except Err (Fin d → GridVariable d ℝ) :=
  if hasAllPeriodic (List.ofFn v) = false then .error .value
  else seqFin fun a => do
    let x ← solve (v a)
    return ⟨x, (v a).bc⟩

end JaxCfd
