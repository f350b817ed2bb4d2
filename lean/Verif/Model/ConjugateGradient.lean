import Verif.Model.Collocated
import Verif.Model.Solvers
import Verif.Spec

/-!
# Conjugate gradient solvers (`pressure.solve_cg`, `diffusion.solve_cg` and the modules of `jax_cfd/ml` that configure them)

`jax.scipy.sparse.linalg.cg` is a library routine; it is modelled here from its documented algorithm (`_cg_solve` without
preconditioner), in exact real arithmetic, so that the effect of its tolerance and iteration limit can be stated.
A division by zero in it (JAX: nan) gives 0.
-/

namespace JaxCfd
variable {d : ℕ}

/-- The keyword arguments `tol`, `atol`, `maxiter` (pressure.py:104-109, diffusion.py:155-156). -/
structure CGOptions where
  rtol : ℝ
  atol : ℝ
  maxiter : Option ℕ

/-- Default arguments of `pressure.solve_cg` (pressure.py:71-73) and of `diffusion.solve_cg` (diffusion.py:140-142). -/
noncomputable def CGOptions.default : CGOptions := ⟨1 / 1000000, 1 / 1000000, none⟩

/-- `tree_map(f, u, v)` of two GridArrays (grids.py:68-77): different offset or grid is a ValueError; different shapes are not
broadcast here. -/
noncomputable def treeCombine (f : ℝ → ℝ → ℝ) (u v : GridArray d ℝ) : Except Err (GridArray d ℝ) :=
  if u.offset ≠ v.offset ∨ u.grid ≠ v.grid then .error .value
  else if u.shape ≠ v.shape then .error .type
  else .ok ⟨⟨u.shape, fun i => f (u.data i) (v.data i)⟩, u.offset, u.grid⟩

/-- The loop state of `_cg_solve`: `x, r, gamma, p`. -/
structure CGState (d : ℕ) where
  x : GridArray d ℝ
  r : GridArray d ℝ
  gamma : ℝ
  p : GridArray d ℝ

/-- `body_fun` of `_cg_solve`. -/
noncomputable def cgBody (A : GridArray d ℝ → Except Err (GridArray d ℝ)) (s : CGState d) : Except Err (CGState d) := do
  let ap ← A s.p
  let alpha := s.gamma / inner s.p.toNArr ap.toNArr
  let x ← treeCombine (fun x p => x + alpha * p) s.x s.p
  let r ← treeCombine (fun r y => r - alpha * y) s.r ap
  let gamma := inner r.toNArr r.toNArr
  let beta := gamma / s.gamma
  let p ← treeCombine (fun r p => r + beta * p) r s.p
  return ⟨x, r, gamma, p⟩

/-- The `while_loop` of `_cg_solve`: at most `k` further iterations, as long as `gamma > atol2`. -/
noncomputable def cgLoop (A : GridArray d ℝ → Except Err (GridArray d ℝ)) (atol2 : ℝ) : ℕ → CGState d → Except Err (CGState d)
  | 0, s => .ok s
  | k + 1, s => if atol2 < s.gamma then cgBody A s >>= fun s' => cgLoop A atol2 k s' else .ok s

/-- `jax.scipy.sparse.linalg.cg(A, b, x0=x0, tol=rtol, atol=atol, maxiter=maxiter)`: `maxiter` defaults to ten times the number
of unknowns; `x0` must have the structure and shape of `b`. -/
noncomputable def conjGrad (opt : CGOptions) (A : GridArray d ℝ → Except Err (GridArray d ℝ)) (b x0 : GridArray d ℝ) :
    Except Err (GridArray d ℝ) :=
  if x0.offset ≠ b.offset ∨ x0.grid ≠ b.grid ∨ x0.shape ≠ b.shape then .error .value
  else do
    let ax ← A x0
    let r ← treeCombine (fun x y => x - y) b ax
    let atol2 := max (opt.rtol ^ 2 * inner b.toNArr b.toNArr) (opt.atol ^ 2)
    let s ← cgLoop A atol2 (opt.maxiter.getD (10 * ∏ a, b.shape a)) ⟨x0, r, inner r.toNArr r.toNArr, r⟩
    return s.x

variable [HasNan ℝ]

/-- `laplacian_with_bcs` (pressure.py:101-103). -/
noncomputable def laplacianWithBCs (bc : BC d ℝ) (u : GridArray d ℝ) : Except Err (GridArray d ℝ) := do
  let w ← bc.imposeBC u
  laplacian w

/-- `pressure.solve_cg` (pressure.py:67-112). -/
noncomputable def pressureCG (opt : CGOptions) (v : Fin d → GridVariable d ℝ) (q0 : GridVariable d ℝ)
    (pressureBC : Option (BC d ℝ)) : Except Err (GridArray d ℝ) := do
  let rhs ← divergence (List.ofFn v)
  let bc ← pressureBC.elim (pressureBCFromVelocity (List.ofFn v)) .ok
  conjGrad opt (laplacianWithBCs bc) rhs q0.array

/-- `linear_op` of `diffusion.solve_cg` (diffusion.py:150-153): `u_new - dt * nu * laplacian(u_new)`. -/
noncomputable def diffusionOp (bc : BC d ℝ) (nu dt : ℝ) (u : GridArray d ℝ) : Except Err (GridArray d ℝ) := do
  let l ← laplacian ⟨u, bc⟩
  gmap2 (fun x y => x - y) u (gmap (fun y => dt * nu * y) l)

/-- `solve_component` of `diffusion.solve_cg` (diffusion.py:147-161). -/
noncomputable def diffusionCGOne (opt : CGOptions) (nu dt : ℝ) (u : GridVariable d ℝ) : Except Err (GridArray d ℝ) :=
  conjGrad opt (diffusionOp u.bc nu dt) u.array u.array

/-- `diffusion.solve_cg` (diffusion.py:137-163). -/
noncomputable def diffusionSolveCG (opt : CGOptions) (v : Fin d → GridVariable d ℝ) (nu dt : ℝ) :
    Except Err (Fin d → GridVariable d ℝ) :=
  diffusionCG (diffusionCGOne opt nu dt) v

namespace ML
/-- `pressures.conjugate_gradient` (ml/pressures.py:29-32): `rtol` keeps its default. -/
noncomputable def conjugateGradient (atol : ℝ := 1 / 100000) (maxiter : Option ℕ := some 32) : PressureSolver d ℝ :=
  fun v q0 bc => pressureCG ⟨CGOptions.default.rtol, atol, maxiter⟩ v q0 (some bc)

/-- `pressures.fast_diagonalization` (ml/pressures.py:23-26). -/
noncomputable def fastDiagonalization (tpu : Bool) (eigh : EighFn ℝ) (cutoff : ℝ) : PressureSolver d ℝ :=
  fun v _ bc => pressureFastDiag tpu eigh cutoff v (some bc) none

/-- `diffusions.solve_cg` (ml/diffusions.py:63-75). -/
noncomputable def diffusionsSolveCG (atol : ℝ := 1 / 100000) (rtol : ℝ := 1 / 100000) (maxiter : Option ℕ := some 64)
    (v : Fin d → GridVariable d ℝ) (nu dt : ℝ) : Except Err (Fin d → GridVariable d ℝ) :=
  diffusionSolveCG ⟨rtol, atol, maxiter⟩ v nu dt

/-- `diffusions.solve_fast_diag` (ml/diffusions.py:51-60). -/
noncomputable def diffusionsSolveFastDiag (tpu : Bool) (eigh : EighFn ℝ) (implementation : Option Impl := none)
    (v : Fin d → GridVariable d ℝ) (nu dt : ℝ) : Except Err (Fin d → GridVariable d ℝ) :=
  diffusionFastDiag tpu eigh v nu dt implementation
end ML

end JaxCfd
