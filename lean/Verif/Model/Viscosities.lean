import Verif.Model.Subgrid

/-!
# Configurable eddy viscosity modules

The rest of `jax_cfd/ml/viscosities.py` and the implicit eddy viscosity solve of `jax_cfd/ml/diffusions.py`.  `hk.to_module` and the
registration with gin do not change what is computed and are not modelled.
-/

namespace JaxCfd
variable {d : ℕ} [HasNan ℝ]

/-- `learned_scalar_viscosity_from_gradients` (viscosities.py:106-164).  `net` is the tower applied to the list of channels and squeezed;
`jnp.stack` of arrays of different shapes is a ValueError.  `interpolate_module(grid, dt, physics_specs)` is `interp`. -/
noncomputable def learnedGradientViscosity (scale : ℝ) (g : Grid d ℝ) (dt : ℝ) (net : List (NArr d ℝ) → Except Err (NArr d ℝ))
    (interp : InterpFn d ℝ := linearFn) : ViscosityFn d := fun s v => do
  let c ← seqFin fun i => seqFin fun j => wrappedInterp interp dt v (s i j) g.cellCenter
  if ¬ ∀ i j i' j', (c i j).shape = (c i' j').shape then .error .value
  else do
    let out ← net (List.ofFn fun i => List.ofFn fun j => (c i j).toNArr).flatten
    viscosityByOffset (fun o => do
      let r ← wrappedInterp interp dt v (⟨out.map fun x => (scale + 1 / 10 ^ 6) * x, g.cellCenter, g⟩ : GridArray d ℝ) o
      return r.toNArr) s

namespace ML
/-- `viscosities.smagorinsky_viscosity` (viscosities.py:28-43): the viscosity scale is not used. -/
noncomputable def smagorinskyModule (dt : ℝ) (cs : ℝ := 1 / 5) (interp : InterpFn d ℝ := linearFn) (_viscosityScale : ℝ) : ViscosityFn d :=
  smagorinskyViscosity cs dt interp

/-- `viscosities.eddy_viscosity_model` (viscosities.py:213-249); `viscosityModel` is `viscosity_model(grid, dt, physics_specs,
viscosity_scale=·)`. -/
noncomputable def eddyViscosityModel (specViscosity : ℝ) (viscosityScale : Option ℝ := none) (viscosityModel : ℝ → ViscosityFn d) :
    (Fin d → GridVariable d ℝ) → Except Err (Fin d → GridArray d ℝ) :=
  evmModel (viscosityModel (viscosityScale.getD specViscosity))

/-- `diffusions.implicit_evm_solve_with_diffusion` (ml/diffusions.py:78-94): `evm` is the configured viscosity module, `cg` the conjugate
gradient method with the given tolerance and number of iterations. -/
noncomputable def implicitEvmModule (cg : ℝ → Option ℕ → TupleCG d) (evm : (Fin d → GridVariable d ℝ) → Except Err (Fin d → GridArray d ℝ))
    (atol : ℝ := 1 / 100000) (maxiter : Option ℕ := some 64) (v : Fin d → GridVariable d ℝ) (nu dt : ℝ) :
    Except Err (Fin d → GridVariable d ℝ) :=
  implicitEvmSolve (cg atol maxiter) evm v nu dt
end ML

end JaxCfd
