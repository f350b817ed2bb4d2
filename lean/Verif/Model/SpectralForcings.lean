import Verif.Model.Forcings
import Verif.Model.SpectralEquations

/-!
# `exponential_filter`, `jax_cfd/spectral/forcings.py`, the spectral forcings of `jax_cfd/ml/forcings.py` and
`modular_spectral_step_fn` of `jax_cfd/ml/equations.py`
-/

namespace JaxCfd

/-- `sigma` of `exponential_filter` (spectral/utils.py:145-150) at mode `(r, c)` of an array with `n` rows; the row frequencies and the
column frequencies are both those of a signal of length `n`. -/
noncomputable def exponentialGain (alpha : ℝ) (order n : ℕ) (r c : ℤ) : ℝ :=
  let eta := Real.sqrt (fftfreq n 1 r ^ 2 + rfftfreq n 1 c ^ 2)
  Real.exp (-(-Real.log alpha) * eta ^ (2 * order))

/-- `exponential_filter` (spectral/utils.py:137-151), for arrays with at least two rows and columns (smaller ones would be broadcast or
rejected; here they are all rejected).  `sigma` has `n // 2 + 1` columns. -/
noncomputable def exponentialFilter (alpha : ℝ) (order : ℕ) (s : NArr 2 ℝ) : Except Err (NArr 2 ℝ) :=
  if s.shape 0 < 2 ∨ s.shape 1 < 2 then .error .value
  else
    let hat := rfftn (k := 1) s
    if hat.shape ≠ ![s.shape 0, s.shape 0 / 2 + 1] then .error .type
    else .ok (irfftn (k := 1) ⟨hat.shape, fun i => (exponentialGain alpha order (s.shape 0) (i 0) (i 1) : ℂ) * hat.data i⟩)

/-- The random numbers of `random_forcing_module` (spectral/forcings.py:28-43): `n` wavenumbers, amplitudes, frequencies and phases.
The generator is not modelled. -/
structure RandomWaves (n : ℕ) where
  kx : Fin n → ℤ
  amplitude : Fin n → ℝ
  omega : Fin n → ℝ
  phi : Fin n → ℝ

/-- `random_forcing_module` (spectral/forcings.py:8-56). -/
noncomputable def randomForcing {n : ℕ} (g : Grid 1 ℝ) (w : RandomWaves n) (offset : List ℝ := [0]) : Except Err (ℝ → Vec ℝ) := do
  let axes ← g.axes (some offset)
  return fun t => ⟨(axes 0).length, fun j =>
    ∑ i, w.amplitude i * Real.sin (w.omega i * t - (axes 0).getD j.toNat 0 * w.kx i + w.phi i)⟩

/-- `kolmogorov_forcing` (ml/forcings.py:72-85). -/
noncomputable def mlKolmogorovForcing {d : ℕ} (g : Grid d ℝ) (scale : ℝ := 0) (wavenumber : ℝ := 2) (linearCoefficient : ℝ := 0) (swapXY : Bool := false)
    (offsets : Option (Fin d → Fin d → ℚ) := none) : Except Err (ForcingFn d) := do
  let f ← kolmogorovForcing g scale wavenumber swapXY offsets
  return open Classical in if linearCoefficient ≠ 0 then sumForcings [f, linearForcing linearCoefficient] else f

/-- `spectral_kolmogorov_forcing` (ml/forcings.py:43-46). -/
noncomputable def spectralKolmogorovForcing (g : Grid 2 ℝ) : Except Err (ForcingFn 2) :=
  kolmogorovForcing g 1 4 false (some fun _ _ => 0)

/-- The velocity of `forcing_fn_ret` (ml/forcings.py:59-63): at offset `(0, 0)` with periodic boundary conditions. -/
noncomputable def spectralVelocity (g : Grid 2 ℝ) (what : NArr 2 ℂ) : Fin 2 → GridVariable 2 ℝ :=
  let v := vorticityToVelocity g fun r c => what.data ![r, c]
  ![⟨⟨irfftn (k := 1) ⟨what.shape, fun i => (v (i 0) (i 1)).1⟩, fun _ => 0, g⟩, periodicBC 2⟩,
    ⟨⟨irfftn (k := 1) ⟨what.shape, fun i => (v (i 0) (i 1)).2⟩, fun _ => 0, g⟩, periodicBC 2⟩]

/-- `forcing_fn_ret` of `vorticity_space_forcing` (ml/forcings.py:58-66).  The last axis of the vorticity is its single channel (other
numbers of channels cannot be unpacked); the result has no channel axis.  Shapes other than the one of the mesh are rejected. -/
noncomputable def vorticityForcingFn (g : Grid 2 ℝ) (forcing : ForcingFn 2) (w : NArr 3 ℝ) : Except Err (NArr 2 ℝ) :=
  if w.shape 2 ≠ 1 then .error .value
  else
    let what := rfftn (k := 1) ⟨![w.shape 0, w.shape 1], fun i => w.data ![i 0, i 1, 0]⟩
    if what.shape ≠ rfftShape2 g then .error .type
    else do
      let f ← forcing (spectralVelocity g what)
      let fu := rfftn (k := 1) (f 0).toNArr
      let fv := rfftn (k := 1) (f 1).toNArr
      if fu.shape ≠ rfftShape2 g ∨ fv.shape ≠ rfftShape2 g then throw .type
      return irfftn (k := 1) ⟨rfftShape2 g, fun i =>
        twoPiI * (fv.data i * (rfftMesh g (i 0) (i 1)).1 - fu.data i * (rfftMesh g (i 0) (i 1)).2)⟩

/-- `vorticity_space_forcing` (ml/forcings.py:49-68). -/
noncomputable def vorticitySpaceForcing (g : Grid 2 ℝ) (forcingModule : Grid 2 ℝ → Option (Fin 2 → Fin 2 → ℚ) → Except Err (ForcingFn 2)) :
    Except Err (NArr 3 ℝ → Except Err (NArr 2 ℝ)) := do
  let forcing ← forcingModule g (some fun _ _ => 0)
  return vorticityForcingFn g forcing

/-- A function of spectra of the shape of the mesh as a function of their entries.  Whether the functions of the equation fail depends on
shapes only. -/
noncomputable def onSpectra (g : Grid 2 ℝ) (F : NArr 2 ℂ → Except Err (NArr 2 ℂ)) (w : Idx 2 → ℂ) : Idx 2 → ℂ :=
  match F ⟨rfftShape2 g, w⟩ with
  | .ok z => z.data
  | .error _ => 0

/-- The step function `time_stepper(eq, dt)` of `modular_spectral_step_fn` (ml/equations.py:72-79) with its default
`crank_nicolson_rk4`. -/
noncomputable def nsStep (nu drag : ℝ) (g : Grid 2 ℝ) (smooth : Option Bool)
    (forcing : Option (NArr 2 ℝ → NArr 2 ℝ → NArr 2 ℝ × NArr 2 ℝ)) (dt : ℝ) (w : NArr 2 ℂ) : Except Err (NArr 2 ℂ) := do
  let _ ← nsExplicit g smooth forcing w
  let r ← crankNicolsonRK4 (onSpectra g (nsExplicit g smooth forcing)) (onSpectra g (nsImplicit nu drag g))
    (fun w h => onSpectra g (fun w => nsSolve nu drag g w h) w) dt w.data
  return ⟨w.shape, r⟩

/-- `modular_spectral_step_fn` (ml/equations.py:63-88). -/
noncomputable def modularSpectralStep (nu drag : ℝ) (g : Grid 2 ℝ) (smooth : Option Bool)
    (forcing : Option (NArr 2 ℝ → NArr 2 ℝ → NArr 2 ℝ × NArr 2 ℝ)) (doFilterStep : Bool) (dt : ℝ) (w : NArr 2 ℂ) : Except Err (NArr 2 ℂ) := do
  let x ← nsStep nu drag g smooth forcing dt w
  if doFilterStep then do
    let v ← exponentialFilter (1 / 10 ^ 6) 2 (irfftn (k := 1) x)
    return rfftn (k := 1) v
  else return x

end JaxCfd
