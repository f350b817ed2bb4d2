import Verif.Model.SpectralUtils

/-!
# `jax_cfd/spectral/equations.py` and `downsample_spectral` of `jax_cfd/base/resize.py`
-/

namespace JaxCfd

/-- A binary operation of two 1-D arrays, with NumPy's broadcasting of arrays of length 1. -/
def Vec.zip {K L M : Type} (f : K → L → M) (a : Vec K) (b : Vec L) : Except Err (Vec M) :=
  if a.n = b.n then .ok ⟨a.n, fun k => f (a.e k) (b.e k)⟩
  else if a.n = 1 then .ok ⟨b.n, fun k => f (a.e 0) (b.e k)⟩
  else if b.n = 1 then .ok ⟨a.n, fun k => f (a.e k) (b.e 0)⟩
  else .error .type

/-- `2j * jnp.pi * kx` of a 1-D grid, `kx, = grid.rfft_axes()` (spectral/equations.py:53-54, 85-86; grids.py:618-638). -/
noncomputable def rfftDeriv (g : Grid 1 ℝ) : Vec ℂ :=
  ⟨g.shape 0 / 2 + 1, fun k => twoPiI * (rfftfreq (g.shape 0) (g.step 0) k : ℝ)⟩

/-- `2j * jnp.pi * kx` of a 1-D grid, `kx, = grid.fft_axes()` (spectral/equations.py:238-240; grids.py:604-616). -/
noncomputable def fftDeriv (g : Grid 1 ℝ) : Vec ℂ :=
  ⟨g.shape 0, fun k => twoPiI * (fftfreq (g.shape 0) (g.step 0) k : ℝ)⟩

/-! ### Kuramoto-Sivashinsky -/

/-- `KuramotoSivashinsky.linear_term` (spectral/equations.py:55). -/
noncomputable def ksLinear (g : Grid 1 ℝ) : Vec ℂ :=
  ⟨(rfftDeriv g).n, fun k => -(rfftDeriv g).e k ^ 2 - (rfftDeriv g).e k ^ 4⟩

/-- `KuramotoSivashinsky.explicit_terms` (spectral/equations.py:56-62). -/
noncomputable def ksExplicit (g : Grid 1 ℝ) (smooth : Bool) (uhat : Vec ℂ) : Except Err (Vec ℂ) := do
  let u ← if smooth then paddedIrfft uhat else irfft1 uhat
  let squared : Vec ℝ := ⟨u.n, fun j => u.e j ^ 2⟩
  let sq ← if smooth then truncatedRfft squared else rfft1 squared
  Vec.zip (fun a b => -(1 / 2) * a * b) (rfftDeriv g) sq

/-- `KuramotoSivashinsky.implicit_terms` (spectral/equations.py:64-66). -/
noncomputable def ksImplicit (g : Grid 1 ℝ) (uhat : Vec ℂ) : Except Err (Vec ℂ) := Vec.zip (· * ·) (ksLinear g) uhat

/-- `KuramotoSivashinsky.implicit_solve` (spectral/equations.py:68-71). -/
noncomputable def ksSolve (g : Grid 1 ℝ) (uhat : Vec ℂ) (dt : ℝ) : Except Err (Vec ℂ) :=
  Vec.zip (fun l u => 1 / (1 - dt * l) * u) (ksLinear g) uhat

/-! ### Burgers -/

/-- `ForcedBurgersEquation.linear_term` (spectral/equations.py:87). -/
noncomputable def burgersLinear (nu : ℝ) (g : Grid 1 ℝ) : Vec ℂ := ⟨(rfftDeriv g).n, fun k => nu * (rfftDeriv g).e k ^ 2⟩

/-- The forcing of `BurgersEquation`: `forcing_module=None` (spectral/equations.py:90-91, 115-118). -/
noncomputable def burgersNoForcing (_t : ℝ) : Vec ℝ := ⟨1, fun _ => 0⟩

/-- `ForcedBurgersEquation.explicit_terms` (spectral/equations.py:95-104), for the state `(uhat, t)`; the forcing is a
parameter. -/
noncomputable def burgersExplicit (g : Grid 1 ℝ) (forcing : ℝ → Vec ℝ) (state : Vec ℂ × ℝ) : Except Err (Vec ℂ × ℝ) := do
  let dudx ← Vec.zip (· * ·) (rfftDeriv g) state.1
  let fhat ← rfft1 (forcing state.2)
  let u ← paddedIrfft state.1
  let ux ← paddedIrfft dudx
  let prod ← Vec.zip (· * ·) u ux
  let phat ← truncatedRfft prod
  let terms ← Vec.zip (fun a b => a + -b) fhat phat
  return (terms, 1)

/-- `ForcedBurgersEquation.implicit_terms` (spectral/equations.py:106-108). -/
noncomputable def burgersImplicit (nu : ℝ) (g : Grid 1 ℝ) (state : Vec ℂ × ℝ) : Except Err (Vec ℂ × ℝ) := do
  let x ← Vec.zip (· * ·) (burgersLinear nu g) state.1
  return (x, 0)

/-- `ForcedBurgersEquation.implicit_solve` (spectral/equations.py:110-112). -/
noncomputable def burgersSolve (nu : ℝ) (g : Grid 1 ℝ) (state : Vec ℂ × ℝ) (dt : ℝ) : Except Err (Vec ℂ × ℝ) := do
  let x ← Vec.zip (fun l u : ℂ => 1 / (1 - dt * l) * u) (burgersLinear nu g) state.1
  return (x, state.2)

/-! ### Navier-Stokes (vorticity, 2-D) -/

/-- `NavierStokes2D.laplace` (spectral/equations.py:151-152) at mode `(r, c)`. -/
noncomputable def nsLaplace (g : Grid 2 ℝ) (r c : ℤ) : ℂ :=
  (Real.pi * (2 * Complex.I)) ^ 2 * (((rfftMesh g r c).1 ^ 2 + (rfftMesh g r c).2 ^ 2 : ℝ) : ℂ)

/-- `NavierStokes2D.linear_term` (spectral/equations.py:154) at mode `(r, c)`. -/
noncomputable def nsLinear (nu drag : ℝ) (g : Grid 2 ℝ) (r c : ℤ) : ℂ := nu * nsLaplace g r c - drag

/-- The shape of arrays over `grid.rfft_mesh()`, as an array shape. -/
def rfftShape2 (g : Grid 2 ℝ) : Fin 2 → ℕ := ![g.shape 0, g.shape 1 / 2 + 1]

/-- `NavierStokes2D.implicit_terms` (spectral/equations.py:186-187).  Shapes other than that of the mesh are a TypeError (their
broadcasting is not modelled). -/
noncomputable def nsImplicit (nu drag : ℝ) (g : Grid 2 ℝ) (w : NArr 2 ℂ) : Except Err (NArr 2 ℂ) :=
  if w.shape = rfftShape2 g then .ok ⟨w.shape, fun i => nsLinear nu drag g (i 0) (i 1) * w.data i⟩ else .error .type

/-- `NavierStokes2D.implicit_solve` (spectral/equations.py:189-190). -/
noncomputable def nsSolve (nu drag : ℝ) (g : Grid 2 ℝ) (w : NArr 2 ℂ) (dt : ℝ) : Except Err (NArr 2 ℂ) :=
  if w.shape = rfftShape2 g then .ok ⟨w.shape, fun i => 1 / (1 - dt * nsLinear nu drag g (i 0) (i 1)) * w.data i⟩
  else .error .type

/-- The advection part of `NavierStokes2D.explicit_terms` (spectral/equations.py:160-173).  `smooth` is
`self.smooth is not None`, which also holds for `False`.  The inverse transforms return arrays with an even last axis: for an odd
last axis of the grid the product with the filter is a TypeError. -/
noncomputable def nsAdvection (g : Grid 2 ℝ) (smooth : Option Bool) (w : NArr 2 ℂ) : Except Err (NArr 2 ℂ) :=
  if w.shape ≠ rfftShape2 g then .error .type
  else
    let v := vorticityToVelocity g fun r c => w.data ![r, c]
    let vx := irfftn (k := 1) ⟨w.shape, fun i => (v (i 0) (i 1)).1⟩
    let vy := irfftn (k := 1) ⟨w.shape, fun i => (v (i 0) (i 1)).2⟩
    let gx := irfftn (k := 1) ⟨w.shape, fun i => twoPiI * ((rfftMesh g (i 0) (i 1)).1 : ℝ) * w.data i⟩
    let gy := irfftn (k := 1) ⟨w.shape, fun i => twoPiI * ((rfftMesh g (i 0) (i 1)).2 : ℝ) * w.data i⟩
    let hat := rfftn (k := 1) ⟨vx.shape, fun i => -(gx.data i * vx.data i + gy.data i * vy.data i)⟩
    match smooth with
    | none => .ok hat
    | some _ =>
        if hat.shape = rfftShape2 g then .ok ⟨hat.shape, fun i => hat.data i * (brickWallFilter (g.shape 0) (g.shape 1) (i 0) (i 1) : ℝ)⟩
        else .error .type

/-- `NavierStokes2D.explicit_terms` (spectral/equations.py:160-184): the advection, and the curl of the forcing, a function of the
velocity. -/
noncomputable def nsExplicit (g : Grid 2 ℝ) (smooth : Option Bool)
    (forcing : Option (NArr 2 ℝ → NArr 2 ℝ → NArr 2 ℝ × NArr 2 ℝ)) (w : NArr 2 ℂ) : Except Err (NArr 2 ℂ) := do
  let terms ← nsAdvection g smooth w
  match forcing with
  | none => return terms
  | some f =>
      let v := vorticityToVelocity g fun r c => w.data ![r, c]
      let vx := irfftn (k := 1) ⟨w.shape, fun i => (v (i 0) (i 1)).1⟩
      let vy := irfftn (k := 1) ⟨w.shape, fun i => (v (i 0) (i 1)).2⟩
      let fx := rfftn (k := 1) (f vx vy).1
      let fy := rfftn (k := 1) (f vx vy).2
      if fx.shape ≠ terms.shape ∨ fy.shape ≠ terms.shape ∨ terms.shape ≠ rfftShape2 g then throw .type
      return ⟨terms.shape, fun i => terms.data i + spectralCurl2d g (fun r c => (fx.data ![r, c], fy.data ![r, c])) (i 0) (i 1)⟩

/-! ### Nonlinear Schrödinger -/

/-- `NonlinearSchrodinger.explicit_terms` (spectral/equations.py:237-249), with the constructor's assertion. -/
noncomputable def nlsExplicit (g : Grid 1 ℝ) (smooth : Bool) (psihat : Vec ℂ) : Except Err (Vec ℂ) := do
  if g.shape 0 % 2 ≠ 0 then throw .assertion
  let psi ← if smooth then paddedIfft2x psihat else
    if psihat.n = 0 then .error .value else .ok ⟨psihat.n, ifft1 psihat.n psihat.e⟩
  let cubed : Vec ℂ := ⟨psi.n, fun j => Complex.I * psi.e j * ((‖psi.e j‖ ^ 2 : ℝ) : ℂ)⟩
  let hat ← if smooth then truncatedFft2x cubed else
    if cubed.n = 0 then .error .value else .ok ⟨cubed.n, fft1 cubed.n cubed.e⟩
  return ⟨hat.n, fun k => -hat.e k / 2⟩

/-- `NonlinearSchrodinger.implicit_terms` (spectral/equations.py:251-253). -/
noncomputable def nlsImplicit (g : Grid 1 ℝ) (psihat : Vec ℂ) : Except Err (Vec ℂ) :=
  Vec.zip (fun p k => -Complex.I * p * k ^ 2 / 8) psihat (fftDeriv g)

/-- `NonlinearSchrodinger.implicit_solve` (spectral/equations.py:255-257). -/
noncomputable def nlsSolve (g : Grid 1 ℝ) (psihat : Vec ℂ) (dt : ℝ) : Except Err (Vec ℂ) :=
  Vec.zip (fun p k => p / (1 - dt * (-Complex.I * k ^ 2 / 8))) psihat (fftDeriv g)

/-! ### Spectral downsampling -/

/-- `downsample_spectral` (resize.py:225-238).  The rows are `signal[:num_x // 2]` and `signal[-num_x // 2:]`. -/
noncomputable def downsampleSpectral (dst : Grid 2 ℝ) (s : NArr 2 ℂ) : Except Err (NArr 2 ℂ) :=
  let numX := dst.shape 0
  let numY := dst.shape 1 / 2 + 1
  let r1 := min (numX / 2) (s.shape 0)
  let r2 := if numX = 0 then s.shape 0 else min ((numX + 1) / 2) (s.shape 0)
  if s.shape 0 = 0 then .error .zeroDivision
  else .ok ⟨![r1 + r2, min numY (s.shape 1)], fun i =>
    ((numX : ℂ) / s.shape 0) ^ 2 * s.data ![if i 0 < r1 then i 0 else s.shape 0 - r2 + (i 0 - r1), i 1]⟩

end JaxCfd
