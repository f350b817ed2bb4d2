import Verif.Model.FastDiag
import Verif.Model.Grids

/-!
# `jax_cfd/spectral/utils.py` and the Fourier axes of `jax_cfd/base/grids.py`

Signals and spectra over the real and complex numbers; the transforms are their defining sums (`Model/FastDiag.lean`).
-/

namespace JaxCfd

/-- A one-dimensional array. -/
structure Vec (K : Type) where
  n : ℕ
  e : ℤ → K

/-- The same vector. -/
def Vec.Eqv {K : Type} (x y : Vec K) : Prop := x.n = y.n ∧ ∀ k : ℤ, 0 ≤ k → k < x.n → x.e k = y.e k

/-- `jnp.fft.rfft` (an empty signal is rejected). -/
noncomputable def rfft1 (x : Vec ℝ) : Except Err (Vec ℂ) :=
  if x.n = 0 then .error .value else .ok ⟨x.n / 2 + 1, fft1 x.n fun j => (x.e j : ℂ)⟩

/-- `jnp.fft.irfft` with the default length `2 (m - 1)` (a length of 0 is rejected). -/
noncomputable def irfft1 (x : Vec ℂ) : Except Err (Vec ℝ) :=
  if x.n ≤ 1 then .error .value
  else
    let y := irfftLast (k := 0) ⟨fun _ => x.n, fun i => x.e (i 0)⟩
    .ok ⟨2 * (x.n - 1), fun j => y.data fun _ => j⟩

/-- `jnp.fft.ifft`. -/
noncomputable def ifft1 (n : ℕ) (x : ℤ → ℂ) (j : ℤ) : ℂ := ∑ k ∈ Finset.Ico (0 : ℤ) n, x k * ifftKernel n k j

/-- `truncated_rfft` (spectral/utils.py:24-36); `int(2 / 3 * k)` is the floor. -/
noncomputable def truncatedRfft (u : Vec ℝ) : Except Err (Vec ℂ) := do
  let uhat ← rfft1 u
  return ⟨min uhat.n (2 * uhat.n / 3 + 1), fun k => 2 / 3 * uhat.e k⟩

/-- `padded_irfft` (spectral/utils.py:39-53). -/
noncomputable def paddedIrfft (uhat : Vec ℂ) : Except Err (Vec ℝ) := do
  let x ← irfft1 ⟨3 * uhat.n / 2, fun k => if k < uhat.n then uhat.e k else 0⟩
  return ⟨x.n, fun j => 3 / 2 * x.e j⟩

/-- `jnp.fft.fftshift`: a roll by `n // 2`. -/
def fftshift {K : Type} (n : ℕ) (x : ℤ → K) (i : ℤ) : K := x ((i - (n / 2 : ℕ)) % n)

/-- `jnp.fft.ifftshift`: a roll by `-(n // 2)`. -/
def ifftshift {K : Type} (n : ℕ) (x : ℤ → K) (i : ℤ) : K := x ((i + (n / 2 : ℕ)) % n)

/-- `truncated_fft_2x` (spectral/utils.py:56-68).  The slice is `[final // 2 : (-final + 1) // 2]`, its upper end counted from the
end (0 itself, for `final = 1`, is an absolute position). -/
noncomputable def truncatedFft2x (u : Vec ℂ) : Except Err (Vec ℂ) :=
  if u.n = 0 then .error .value
  else
    let uhat := fftshift u.n (fft1 u.n u.e)
    let final := (u.n + 1) / 2
    let stop : ℤ := (-(final : ℤ) + 1) / 2
    let stop' : ℤ := if stop < 0 then max 0 (u.n + stop) else min stop u.n
    let len := (stop' - (final / 2 : ℕ)).toNat
    .ok ⟨len, ifftshift len fun k => uhat (k + (final / 2 : ℕ)) / 2⟩

/-- `padded_ifft_2x` (spectral/utils.py:71-89). -/
noncomputable def paddedIfft2x (uhat : Vec ℂ) : Except Err (Vec ℂ) :=
  if uhat.n = 0 then .error .value
  else
    let final := uhat.n + 2 * (uhat.n / 2)
    let added := uhat.n / 2
    let shifted := fftshift uhat.n uhat.e
    let smoothed : ℤ → ℂ := fun k => if (added : ℤ) ≤ k ∧ k < added + uhat.n then shifted (k - added) else 0
    .ok ⟨final, fun j => 2 * ifft1 final (ifftshift final smoothed) j⟩

/-- `jnp.fft.fftfreq(n, d)[k]` -/
noncomputable def fftfreq (n : ℕ) (d : ℝ) (k : ℤ) : ℝ := (if k ≤ (n - 1 : ℤ) / 2 then (k : ℝ) else k - n) / (n * d)

/-- `jnp.fft.rfftfreq(n, d)[k]` -/
noncomputable def rfftfreq (n : ℕ) (d : ℝ) (k : ℤ) : ℝ := k / (n * d)

/-- `Grid.rfft_mesh` of a 2-D grid (grids.py:618-638, 655-658): the two wavenumbers of mode `(r, c)`. -/
noncomputable def rfftMesh (g : Grid 2 ℝ) (r c : ℤ) : ℝ × ℝ := (fftfreq (g.shape 0) (g.step 0) r, rfftfreq (g.shape 1) (g.step 1) c)

/-- Shape of `Grid.rfft_mesh` arrays (grids.py:618-638). -/
def rfftMeshShape (g : Grid 2 ℝ) : ℕ × ℕ := (g.shape 0, g.shape 1 / 2 + 1)

/-- `2 * jnp.pi * 1j` -/
noncomputable def twoPiI : ℂ := 2 * Real.pi * Complex.I

/-- `laplace` of `vorticity_to_velocity` (spectral/utils.py:178-181). -/
noncomputable def v2vLaplace (g : Grid 2 ℝ) (r c : ℤ) : ℂ :=
  if r = 0 ∧ c = 0 then 1
  else twoPiI ^ 2 * ((|(rfftMesh g r c).1| ^ 2 : ℝ) + (|(rfftMesh g r c).2| ^ 2 : ℝ))

/-- `vorticity_to_velocity` (spectral/utils.py:154-189), at mode `(r, c)`. -/
noncomputable def vorticityToVelocity (g : Grid 2 ℝ) (w : ℤ → ℤ → ℂ) (r c : ℤ) : ℂ × ℂ :=
  let psi := -1 / v2vLaplace g r c * w r c
  (twoPiI * (rfftMesh g r c).2 * psi, -twoPiI * (rfftMesh g r c).1 * psi)

/-- `spectral_curl_2d` (spectral/utils.py:199-203), at mode `(r, c)` of the grid's mesh. -/
noncomputable def spectralCurl2d (g : Grid 2 ℝ) (v : ℤ → ℤ → ℂ × ℂ) (r c : ℤ) : ℂ :=
  twoPiI * ((v r c).2 * (rfftMesh g r c).1 - (v r c).1 * (rfftMesh g r c).2)

/-- `brick_wall_filter_2d` (spectral/utils.py:128-134), at mode `(r, c)`, `0 ≤ r < n`, `0 ≤ c < m // 2 + 1`. -/
noncomputable def brickWallFilter (n m : ℕ) (r c : ℤ) : ℝ :=
  let cols : ℤ := (2 * (m / 2 + 1) / 3 : ℕ)
  let low : ℤ := ((2 * n / 3) / 2 : ℕ)
  let high : ℤ := -((2 * n / 3 : ℕ) : ℤ) / 2
  if c < cols ∧ (r < low ∨ (if high < 0 then max 0 (n + high) else 0) ≤ r) then 1 else 0

/-- `circular_filter_2d` (spectral/utils.py:92-125), at mode `(r, c)`; `ky[-1, -1]` is the largest wavenumber of the last axis. -/
noncomputable def circularFilter (g : Grid 2 ℝ) (r c : ℤ) : ℝ :=
  let maxK := (rfftMesh g ((g.shape 0 : ℤ) - 1) (g.shape 1 / 2 : ℕ)).2
  let circle := Real.sqrt ((rfftMesh g r c).1 ^ 2 + (rfftMesh g r c).2 ^ 2)
  let cphi := 65 / 100 * maxK
  if circle ≤ cphi then 1 else Real.exp (-(236 / 10) * (circle - cphi) ^ 4)

end JaxCfd
