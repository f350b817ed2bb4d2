import Verif.Model.LaplacianMatrix
import Mathlib.Analysis.SpecialFunctions.Complex.Circle

/-!
# Fast diagonalization (`jax_cfd/base/fast_diagonalization.py`)

`np.linalg.eigh` is a parameter (`eigh`); what is assumed about it is stated where it is used.  The discrete Fourier transforms
are modelled by their defining sums over the complex numbers.  One dtype (the reals) is modelled: dtype checks
(fast_diagonalization.py:153-154, 221-222) and `_cast` between dtypes are dropped, except that taking the real part is kept.
`func` is a numpy function applied elementwise, so its result has the shape of its argument and the shape checks on it
(fast_diagonalization.py:146-148, 187-189, 216-218) pass; the same numpy function is applied to real eigenvalues (matmul) and
complex ones (fft): it is modelled by one complex function, with the real part of its value on reals.
-/

namespace JaxCfd
variable {d : ℕ} {K : Type}

/-- A linear map along one axis of an array, `y[.., i, ..] = Σ_j x[.., j, ..] w[j, i]`. -/
noncomputable def axisOp [Field K] (n : ℕ) (a : Fin d) (w : ℤ → ℤ → K) (x : Idx d → K) : Idx d → K :=
  fun i => ∑ j ∈ Finset.Ico (0 : ℤ) n, x (Function.update i a j) * w j (i a)

/-- `jnp.tensordot(x, v, axes=(0, c))` for a matrix `v`, with `w j i` its entry at contracted index `j` and remaining index
`i`: the first axis of `x` is contracted and the remaining axis of `v` becomes the last axis of the result.  `n` is the
contracted size, `m` the remaining one. -/
noncomputable def tensordot [Field K] {k : ℕ} (x : NArr (k + 1) K) (n m : ℕ) (w : ℤ → ℤ → K) : NArr (k + 1) K :=
  ⟨fun a => if a = Fin.last k then m else x.shape (a + 1),
   fun i => ∑ j ∈ Finset.Ico (0 : ℤ) n, x.data (fun a => if a = 0 then j else i (a - 1)) * w j (i (Fin.last k))⟩

/-- `np.linalg.eigh`: eigenvalues and the matrix of eigenvectors (in its columns). -/
abbrev EighFn (K : Type) := Mat K → (ℤ → K) × Mat K

/-- The two loops of `_hermitian_matmul_transform.apply` (fast_diagonalization.py:156-163): first contraction with axis 0 of
every eigenvector matrix, multiplication with the diagonal, then contraction with axis 1. -/
noncomputable def matmulLoops [Field K] {k : ℕ} (vs : List (Mat K)) (diagonals : Idx (k + 1) → K) (rhs : NArr (k + 1) K) : NArr (k + 1) K :=
  let out := vs.foldl (fun o v => tensordot o v.rows v.cols fun j i => v.e j i) rhs
  let out : NArr (k + 1) K := ⟨out.shape, fun i => out.data i * diagonals i⟩
  vs.foldl (fun o v => tensordot o v.cols v.rows fun j i => v.e i j) out

/-- The `a`-th operator (all uses are in range). -/
def opAt [Field K] (ops : List (Mat K)) (a : Fin d) : Mat K := ops.getD a ⟨0, 0, fun _ _ => 0⟩

/-- `apply` of `_hermitian_matmul_transform` (fast_diagonalization.py:129-165); `rhs.shape` must be the tuple of operator
sizes (fast_diagonalization.py:151-152), in particular the number of operators is the rank of `rhs`. -/
noncomputable def hermitianMatmul [Field K] (eigh : EighFn K) (func : K → K) (ops : List (Mat K)) :
    {d : ℕ} → NArr d K → Except Err (NArr d K)
  | 0, _ => .error .value
  | _ + 1, rhs =>
      if List.ofFn rhs.shape ≠ ops.map Mat.rows then .error .value
      else .ok (matmulLoops (ops.map fun m => (eigh m).2)
        (fun i => func (∑ a, (eigh (opAt ops a)).1 (i a))) rhs)

/-! ### Fourier transforms -/

/-- `exp(-2πi j k / n)` -/
noncomputable def fftKernel (n : ℕ) (j k : ℤ) : ℂ := Complex.exp (-(2 * Real.pi * Complex.I * j * k / n))

/-- `exp(2πi j k / n) / n` -/
noncomputable def ifftKernel (n : ℕ) (j k : ℤ) : ℂ := Complex.exp (2 * Real.pi * Complex.I * j * k / n) / n

/-- `np.fft.fft` of a vector of length `n`. -/
noncomputable def fft1 (n : ℕ) (x : ℤ → ℂ) (k : ℤ) : ℂ := ∑ j ∈ Finset.Ico (0 : ℤ) n, x j * fftKernel n j k

/-- `np.fft.fftn`: the transform along every axis. -/
noncomputable def fftn (x : NArr d ℂ) : NArr d ℂ :=
  ⟨x.shape, (List.finRange d).foldl (fun y a => axisOp (x.shape a) a (fftKernel (x.shape a)) y) x.data⟩

/-- `np.fft.ifftn`. -/
noncomputable def ifftn (x : NArr d ℂ) : NArr d ℂ :=
  ⟨x.shape, (List.finRange d).foldl (fun y a => axisOp (x.shape a) a (ifftKernel (x.shape a)) y) x.data⟩

/-- `np.fft.rfftn` of a real array: the transform, with only the first `n // 2 + 1` entries of the last axis kept. -/
noncomputable def rfftn {k : ℕ} (x : NArr (k + 1) ℝ) : NArr (k + 1) ℂ :=
  ⟨Function.update x.shape (Fin.last k) (x.shape (Fin.last k) / 2 + 1), (fftn (x.map (fun r : ℝ => (r : ℂ)))).data⟩

/-- `np.fft.irfft` along the last axis with the default output length `n = 2 (m - 1)`: the input is the first half of a
hermitian spectrum; imaginary parts of the first and the last entry are ignored. -/
noncomputable def irfftLast {k : ℕ} (x : NArr (k + 1) ℂ) : NArr (k + 1) ℝ :=
  let n := 2 * (x.shape (Fin.last k) - 1)
  ⟨Function.update x.shape (Fin.last k) n, fun i =>
    ((x.data (Function.update i (Fin.last k) 0)).re +
      (∑ j ∈ Finset.Ico (1 : ℤ) ((n / 2 : ℕ) : ℤ), 2 * ((x.data (Function.update i (Fin.last k) j)) *
        Complex.exp (2 * Real.pi * Complex.I * j * i (Fin.last k) / n)).re) +
      ((x.data (Function.update i (Fin.last k) ((n / 2 : ℕ) : ℤ))).re *
        (-1) ^ (i (Fin.last k)).toNat)) / n⟩

/-- `np.fft.irfftn`: inverse transforms along all axes but the last, then `irfft`. -/
noncomputable def irfftn {k : ℕ} (x : NArr (k + 1) ℂ) : NArr (k + 1) ℝ :=
  irfftLast ⟨x.shape, ((List.finRange k).map Fin.castSucc).foldl
    (fun y a => axisOp (x.shape a) a (ifftKernel (x.shape a)) y) x.data⟩

/-- The complex diagonal of the Fourier implementations (fast_diagonalization.py:182-184, 211-214): `func` of the sums of the
transformed first columns. -/
noncomputable def fftDiagonal (func : ℂ → ℂ) (ops : List (Mat ℝ)) (i : Idx d) : ℂ :=
  func (∑ a, fft1 (opAt ops a).rows (fun j => ((opAt ops a).e j 0 : ℂ)) (i a))

/-- `apply` of `_circulant_fft_transform` (fast_diagonalization.py:175-196). -/
noncomputable def circulantFft (func : ℂ → ℂ) (ops : List (Mat ℝ)) (rhs : NArr d ℝ) : Except Err (NArr d ℝ) :=
  if List.ofFn rhs.shape ≠ ops.map Mat.rows then .error .value
  else .ok ((ifftn ⟨rhs.shape, fun k => fftDiagonal func ops k * (fftn (rhs.map (fun r : ℝ => (r : ℂ)))).data k⟩).map Complex.re)

/-- The shape of the diagonal of `_circulant_rfft_transform`: the last operator contributes `n // 2 + 1` entries. -/
def rfftShape : List ℕ → List ℕ
  | [] => []
  | [n] => [n / 2 + 1]
  | n :: ns => n :: rfftShape ns

/-- `apply` of `_circulant_rfft_transform` (fast_diagonalization.py:199-225).  The shape of `rhs` is not compared with the
operators; the product `diagonals * rfftn(rhs)` is a TypeError for different shapes (broadcasting along axes of size 1 is not
modelled). -/
noncomputable def circulantRfft (func : ℂ → ℂ) (ops : List (Mat ℝ)) : {d : ℕ} → NArr d ℝ → Except Err (NArr d ℝ)
  | 0, _ => .error .value
  | _ + 1, rhs =>
      if List.ofFn (rfftn rhs).shape ≠ rfftShape (ops.map Mat.rows) then .error .type
      else .ok (irfftn ⟨(rfftn rhs).shape, fun k => fftDiagonal func ops k * (rfftn rhs).data k⟩)

/-! ### `transform` -/

/-- The `implementation` argument. -/
inductive Impl where
  | matmul | fft | rfft | other
  deriving DecidableEq, Repr

/-- The default implementation (fast_diagonalization.py:101-108).  `tpu` is `all(device.platform == 'tpu')`.  For an empty list
of operators `max` raises ValueError and `operators[-1]` IndexError. -/
def defaultImpl (tpu : Bool) (sizes : List ℕ) : Except Err Impl :=
  let first : Except Err Impl :=
    if tpu = true then
      match sizes.max? with
      | none => .error .value
      | some m => .ok (if m > 1024 then .rfft else .matmul)
    else .ok .rfft
  match first with
  | .error e => .error e
  | .ok .rfft =>
      match sizes.getLast? with
      | none => .error .index
      | some n => .ok (if n % 2 = 1 then .matmul else .rfft)
  | .ok i => .ok i

/-- The second half of `transform` (fast_diagonalization.py:110-126): the checks of the chosen implementation. -/
noncomputable def transformWith (eigh : EighFn ℝ) (func : ℂ → ℂ) (ops : List (Mat ℝ)) (hermitian circulant : Bool) :
    Impl → Except Err (NArr d ℝ → Except Err (NArr d ℝ))
  | .matmul =>
      if hermitian = false then .error .value
      else if ops = [] then .error .value  -- unpacking zip(*[])
      else .ok (hermitianMatmul eigh (fun x => (func x).re) ops)
  | .fft =>
      if circulant = false then .error .value
      else if ops = [] then .error .type  -- functools.reduce of an empty sequence
      else .ok (circulantFft func ops)
  | .rfft =>
      if circulant = false then .error .value
      else
        match (ops.map Mat.rows).getLast? with
        | none => .error .index
        | some n => if n % 2 = 1 then .error .value else .ok (circulantRfft func ops)
  | .other => .error .value

/-- `transform` (fast_diagonalization.py:28-126): the check of the matrices and the choice of the implementation. -/
noncomputable def transform (tpu : Bool) (eigh : EighFn ℝ) (func : ℂ → ℂ) (ops : List (Mat ℝ)) (hermitian circulant : Bool)
    (implementation : Option Impl) : Except Err (NArr d ℝ → Except Err (NArr d ℝ)) :=
  if ops.any (fun m => decide (m.rows ≠ m.cols)) = true then .error .value
  else
    match implementation with
    | some i => transformWith eigh func ops hermitian circulant i
    | none =>
        match defaultImpl tpu (ops.map Mat.rows) with
        | .error e => .error e
        | .ok i => transformWith eigh func ops hermitian circulant i

/-- The function of `pseudoinverse` (fast_diagonalization.py:260-262). -/
noncomputable def pinvFn (cutoff : ℝ) (v : ℂ) : ℂ := if ‖v‖ > cutoff then 1 / v else 0

/-- `pseudoinverse` (fast_diagonalization.py:228-266); `cutoff` is the given one or `10 * eps` of the dtype. -/
noncomputable def pseudoinverse (tpu : Bool) (eigh : EighFn ℝ) (cutoff : ℝ) (ops : List (Mat ℝ)) (hermitian circulant : Bool)
    (implementation : Option Impl) : Except Err (NArr d ℝ → Except Err (NArr d ℝ)) :=
  transform tpu eigh (pinvFn cutoff) ops hermitian circulant implementation

end JaxCfd
