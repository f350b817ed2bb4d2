import Verif.Model.Tiling
import Mathlib.Data.Real.Basic
import Mathlib.Data.Rat.Cast.Defs

/-!
# Stencils and patches (`ml/layers_util.py`)
-/

namespace JaxCfd
variable {d : ℕ} {K : Type}

/-- Python `range(lo, hi)`. -/
def pyRange (lo hi : ℤ) : List ℤ := (List.range (hi - lo).toNat).map fun j : ℕ => lo + (j : ℤ)

/-- `itertools.product(*ls)`: the last entry varies fastest. -/
def cartesian {α : Type} : List (List α) → List (List α)
  | [] => [[]]
  | l :: ls => l.flatMap fun x => (cartesian ls).map fun r => x :: r

/-- `get_roll_and_shift`: ml/layers_util.py:232-240. -/
def getRollAndShift (inputOffset targetOffset : Fin d → ℚ) : (Fin d → ℤ) × (Fin d → ℚ) :=
  let delta : Fin d → ℚ := fun a => targetOffset a - inputOffset a
  let roll : Fin d → ℤ := fun a => -⌊delta a⌋
  (roll, fun a => delta a + roll a)

/-- The cells of a 1d stencil relative to the current cell: ml/layers_util.py:268-270. -/
def stencilCells (size : ℕ) : List ℤ :=
  let left : ℤ := -(((size : ℤ) - 1) / 2)
  pyRange left (left + size)

/-- `get_stencils`: ml/layers_util.py:243-272. -/
def getStencils (sizes : Fin d → ℕ) (offset : Fin d → ℚ) (steps : Fin d → ℝ) : Fin d → List ℝ :=
  fun a => (stencilCells (sizes a)).map fun s : ℤ => ((-(offset a) + (s : ℚ) : ℚ) : ℝ) * steps a

/-- `_get_padding`, one axis: ml/layers_util.py:275-298. -/
def getPadding (k : ℕ) : ℕ × ℕ :=
  let padRight := k / 2
  (k - padRight - 1, padRight)

/-- `periodic_convolution` with kernel `[*k, cin, cout]`: ml/layers_util.py:311-328
(`_DIMENSION_NUMBERS` has keys 1, 2, 3). -/
def periodicConvolution [Semiring K] (k : Fin d → ℕ) (cin cout : ℕ) (kernel : Idx d → ℤ → ℤ → K)
    (layout : Option (Fin d → ℕ)) (x : Chan d K) : Except Err (Chan d K) :=
  if tileRank d = false then .error .key
  else applyConvolution (convGeneralDilated k cin cout kernel 1) x layout fun a => getPadding (k a)

/-- `_patch_kernel`: ml/layers_util.py:335-345.  The rows of the identity matrix, each reshaped to the
patch: entry `o` of the kernel for output channel `p` is `eye[p, ravel(o)]`. -/
def patchKernel [Semiring K] (patch : Fin d → ℕ) : Idx d → ℤ → ℤ → K :=
  fun o _ p => if p = ravelIdx (List.ofFn patch) (List.ofFn o) then 1 else 0

/-- `_extract_patches_roll`: ml/layers_util.py:348-363.  `jnp.squeeze` needs a single channel and
`np.stack` at least one shift. -/
def extractPatchesRoll (x : Chan d K) (patch : Fin d → ℕ) : Except Err (Chan d K) :=
  if x.chan ≠ 1 then .error .value
  else
    let shifts : List (List ℤ) := List.ofFn fun a =>
      pyRange (-(patch a : ℤ) / 2 + 1) ((patch a : ℤ) / 2 + 1)
    let rolls : List (List ℤ) := (cartesian shifts).map fun s => s.map fun t => -t
    if rolls = [] then .error .value
    else .ok
      { shape := x.shape
        chan := rolls.length
        data := fun i c => x.data (fun a => (i a - (rolls.getD c.toNat []).getD a 0) % (x.shape a : ℤ)) 0 }

/-- `_extract_patches_conv`: ml/layers_util.py:366-376. -/
def extractPatchesConv [Semiring K] (x : Chan d K) (patch : Fin d → ℕ) (layout : Option (Fin d → ℕ)) : Except Err (Chan d K) :=
  periodicConvolution patch 1 (List.ofFn patch).prod (patchKernel patch) layout x

/-- `extract_patches`: ml/layers_util.py:379-427. -/
def extractPatches [Semiring K] (x : Chan d K) (patch : Fin d → ℕ) (method : String) (layout : Option (Fin d → ℕ)) :
    Except Err (Chan d K) :=
  if method = "roll" then extractPatchesRoll x patch
  else if method = "conv" then extractPatchesConv x patch layout
  else .error .value

/-- `fused_extract_patches`: ml/layers_util.py:433-442.  The kernels are concatenated along the output
channel, which needs at least one kernel and one common shape. -/
def fusedExtractPatches [Semiring K] (x : Chan d K) (patches : List (Fin d → ℕ)) (layout : Option (Fin d → ℕ)) :
    Except Err (Chan d K) :=
  match patches with
  | [] => .error .value
  | k :: ks =>
    if ∃ k' ∈ ks, k' ≠ k then .error .value
    else periodicConvolution k 1 (patches.length * (List.ofFn k).prod)
      (fun o ci p => patchKernel k o ci (p % ((List.ofFn k).prod : ℕ))) layout x

/-- `apply_coefficients`: ml/layers_util.py:446-448. -/
def applyCoefficients [Semiring K] (coefficients patches : Chan d K) : Except Err (Chan d K) :=
  if coefficients.shape ≠ patches.shape ∨ coefficients.chan ≠ patches.chan then .error .type
  else .ok
    { shape := patches.shape
      chan := 1
      data := fun i _ => ∑ c ∈ Finset.range patches.chan, coefficients.data i c * patches.data i c }

/-- `jnp.roll(x, shifts)` **without** `axis`: the array is flattened, rolled by every shift in turn (hence by
their sum) and reshaped back. -/
def jnpRollFlat (x : Chan d K) (shifts : Fin d → ℤ) : Chan d K :=
  let s : List ℕ := List.ofFn x.shape ++ [x.chan]
  { x with data := fun i c =>
      let j := unravelIdx s ((ravelIdx s (List.ofFn i ++ [c]) - (List.ofFn shifts).sum) % (s.prod : ℕ))
      x.data (fun a => j.getD a 0) (j.getD d 0) }

end JaxCfd
