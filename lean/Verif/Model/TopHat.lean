import Verif.Model.Resize
import Verif.Model.Interpolation

/-!
# `jax_cfd/base/resize.py`: `top_hat_downsample`

The ratios of the grid steps are computed exactly.  The filter sizes are natural numbers (the assertion that they are whole
numbers is part of their type).
-/

namespace JaxCfd
variable {d : ℕ} {K : Type} [Field K] [HasNan K]

/-- `jnp.convolve(arr, ones(f) / f, 'valid')` along one axis, vmapped over the others (resize.py:150-158).  The filter is never
longer than the padded array in `top_hat_downsample`. -/
def movingAverage (x : NArr d K) (ax : Fin d) (f : ℕ) : NArr d K :=
  ⟨Function.update x.shape ax (x.shape ax + 1 - f),
   fun i => ∑ k ∈ Finset.Ico (0 : ℤ) f, x.data (Function.update i ax (i ax + k)) / (f : K)⟩

/-- `start`, `end` and the stride of the subsampling (resize.py:159-175); `n` is the size of the filtered array. -/
def combSlice (offset : ℚ) (factor filter n : ℕ) : Except Err PySlice :=
  if filter > 1 then
    if offset = 0 then .ok ⟨some 0, some ((n : ℤ) - 1), factor⟩
    else if offset = 1 / 2 then .ok ⟨some ((factor / 2 : ℕ) : ℤ), none, factor⟩
    else if offset = 1 then .ok ⟨some (factor : ℤ), none, factor⟩
    else .error .notImplemented
  else .ok ⟨some 0, none, factor⟩

/-- One iteration of the loop over axes (resize.py:139-181). -/
def topHatAxis (bc : BC d K) (source destination : Grid d K) (offset : Fin d → ℚ) (factor filter : Fin d → ℕ)
    (c : GridArray d K) (ax : Fin d) : Except Err (GridArray d K) := do
  let c1 ← bc.pad c (.one ((filter ax / 2 : ℕ) : ℤ)) ax .mirror
  let c2 ← bc.pad c1 (.one (-((filter ax / 2 : ℕ) : ℤ))) ax .mirror
  let a := movingAverage c2.toNArr ax (filter ax)
  let s ← combSlice (offset ax) (factor ax) (filter ax) (a.shape ax)
  return ⟨sliceAx a ax s, Function.update c.offset ax (offset ax),
    ⟨Function.update c.grid.shape ax (destination.shape ax), source.domain⟩⟩

/-- `center_offset` (resize.py:134-135). -/
def centerOffset (offset : Fin d → ℚ) (filter : Fin d → ℕ) : Fin d → ℚ :=
  fun a => if filter a > 1 then 1 / 2 else offset a

open Classical in
/-- One variable (resize.py:128-182): interpolated linearly to the centers, filtered and subsampled axis by axis. -/
noncomputable def topHatOne (source destination : Grid d K) (factor filter : Fin d → ℕ) (c : GridVariable d K) :
    Except Err (GridVariable d K) :=
  if c.array.grid ≠ source then .error .grid
  else do
    let cc ← linear c (centerOffset c.array.offset filter)
    let r ← (List.finRange d).foldlM
      (topHatAxis c.bc source destination c.array.offset factor filter) cc.array
    return ⟨r, c.bc⟩

/-- `acceptable_filter` (resize.py:119). -/
def acceptableFilter (f : ℕ) : Prop := f % 2 = 0 ∨ f = 1

instance : DecidablePred acceptableFilter := fun f => by unfold acceptableFilter; infer_instance

/-- The checks of factors and filter sizes and the loop over the variables (resize.py:112-115, 119-184), with given factors.
`none` is the default `filter_size`, the factors themselves. -/
noncomputable def topHatWith (source destination : Grid d K) (vars : List (GridVariable d K))
    (filterSize : Option (Fin d → ℕ)) (factor : Fin d → ℕ) : Except Err (List (GridVariable d K)) :=
  if ¬ ∀ a, acceptableFilter (filterSize.getD factor a) then .error .assertion
  else if ¬ ∀ a, acceptableFilter (factor a) then .error .assertion
  else if ¬ ∀ a, factor a ≤ filterSize.getD factor a then .error .assertion
  else vars.mapM (topHatOne source destination factor (filterSize.getD factor))

open Classical in
/-- `top_hat_downsample` (resize.py:77-184).  A step ratio that is not a natural number fails the assertion (resize.py:117).  A
factor 0 (a destination grid of step 0) is not a case of interest: Python fails in `slice`, the model returns a value. -/
noncomputable def topHatDownsample (source destination : Grid d K) (vars : List (GridVariable d K))
    (filterSize : Option (Fin d → ℕ) := none) : Except Err (List (GridVariable d K)) :=
  if destination.domain ≠ source.domain then .error .assertion
  else if h : ∀ a, ∃ n : ℕ, destination.step a / source.step a = n then
    topHatWith source destination vars filterSize fun a => (h a).choose
  else .error .assertion

end JaxCfd
