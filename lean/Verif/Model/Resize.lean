import Verif.Model.ArrayUtils
import Verif.Model.Boundaries
import Verif.Model.Seq

/-!
# `jax_cfd/base/resize.py`

The ratio of the grid steps is computed exactly; a ratio that is not a natural number fails the assertion.
-/

namespace JaxCfd
variable {d : ℕ} {K : Type}

section
variable [Field K]

/-- `downsample_staggered_velocity_component` (resize.py:36-73). -/
def downsampleComponent (u : NArr d K) (direction : Fin d) (factor : ℕ) : Except Err (NArr d K) :=
  if factor = 0 then .error .value
  else blockReduce (sliceAx u direction ⟨some ((factor : ℤ) - 1), none, factor⟩) (fun j => if j = direction then 1 else factor) meanN

open Classical in
/-- `downsample_staggered_velocity` (resize.py:187-221) for a tuple of `GridVariable`s, one component per axis.  The factor is
the ratio of the steps along axis 0 only. -/
noncomputable def downsampleStaggeredVelocity (source destination : Grid d K) (velocity : Fin d → GridVariable d K) :
    Except Err (Fin d → GridVariable d K) :=
  if h0 : 0 < d then
    if destination.domain ≠ source.domain then .error .assertion
    else if h : ∃ n : ℕ, destination.step ⟨0, h0⟩ / source.step ⟨0, h0⟩ = n then
      seqFin fun j => do
        if (velocity j).array.grid ≠ source then throw .grid
        else
          let a ← downsampleComponent (velocity j).array.toNArr j h.choose
          return ⟨⟨a, (velocity j).array.offset, destination⟩, (velocity j).bc⟩
    else .error .assertion
  else .error .index

end

end JaxCfd
