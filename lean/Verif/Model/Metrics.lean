import Verif.Model.ArrayUtils
import Mathlib.Analysis.SpecialFunctions.Pow.Real

/-!
# `jax_cfd/ml/metrics.py`

Trajectories are tuples of arrays of one rank `d + 1`.  Arithmetic between arrays of different shapes (broadcasting) is not modelled.
An index out of range raises `IndexError` as in NumPy (for JAX arrays it would be clamped).
-/

namespace JaxCfd.Metric
variable {d : ℕ}

/-- Python integer indexing of an axis of size `n`. -/
def pyIndex (n : ℕ) (k : ℤ) : Except Err ℤ :=
  if -(n : ℤ) ≤ k ∧ k < n then .ok (if k < 0 then k + n else k) else .error .index

/-- `x[:, .., k, .., :]` with the integer `k` in the position of one axis. -/
def takeAx (x : NArr (d + 1) ℝ) (ax : Fin (d + 1)) (k : ℤ) : Except Err (NArr d ℝ) := do
  let j ← pyIndex (x.shape ax) k
  return ⟨fun b => x.shape (ax.succAbove b), fun i => x.data (ax.insertNth j i)⟩

/-- `slice_along_axis` with an integer (array_utils.py:43-71); arrays of one rank. -/
def takeAlongAxis (xs : List (NArr (d + 1) ℝ)) (axis k : ℤ) : Except Err (List (NArr d ℝ)) :=
  if xs = [] then .error .value
  else xs.mapM fun x => do
    let ax ← normalizeAxis axis (d + 1)
    takeAx x ax k

/-- `slice_along_axis` with `slice(None, n)` (array_utils.py:43-71); arrays of one rank. -/
def headAlongAxis (xs : List (NArr d ℝ)) (axis : ℤ) (n : Option ℤ) : Except Err (List (NArr d ℝ)) :=
  if xs = [] then .error .value
  else xs.mapM fun x => do
    let ax ← normalizeAxis axis d
    return sliceAx x ax ⟨none, n, 1⟩

/-- `(scale * jnp.square(x - y)).sum()` (metrics.py:41, 53). -/
noncomputable def squares (scale : ℝ) (x y : NArr d ℝ) : Except Err ℝ :=
  if x.shape = y.shape then .ok (∑ i ∈ box x.shape, scale * (x.data i - y.data i) ^ 2) else .error .type

/-- `sum(.. for x, y in zip(trajectory, target))` (metrics.py:41-42, 53-54). -/
noncomputable def sumSquares (scale : ℝ) (xs ys : List (NArr d ℝ)) : Except Err ℝ := do
  let t ← (xs.zip ys).mapM fun xy => squares scale xy.1 xy.2
  return t.sum

/-- `l2_loss_cumulative` (metrics.py:33-42). -/
noncomputable def l2LossCumulative (trajectory target : List (NArr d ℝ)) (n : Option ℤ := none) (scale : ℝ := 1) (timeAxis : ℤ := 0) :
    Except Err ℝ := do
  let x ← headAlongAxis trajectory timeAxis n
  let y ← headAlongAxis target timeAxis n
  sumSquares scale x y

/-- `l2_loss_single_step` (metrics.py:45-54). -/
noncomputable def l2LossSingleStep (trajectory target : List (NArr (d + 1) ℝ)) (n : ℤ) (scale : ℝ := 1) (timeAxis : ℤ := 0) :
    Except Err ℝ := do
  let x ← takeAlongAxis trajectory timeAxis n
  let y ← takeAlongAxis target timeAxis n
  sumSquares scale x y

/-- `jnp.stack` of a list of arrays along a new axis 0 (metrics.py:68-69). -/
def stack : List (NArr d ℝ) → Except Err (NArr (d + 1) ℝ)
  | [] => .error .value
  | x :: xs =>
      if ∀ y ∈ xs, y.shape = x.shape then
        .ok ⟨Fin.cons (xs.length + 1) x.shape, fun i => (((x :: xs)[(i 0).toNat]?).getD x).data fun b => i b.succ⟩
      else .error .value

/-- `x.sum(axis=S, keepdims=True)`: at every index the sum over the entries that agree with it outside `S`. -/
noncomputable def sumAxes (S : Finset (Fin d)) (s : Fin d → ℕ) (f : Idx d → ℝ) (i : Idx d) : ℝ :=
  ∑ j ∈ (box s).filter fun j => ∀ b, b ∉ S → j b = i b, f j

/-- The shape of a sum over the axes `S`; the summed axes are kept with size 1. -/
def keptShape (S : Finset (Fin d)) (s : Fin d → ℕ) : Fin d → ℕ := fun b => if b ∈ S then 1 else s b

/-- `_normalize` (metrics.py:57-59). -/
noncomputable def normalize (x : NArr d ℝ) (S : Finset (Fin d)) : NArr d ℝ :=
  ⟨x.shape, fun i => x.data i / (sumAxes S x.shape (fun j => x.data j ^ 2) i) ^ (1 / 2 : ℝ)⟩

/-- The state axes of `correlation_single_step` (metrics.py:70-72), for nonnegative axis arguments: one less for the axes behind the time
axis, which was removed from the arrays. -/
def stateAxes (ndim timeAxis batchAxis : ℕ) : Finset (Fin ndim) :=
  Finset.univ.filter fun b => ∃ a < ndim, a ≠ timeAxis ∧ a ≠ batchAxis ∧ (b : ℕ) = if a ≤ timeAxis then a else a - 1

/-- `correlation_single_step` (metrics.py:62-75) for nonnegative axis arguments.  `.sum(axis=S).mean()` divides by the number of remaining
entries. -/
noncomputable def correlationSingleStep (trajectory target : List (NArr (d + 1) ℝ)) (n : ℤ) (timeAxis : ℕ := 0) (batchAxis : ℕ := 1) :
    Except Err ℝ := do
  let x ← takeAlongAxis trajectory timeAxis n
  let y ← takeAlongAxis target timeAxis n
  let x ← stack x
  let y ← stack y
  let S := stateAxes (d + 1) timeAxis batchAxis
  let u := normalize x S
  let v := normalize y S
  if x.shape = y.shape then
    .ok ((∑ i ∈ box (keptShape S x.shape), sumAxes S x.shape (fun j => u.data j * v.data j) i) / (box (keptShape S x.shape)).card)
  else .error .type

end JaxCfd.Metric
