import Verif.Model.Reshape
import Mathlib.Data.Fin.Tuple.Basic
import Mathlib.Data.List.Sort

/-!
# `jax_cfd/base/array_utils.py`: axis utilities

A pytree is the list of its leaves in flattening order (the tree structure is carried along unchanged, so a round trip of the
leaves is a round trip of the tree); leaves may have different ranks.
-/

namespace JaxCfd
variable {d : ℕ} {K : Type}

/-- A leaf: an array of some rank. -/
abbrev AnyArr (K : Type) := Σ d : ℕ, NArr d K

/-- The same leaf. -/
def AnyArr.Eqv (x y : AnyArr K) : Prop := ∃ h : x.1 = y.1, (h ▸ x.2).Eqv y.2

/-- `_normalize_axis` (array_utils.py:34-40). -/
def normalizeAxis (axis : ℤ) (ndim : ℕ) : Except Err (Fin ndim) :=
  if h : -(ndim : ℤ) ≤ axis ∧ axis < ndim then
    .ok ⟨(if axis < 0 then axis + ndim else axis).toNat, by split <;> omega⟩
  else .error .value

/-- Python `slice(start, stop, step)` with a positive step. -/
structure PySlice where
  start : Option ℤ
  stop : Option ℤ
  step : ℕ := 1

/-- A slice bound in an axis of size `n`: negative bounds count from the end, then clipping to `[0, n]`. -/
def clipBound (n : ℕ) (k : ℤ) : ℤ := max 0 (min n (if k < 0 then k + n else k))

/-- First index of a slice of an axis of size `n`. -/
def PySlice.lo (s : PySlice) (n : ℕ) : ℤ := (s.start.map (clipBound n)).getD 0

/-- Upper limit of a slice of an axis of size `n`. -/
def PySlice.hi (s : PySlice) (n : ℕ) : ℤ := (s.stop.map (clipBound n)).getD n

/-- Number of entries of a slice: `ceil((hi - lo) / step)`, at least 0. -/
def PySlice.len (s : PySlice) (n : ℕ) : ℕ := ((s.hi n - s.lo n + s.step - 1) / (s.step : ℤ)).toNat

/-- `x[.., slice, ..]` along one axis. -/
def sliceAx (x : NArr d K) (ax : Fin d) (s : PySlice) : NArr d K :=
  ⟨Function.update x.shape ax (s.len (x.shape ax)),
   fun i => x.data (Function.update i ax (s.lo (x.shape ax) + i ax * s.step))⟩

/-- `slice_along_axis` (array_utils.py:43-71) for slices (indexing by an integer is not modelled).  An empty pytree is rejected
if `expect_same_dims`. -/
def sliceAlongAxis (inputs : List (AnyArr K)) (axis : ℤ) (s : PySlice) (expectSameDims : Bool := true) :
    Except Err (List (AnyArr K)) :=
  if expectSameDims = true ∧ (inputs.map Sigma.fst).dedup.length ≠ 1 then .error .value
  else inputs.mapM fun x => do
    let ax ← normalizeAxis axis x.1
    return ⟨x.1, sliceAx x.2 ax s⟩

/-- `split_along_axis` (array_utils.py:74-96). -/
def splitAlongAxis (inputs : List (AnyArr K)) (splitIdx axis : ℤ) (expectSameDims : Bool := true) :
    Except Err (List (AnyArr K) × List (AnyArr K)) := do
  let a ← sliceAlongAxis inputs axis ⟨some 0, some splitIdx, 1⟩ expectSameDims
  let b ← sliceAlongAxis inputs axis ⟨some splitIdx, none, 1⟩ expectSameDims
  return (a, b)

/-- Entry of the concatenation of `x :: xs` along an axis. -/
def concatData (ax : Fin d) : NArr d K → List (NArr d K) → Idx d → K
  | x, [], i => x.data i
  | x, y :: ys, i => if i ax < x.shape ax then x.data i else concatData ax y ys (Function.update i ax (i ax - x.shape ax))

/-- `jnp.concatenate` of arrays of one rank: all sizes but that of the axis must agree. -/
def concatN (ax : Fin d) (x : NArr d K) (xs : List (NArr d K)) : Except Err (NArr d K) :=
  if ∀ y ∈ xs, ∀ b, b ≠ ax → y.shape b = x.shape b then
    .ok ⟨Function.update x.shape ax (((x :: xs).map fun y => y.shape ax).sum), concatData ax x xs⟩
  else .error .type

/-- The leaf seen as an array of rank `d`. -/
def AnyArr.cast? (d : ℕ) (x : AnyArr K) : Except Err (NArr d K) :=
  if h : x.1 = d then .ok (h ▸ x.2) else .error .type

/-- `jnp.concatenate(args, axis)`. -/
def concatLeaves (axis : ℤ) : List (AnyArr K) → Except Err (AnyArr K)
  | [] => .error .value
  | x :: xs => do
      let ys ← xs.mapM (AnyArr.cast? x.1)
      let ax ← normalizeAxis axis x.1
      let r ← concatN ax x.2 ys
      return ⟨x.1, r⟩

/-- `concat_along_axis` (array_utils.py:130-133): `jax.tree.map` over trees of one structure, here lists of leaves of one
length. -/
def concatAlongAxis (pytrees : List (List (AnyArr K))) (axis : ℤ) : Except Err (List (AnyArr K)) :=
  match pytrees with
  | [] => .error .type
  | t :: ts =>
      if ∀ u ∈ ts, u.length = t.length then
        (List.range t.length).mapM fun k => concatLeaves axis ((t :: ts).filterMap fun u => u[k]?)
      else .error .value

/-- `a.shape[axis]` of a Python tuple, negative positions counting from the end. -/
def shapeAt (x : AnyArr K) (axis : ℤ) : Except Err ℕ :=
  match normalizeAxis axis x.1 with
  | .ok a => .ok (x.2.shape a)
  | .error _ => .error .index

/-- Entry `k` of `jnp.split(x, n, axis)` for an axis of size `n`. -/
def pieceAx (x : NArr d K) (ax : Fin d) (k : ℕ) : NArr d K :=
  ⟨Function.update x.shape ax 1, fun i => x.data (Function.update i ax (i ax + k))⟩

/-- `jnp.squeeze(x, axis)` of an axis of size 1. -/
def squeezeAx : {d : ℕ} → NArr d K → Fin d → AnyArr K
  | 0, _, a => a.elim0
  | k + 1, x, a => ⟨k, fun b => x.shape (a.succAbove b), fun i => x.data (a.insertNth 0 i)⟩

/-- Piece `k` of the leaf `x` in `split_axis` (array_utils.py:124-126). -/
def splitPiece (axis : ℤ) (keepDims : Bool) (k : ℕ) (x : AnyArr K) : Except Err (AnyArr K) := do
  let ax ← normalizeAxis axis x.1
  return if keepDims then ⟨x.1, pieceAx x.2 ax k⟩ else squeezeAx (pieceAx x.2 ax k) ax

/-- `split_axis` (array_utils.py:99-127); `jnp.split` into 0 sections is a division by zero. -/
def splitAxis (inputs : List (AnyArr K)) (axis : ℤ) (keepDims : Bool := false) : Except Err (List (List (AnyArr K))) := do
  let sizes ← inputs.mapM fun x => shapeAt x axis
  match sizes.dedup with
  | [n] => if n = 0 then .error .zeroDivision else (List.range n).mapM fun k => inputs.mapM (splitPiece axis keepDims k)
  | _ => .error .value

/-- `unstack` (array_utils.py:293-296). -/
def unstack (x : AnyArr K) (axis : ℤ) : Except Err (List (AnyArr K)) := do
  let n ← shapeAt x axis
  if n = 0 then .error .zeroDivision else (List.range n).mapM fun k => splitPiece axis false k x

/-- The alternating list `[q0, r0, q1, r1, ..]`. -/
def interleave {α : Type} : List α → List α → List α
  | q :: qs, r :: rs => q :: r :: interleave qs rs
  | _, _ => []

/-- `block_reduce` (array_utils.py:136-165) with a block size for every axis and a reduction to scalars.  The nested `vmap`s
apply the reduction to the axes `1, 3, ..` of the reshaped array for every index of the axes `0, 2, ..`. -/
def blockReduce (x : NArr d K) (block : Fin d → ℕ) (reduction : NArr d K → K) : Except Err (NArr d K) := do
  if ∃ a, block a = 0 then throw .zeroDivision
  else if ∃ a, x.shape a % block a ≠ 0 then throw .value
  else do
    let y ← x.toL.reshape (interleave (List.ofFn fun a => x.shape a / block a) (List.ofFn block))
    return ⟨fun a => x.shape a / block a, fun q => reduction ⟨block, fun r => y.data (interleave (List.ofFn q) (List.ofFn r))⟩⟩

/-- `jnp.mean` of an array. -/
def meanN [Field K] (x : NArr d K) : K := x.sum / ((∏ a, x.shape a : ℕ) : K)

end JaxCfd
