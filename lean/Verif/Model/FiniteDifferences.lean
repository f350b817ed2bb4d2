import Verif.Model.GridCtor
import Verif.Model.Boundaries

/-!
# `jax_cfd/base/finite_differences.py`

A sequence of `d` variables is a function on `Fin d`, except in `divergence`, `centered_divergence` and the curls,
which take sequences of arbitrary length and check it.
-/

namespace JaxCfd
variable {d : ℕ} {K : Type} [Field K] [HasNan K] [DecidableEq K]

/-- `stencil_sum` (finite_differences.py:44-54). -/
def stencilSum (us : List (GridArray d K)) : Except Err (GridArray d K) := do
  let s ← uniqueOr .type (fun u : GridArray d K => u.shape) us
  let g ← consistentGrid us
  return ⟨⟨s, fun i => (us.map fun u => u.data i).sum⟩, averagedOffset us, g⟩

/-- `central_difference(u, axis)` (finite_differences.py:74-81), one axis. -/
def centralDifference (u : GridVariable d K) (ax : Fin d) : Except Err (GridArray d K) := do
  let p ← u.shift 1 ax
  let m ← u.shift (-1) ax
  let diff ← stencilSum [p, gmap (fun x => -x) m]
  return gmap (fun x => x / (2 * u.array.grid.step ax)) diff

/-- `backward_difference(u, axis)` (finite_differences.py:95-102), one axis. -/
def backwardDifference (u : GridVariable d K) (ax : Fin d) : Except Err (GridArray d K) := do
  let m ← u.shift (-1) ax
  let diff ← stencilSum [u.array, gmap (fun x => -x) m]
  return gmap (fun x => x / u.array.grid.step ax) diff

/-- `forward_difference(u, axis)` (finite_differences.py:117-124), one axis. -/
def forwardDifference (u : GridVariable d K) (ax : Fin d) : Except Err (GridArray d K) := do
  let p ← u.shift 1 ax
  let diff ← stencilSum [p, gmap (fun x => -x) u.array]
  return gmap (fun x => x / u.array.grid.step ax) diff

/-- `forward_difference(u)` with `axis=None` (finite_differences.py:119-122): all axes. -/
def forwardDifferences (u : GridVariable d K) : Except Err (Fin d → GridArray d K) :=
  seqFin fun a => forwardDifference u a

/-- `backward_difference(u)` with `axis=None` (finite_differences.py:97-100). -/
def backwardDifferences (u : GridVariable d K) : Except Err (Fin d → GridArray d K) :=
  seqFin fun a => backwardDifference u a

/-- `central_difference(u)` with `axis=None` (finite_differences.py:76-79). -/
def centralDifferences (u : GridVariable d K) : Except Err (Fin d → GridArray d K) :=
  seqFin fun a => centralDifference u a

/-- One iteration of the loop of `laplacian` (finite_differences.py:131-132). -/
def laplacianAxis (u : GridVariable d K) (r : GridArray d K) (ax : Fin d) : Except Err (GridArray d K) := do
  let m ← u.shift (-1) ax
  let p ← u.shift 1 ax
  let s ← stencilSum [m, p]
  gmap2 (· + ·) r (gmap (fun x => x * (1 / u.array.grid.step ax) ^ 2) s)

/-- `laplacian` (finite_differences.py:127-133). -/
def laplacian (u : GridVariable d K) : Except Err (GridArray d K) :=
  (List.finRange d).foldlM (laplacianAxis u)
    (gmap (fun x => -2 * x * ∑ a, (1 / u.array.grid.step a) ^ 2) u.array)

/-- Python `sum(xs)` of a sequence of GridArrays: `0 + xs[0] + xs[1] + ...`.  (An empty sum is the integer 0, which is
not a GridArray; no modelled caller reaches it.) -/
def sumArrays : List (GridArray d K) → Except Err (GridArray d K)
  | [] => .error .type
  | x :: xs => xs.foldlM (fun acc y => gmap2 (· + ·) acc y) (gmap (fun v => 0 + v) x)

/-- `divergence` (finite_differences.py:136-143). -/
def divergence (v : List (GridVariable d K)) : Except Err (GridArray d K) := do
  let _ ← consistentGrid (v.map (·.array))
  if h : v.length = d then do
    let diffs ← seqFin fun a : Fin d => backwardDifference (v[a.1]'(by rw [h]; exact a.2)) a
    sumArrays (List.ofFn diffs)
  else .error .value

/-- `centered_divergence` (finite_differences.py:146-153). -/
def centeredDivergence (v : List (GridVariable d K)) : Except Err (GridArray d K) := do
  let _ ← consistentGrid (v.map (·.array))
  if h : v.length = d then do
    let diffs ← seqFin fun a : Fin d => centralDifference (v[a.1]'(by rw [h]; exact a.2)) a
    sumArrays (List.ofFn diffs)
  else .error .value

/-- `curl_2d` (finite_differences.py:186-193), on a two-dimensional grid (the rank check is enforced by the
type). -/
def curl2d (v : List (GridVariable 2 K)) : Except Err (GridArray 2 K) :=
  match v with
  | [v0, v1] => do
      let _ ← consistentGrid [v0.array, v1.array]
      let a ← forwardDifference v1 0
      let b ← forwardDifference v0 1
      gmap2 (· - ·) a b
  | _ => .error .value

/-- One component `forward_difference(p, a) - forward_difference(q, b)` of `curl_3d`
(finite_differences.py:204-207). -/
def curlComponent (p q : GridVariable 3 K) (a b : Fin 3) : Except Err (GridArray 3 K) := do
  let x ← forwardDifference p a
  let y ← forwardDifference q b
  gmap2 (· - ·) x y

/-- `curl_3d` (finite_differences.py:196-207). -/
def curl3d (v : List (GridVariable 3 K)) : Except Err (GridArray 3 K × GridArray 3 K × GridArray 3 K) :=
  match v with
  | [v0, v1, v2] => do
      let _ ← consistentGrid [v0.array, v1.array, v2.array]
      let x ← curlComponent v2 v1 1 2
      let y ← curlComponent v0 v2 2 0
      let z ← curlComponent v1 v0 0 1
      return (x, y, z)
  | _ => .error .value

end JaxCfd
