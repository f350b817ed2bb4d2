import Verif.Model.Polynomial

/-!
# Spatial derivative layers (`ml/layers.py`)

The neural network (`tower`) is a parameter.
-/

namespace JaxCfd
variable {d : ℕ}

/-- `PolynomialConstraint.__call__` on an array whose last axis holds the inputs: ml/layers.py:527-544. -/
noncomputable def PolyConstraint.applyChan (p : PolyConstraint) (x : Chan d ℝ) : Except Err (Chan d ℝ) :=
  if x.chan ≠ p.nullspace.length then .error .type
  else .ok
    { shape := x.shape
      chan := p.bias.length
      data := fun i c => p.bias.getD c.toNat 0 +
        ((List.zipWith (fun t (r : List ℝ) => t * r.getD c.toNat 0) ((List.range x.chan).map fun k : ℕ => x.data i k) p.nullspace).sum) }

/-- The state of a `SpatialDerivativeFromLogits`. -/
structure SpatialDeriv (d : ℕ) where
  stencilShape : Fin d → ℕ
  roll : Fin d → ℤ
  constraint : PolyConstraint
  patchMethod : String
  tileLayout : Option (Fin d → ℕ)

/-- `SpatialDerivativeFromLogits.__init__`: ml/layers.py:594-613.  `accuracy_order` and `bias_accuracy_order`
keep their default 1 and the bias is the default one. -/
noncomputable def mkSpatialDeriv (solve : List (List ℝ) → List ℝ → Except Err (List ℝ)) (svd : List (List ℝ) → List (List ℝ))
    (stencilShape : Fin d → ℕ) (inputOffset targetOffset : Fin d → ℚ) (orders : Fin d → ℕ) (steps : Fin d → ℝ)
    (patchMethod : String) (tileLayout : Option (Fin d → ℕ)) (method : Method) : Except Err (SpatialDeriv d) := do
  let rs := getRollAndShift inputOffset targetOffset
  let stencils := getStencils stencilShape rs.2 steps
  let constraint ← mkPolyConstraint solve svd (List.ofFn stencils) (List.ofFn orders) method (List.ofFn steps) 1 1 none
  return { stencilShape := stencilShape, roll := rs.1, constraint := constraint, patchMethod := patchMethod, tileLayout := tileLayout }

/-- `SpatialDerivativeFromLogits.extract_patches`: ml/layers.py:628-633. -/
def SpatialDeriv.extractPatches (s : SpatialDeriv d) (inputs : Chan d ℝ) : Except Err (Chan d ℝ) :=
  JaxCfd.extractPatches (jnpRollFlat inputs s.roll) s.stencilShape s.patchMethod s.tileLayout

/-- `SpatialDerivativeFromLogits.__call__`: ml/layers.py:623-626, 634-639. -/
noncomputable def SpatialDeriv.call (s : SpatialDeriv d) (inputs logits : Chan d ℝ) : Except Err (Chan d ℝ) :=
  if (logits.chan : ℤ) ≠ s.constraint.nullspaceSize then .error .value
  else do
    let coefficients ← s.constraint.applyChan logits
    let patches ← s.extractPatches inputs
    applyCoefficients coefficients patches

/-- `jnp.concatenate(.., axis=-1)` of arrays of one shape. -/
def Chan.concat (x : Chan d ℝ) : List (Chan d ℝ) → Except Err (Chan d ℝ)
  | [] => .ok x
  | y :: ys =>
    if y.shape ≠ x.shape then .error .type
    else Chan.concat
      { shape := x.shape
        chan := x.chan + y.chan
        data := fun i c => if c < x.chan then x.data i c else y.data i (c - x.chan) } ys

/-- `SpatialDerivative.__call__` (with `StencilCoefficients.__call__`): ml/layers.py:580-583, 743-758. -/
noncomputable def SpatialDeriv.callTower (s : SpatialDeriv d) (tower : Chan d ℝ → Except Err (Chan d ℝ)) (inputs : Chan d ℝ)
    (auxiliary : List (Chan d ℝ)) : Except Err (Chan d ℝ) := do
  let patches ← s.extractPatches inputs
  let rolled ← Chan.concat (jnpRollFlat inputs s.roll) (auxiliary.map fun a => jnpRollFlat a s.roll)
  let parametrization ← tower rolled
  let coefficients ← s.constraint.applyChan parametrization
  applyCoefficients coefficients patches

/-- `scipy.linalg.block_diag`: the rows of every block, shifted to its columns. -/
def blockDiag : List (List (List ℝ)) → List ℕ → List (List ℝ)
  | b :: bs, n :: ns =>
      (b.map fun r => r ++ List.replicate ns.sum 0) ++ (blockDiag bs ns).map fun r => List.replicate n 0 ++ r
  | _, _ => []

/-- Entries `lo .. hi-1` of the last axis. -/
def Chan.slice (x : Chan d ℝ) (lo hi : ℕ) : Chan d ℝ :=
  { shape := x.shape, chan := min hi x.chan - min lo x.chan, data := fun i c => x.data i (lo + c) }

/-- Product of two arrays of one shape. -/
def Chan.mul (x y : Chan d ℝ) : Except Err (Chan d ℝ) :=
  if x.shape ≠ y.shape ∨ x.chan ≠ y.chan then .error .type
  else .ok { shape := x.shape, chan := x.chan, data := fun i c => x.data i c * y.data i c }

/-- Sum over the last axis, kept with length 1. -/
def Chan.sumLast (x : Chan d ℝ) : Chan d ℝ :=
  { shape := x.shape, chan := 1, data := fun i _ => ∑ c ∈ Finset.range x.chan, x.data i c }

/-- The joint coefficients in `fuse_spatial_derivative_layers`: ml/layers.py:669-694, with
`constrain_with_conv=False`; `space_to_batch` and `batch_to_space` around a pointwise operation cancel (C50)
and are left out, apart from the requirement of one common tile layout. -/
noncomputable def fusedCoefficients (ds : List (SpatialDeriv d)) (logits : Chan d ℝ) : Except Err (Chan d ℝ) :=
  let joint : PolyConstraint :=
    { bias := (ds.map fun s => s.constraint.bias).flatten
      nullspace := blockDiag (ds.map fun s => s.constraint.nullspace) (ds.map fun s => s.constraint.bias.length)
      nullspaceSize := 0 }
  joint.applyChan logits

/-- `fuse_spatial_derivative_layers(derivatives, logits)[k]` applied to `inputs`, where `k` is the position of
the key: ml/layers.py:646-720 (`constrain_with_conv=False`).  No derivatives, or several tile layouts, fail to
unpack (ValueError). -/
noncomputable def fusedDerivative (ds : List (SpatialDeriv d)) (logits : Chan d ℝ) (fusePatches : Bool) (k : Fin ds.length)
    (inputs : Chan d ℝ) : Except Err (Chan d ℝ) := do
  if ∃ s ∈ ds, ∃ s' ∈ ds, s.tileLayout ≠ s'.tileLayout then .error .value
  else
    let all ← fusedCoefficients ds logits
    let sizes : List ℕ := ds.map fun s => (List.ofFn s.stencilShape).prod
    let lo : ℕ := (sizes.take k).sum
    let hi : ℕ := (sizes.take (k + 1)).sum
    if ∃ s ∈ ds, ∃ a, s.roll a ≠ 0 then .error .value
    else if fusePatches then do
      let patches ← fusedExtractPatches inputs (ds.map fun s => s.stencilShape) (ds.get k).tileLayout
      let terms ← Chan.mul all patches
      return (terms.slice lo hi).sumLast
    else do
      let patches ← (ds.get k).extractPatches inputs
      applyCoefficients (all.slice lo hi) patches

end JaxCfd
