import Verif.Model.Encoders
import Verif.Model.FiniteDifferences

/-!
# `jax_cfd/ml/networks.py` and the learned correctors of `jax_cfd/ml/equations.py`

States are tuples (lists) of `GridVariable`s, networks are parameters (`Tower`), `hk.to_module` is ignored.
-/

namespace JaxCfd.ML
variable {d : ℕ}

/-- `stack_aligned_field` (networks.py:151-164): `expand_dims` and `concat_along_axis` on a new last axis are `jnp.stack`. -/
def stackAlignedField (inputs : List (GridVariable d ℝ)) : Except Err (NArr (d + 1) ℝ) :=
  stackLast (inputs.map fun u => u.array.toNArr)

/-- `jnp.roll(x, k, axis)` along a spatial axis of an array with channels. -/
def rollAx (x : NArr (d + 1) ℝ) (k : ℤ) (a : Fin d) : NArr (d + 1) ℝ :=
  ⟨x.shape, fun i => x.data (Function.update i a.castSucc ((i a.castSucc - k) % (x.shape a.castSucc : ℤ)))⟩

/-- `shifts_and_axis` (networks.py:137-139) without the final `[0, 0]`: all shifts but zero, for each shift all axes. -/
def shiftsAndAxes (d n : ℕ) : List (ℤ × Fin d) :=
  (((List.range (2 * n + 1)).map fun j : ℕ => (j : ℤ) - n).filter fun s => decide (s ≠ 0)).flatMap fun s => (List.finRange d).map fun a => (s, a)

/-- `stack_aligned_field_with_neighbors` (networks.py:128-148); the roll by `[0, 0]` is the identity. -/
def stackWithNeighbors (n : ℕ) (inputs : List (GridVariable d ℝ)) : Except Err (NArr (d + 1) ℝ) := do
  let x ← stackAlignedField inputs
  match (shiftsAndAxes d n).map (fun p => rollAx x p.1 p.2) ++ [x] with
  | [] => .error .value
  | y :: ys => concatN (Fin.last d) y ys

section
variable [HasNan ℝ]

/-- `split_to_aligned_field` (networks.py:26-56).  `specOffsets` and `specBCs` are `physics_specs.combo_offsets()` and
`physics_specs.combo_boundaries()` if they exist; an empty tuple of `network_offsets` is treated like `None`. -/
noncomputable def splitToAlignedField (g : Grid d ℝ) (specOffsets : Option (List (Fin d → ℚ))) (specBCs : Option (List (BC d ℝ)))
    (networkOffsets : Option (List (Fin d → ℚ))) (x : NArr (d + 1) ℝ) : Except Err (List (GridVariable d ℝ)) := do
  let dataOffsets := specOffsets.getD (List.ofFn g.cellFaces)
  let bcs := specBCs.getD (List.replicate d (periodicBC d))
  let offsets := (match networkOffsets with
    | some (o :: os) => o :: os
    | _ => dataOffsets)
  let parts ← channelsSplitDecoder x
  let fields := (parts.zip (offsets.zip bcs)).map fun p => (⟨⟨p.1, p.2.1, g⟩, p.2.2⟩ : GridVariable d ℝ)
  (fields.zip dataOffsets).mapM fun p => linear p.1 p.2

/-- `interpolate_gridvar` (networks.py:59-82). -/
noncomputable def interpolateGridvar (g : Grid d ℝ) (specOffsets finalOffsets : Option (List (Fin d → ℚ)))
    (process : List (GridVariable d ℝ) → Except Err (List (GridVariable d ℝ))) (inputs : List (GridVariable d ℝ)) :
    Except Err (List (GridVariable d ℝ)) := do
  let offsets := (match finalOffsets with
    | some (o :: os) => o :: os
    | _ => specOffsets.getD (List.ofFn g.cellFaces))
  let xs ← process inputs
  (xs.zip offsets).mapM fun p => linear p.1 p.2

end

/-- `flux_offsets` (networks.py:94-100): for every axis `i`, the cell faces moved by half a cell along `i`. -/
def fluxOffsets (g : Grid d ℝ) : List (Fin d → ℚ) :=
  (List.finRange d).flatMap fun i => (List.finRange d).map fun j => Function.update (g.cellFaces j) i (g.cellFaces j i + 1 / 2)

/-- `tuple(zip(*[iter(xs)] * d))` (networks.py:116): consecutive groups of `d`, an incomplete last group is dropped.  For `d = 0` it is empty. -/
def groupsOf {α : Type} (k : ℕ) : ℕ → List α → List (List α)
  | 0, _ => []
  | m + 1, xs => if k = 0 ∨ xs.length < k then [] else xs.take k :: groupsOf k m (xs.drop k)

/-- `aligned_field_from_split_divergence` (networks.py:85-125). -/
noncomputable def alignedFieldFromSplitDivergence [HasNan ℝ] (g : Grid d ℝ) (x : NArr (d + 1) ℝ) : Except Err (List (GridVariable d ℝ)) := do
  let parts ← channelsSplitDecoder x
  let arrays := (parts.zip (fluxOffsets g)).map fun p => (⟨p.1, p.2, g⟩ : GridArray d ℝ)
  let rows := groupsOf d arrays.length arrays
  (List.finRange d).mapM fun i =>
    match rows[i.1]? with
    | none => .error .index
    | some row => do
        let r ← divergence (row.map fun u => (⟨u, periodicBC d⟩ : GridVariable d ℝ))
        return ⟨gmap (fun y => -y) r, periodicBC d⟩

/-- `tower_module` (networks.py:167-190). -/
def towerModule {A B : Type} (tower : Tower d) (pre : A → Except Err (NArr (d + 1) ℝ)) (post : NArr (d + 1) ℝ → Except Err B)
    (channels : Option ℕ) (x : A) : Except Err B := do
  let y ← pre x
  let z ← tower (channels.getD (y.shape (Fin.last d))) y
  post z

/-- `velocity_corrector_network` (networks.py:215-230). -/
noncomputable def velocityCorrector [HasNan ℝ] (g : Grid d ℝ) (specOffsets : Option (List (Fin d → ℚ))) (specBCs : Option (List (BC d ℝ)))
    (tower : Tower d) : List (GridVariable d ℝ) → Except Err (List (GridVariable d ℝ)) :=
  towerModule tower stackAlignedField (splitToAlignedField g specOffsets specBCs none) (some d)

/-- `flux_corrector_network` (networks.py:233-249). -/
noncomputable def fluxCorrector [HasNan ℝ] (g : Grid d ℝ) (tower : Tower d) (pre : List (GridVariable d ℝ) → Except Err (NArr (d + 1) ℝ) := stackAlignedField) :
    List (GridVariable d ℝ) → Except Err (List (GridVariable d ℝ)) :=
  towerModule tower pre (alignedFieldFromSplitDivergence g) (some (d ^ 2))

/-- `velocity_corrector_network_w_boundaries` (networks.py:193-212).  The network maps tuples of variables to tuples of variables;
`process_fn` defaults to `_identity`, a function of three arguments, so calling it with one raises TypeError. -/
noncomputable def velocityCorrectorWithBoundaries [HasNan ℝ] (g : Grid d ℝ) (specOffsets : Option (List (Fin d → ℚ))) (networkOffsets : List (Fin d → ℚ))
    (net : List (GridVariable d ℝ) → Except Err (List (GridVariable d ℝ)))
    (process : Option (List (GridVariable d ℝ) → Except Err (List (GridVariable d ℝ)))) (x : List (GridVariable d ℝ)) :
    Except Err (List (GridVariable d ℝ)) := do
  let y ← interpolateGridvar g specOffsets (some networkOffsets) (process.getD fun _ => .error .type) x
  let z ← net y
  interpolateGridvar g specOffsets none pure z

/-! ### Learned correctors -/

open Classical in
/-- `lambda x, y: x + c * y` on one pair of variables under `jax.tree.map`: offset, grid and boundary condition are part of the tree structure,
which must be the same; arrays of different shapes are not broadcast. -/
noncomputable def addScaled (c : ℝ) (x y : GridVariable d ℝ) : Except Err (GridVariable d ℝ) :=
  if x.array.offset = y.array.offset ∧ x.array.grid = y.array.grid ∧ x.bc = y.bc then
    if x.array.shape = y.array.shape then .ok ⟨⟨⟨x.array.shape, fun i => x.array.data i + c * y.array.data i⟩, x.array.offset, x.array.grid⟩, x.bc⟩
    else .error .type
  else .error .value

/-- `jax.tree.map(lambda x, y: x + c * y, next_state, corrections)` (equations.py:225, 245, 265). -/
noncomputable def addCorrections (c : ℝ) (next corr : List (GridVariable d ℝ)) : Except Err (List (GridVariable d ℝ)) :=
  if next.length = corr.length then (next.zip corr).mapM fun p => addScaled c p.1 p.2 else .error .value

/-- A time step of a state. -/
abbrev StepFn (d : ℕ) := List (GridVariable d ℝ) → Except Err (List (GridVariable d ℝ))

/-- `learned_corrector` (equations.py:209-227): `x + y`. -/
noncomputable def learnedCorrector (base corrector : StepFn d) : StepFn d := fun s => do
  let n ← base s
  let c ← corrector n
  addCorrections 1 n c

/-- `learned_corrector_v2` (equations.py:231-247). -/
noncomputable def learnedCorrectorV2 (dt : ℝ) (base corrector : StepFn d) : StepFn d := fun s => do
  let n ← base s
  let c ← corrector s
  addCorrections dt n c

/-- `learned_corrector_v3` (equations.py:251-267). -/
noncomputable def learnedCorrectorV3 (dt : ℝ) (base corrector : StepFn d) : StepFn d := fun s => do
  let n ← base s
  let c ← corrector (s ++ n)
  addCorrections dt n c

end JaxCfd.ML
