import Verif.Model.Metrics
import Verif.Model.Interpolation
import Verif.Model.BCUtils
import Verif.Model.SpectralEquations

/-!
# `jax_cfd/ml/encoders.py`, `jax_cfd/ml/decoders.py`

Input trajectories are tuples of arrays of one rank `d + 1`, of which the encoders treat axis 0 as time.  Networks (`towers`) are
parameters.  Arithmetic between arrays of different shapes (broadcasting) is not modelled.
-/

namespace JaxCfd.ML
variable {d : ℕ}

/-- `slice_last_fn` (encoders.py:40, 66, 207, 232, 255): `slice_along_axis(x, 0, -1)`. -/
def sliceLast (x : NArr (d + 1) ℝ) : Except Err (NArr d ℝ) := Metric.takeAx x 0 (-1)

section
variable [HasNan ℝ]

/-- `aligned_array_encoder` (encoders.py:28-53).  `specOffsets`, `specBCs` are `physics_specs.combo_offsets()` and
`physics_specs.combo_boundaries()` if the specification has these methods.  `zip` stops at the shortest tuple. -/
noncomputable def alignedArrayEncoder (g : Grid d ℝ) (specOffsets dataOffsets : Option (List (Fin d → ℚ))) (specBCs : Option (List (BC d ℝ)))
    (inputs : List (NArr (d + 1) ℝ)) : Except Err (List (GridVariable d ℝ)) :=
  let offsets := specOffsets.getD (match dataOffsets with
    | some (o :: os) => o :: os
    | _ => List.ofFn g.cellFaces)
  let bcs := specBCs.getD (List.replicate inputs.length (periodicBC d))
  (inputs.zip (offsets.zip bcs)).mapM fun p => do
    let x ← sliceLast p.1
    p.2.2.imposeBC ⟨x, p.2.1, g⟩

/-- `collocated_to_staggered_encoder` (encoders.py:57-76). -/
noncomputable def collocatedToStaggeredEncoder (g : Grid d ℝ) (inputs : List (NArr (d + 1) ℝ)) : Except Err (List (GridVariable d ℝ)) := do
  let pre ← inputs.mapM fun x => do
    let y ← sliceLast x
    return (⟨⟨y, g.cellCenter, g⟩, periodicBC d⟩ : GridVariable d ℝ)
  (pre.zip (List.ofFn g.cellFaces)).mapM fun p => linear p.1 p.2

/-- `staggered_to_collocated_decoder` (decoders.py:56-67). -/
noncomputable def staggeredToCollocatedDecoder (g : Grid d ℝ) (inputs : List (GridVariable d ℝ)) : Except Err (List (NArr d ℝ)) := do
  let v ← inputs.mapM fun c => linear c g.cellCenter
  return v.map fun x => x.array.toNArr

end

/-- `aligned_array_decoder` (decoders.py:42-52). -/
def alignedArrayDecoder (inputs : List (GridVariable d ℝ)) : List (NArr d ℝ) := inputs.map fun x => x.array.toNArr

/-- `slice_last_state_encoder` (encoders.py:80-90). -/
def sliceLastStateEncoder (timeAxis : ℤ) (inputs : List (NArr (d + 1) ℝ)) : Except Err (List (NArr d ℝ)) :=
  Metric.takeAlongAxis inputs timeAxis (-1)

/-- `jnp.moveaxis(x, a, -1)`. -/
def moveLast (x : NArr (d + 1) ℝ) (a : Fin (d + 1)) : NArr (d + 1) ℝ :=
  ⟨Fin.snoc (α := fun _ => ℕ) (fun b => x.shape (a.succAbove b)) (x.shape a),
   fun i => x.data (a.insertNth (α := fun _ => ℤ) (i (Fin.last d)) fun b => i b.castSucc)⟩

/-- `slice_last_n_state_encoder` (encoders.py:94-106): the slice is taken along axis 0, whatever `time_axis` is. -/
def sliceLastNStateEncoder (n timeAxis : ℤ) (inputs : List (NArr (d + 1) ℝ)) : Except Err (List (NArr (d + 1) ℝ)) :=
  if inputs = [] then .error .value
  else inputs.mapM fun x => do
    let a ← normalizeAxis timeAxis (d + 1)
    return moveLast (sliceAx x 0 ⟨some (-n), none, 1⟩) a

/-- `stack_last_n_state_encoder` (encoders.py:110-124). -/
def stackLastNStateEncoder (n timeAxis : ℤ) (inputs : List (NArr (d + 1) ℝ)) : Except Err (NArr (d + 1) ℝ) := do
  let xs ← sliceLastNStateEncoder n timeAxis inputs
  match xs with
  | [] => .error .value
  | x :: xs => concatN (Fin.last d) x xs

/-- `channels_split_decoder` (decoders.py:71-81): `split_axis(inputs, -1)` of one array (array_utils.py:99-127). -/
def channelsSplitDecoder (x : NArr (d + 1) ℝ) : Except Err (List (NArr d ℝ)) :=
  if x.shape (Fin.last d) = 0 then .error .zeroDivision
  else .ok (List.ofFn fun c : Fin (x.shape (Fin.last d)) =>
    ⟨fun b => x.shape b.castSucc, fun i => x.data (Fin.snoc (α := fun _ => ℤ) i (c : ℤ))⟩)

/-- A network that maps channels to channels: `tower_factory(num_channels, ndim, name)`. -/
abbrev Tower (d : ℕ) := ℕ → NArr (d + 1) ℝ → Except Err (NArr (d + 1) ℝ)

/-- `latent_encoder` (encoders.py:128-166). -/
def latentEncoder (tower : Tower d) (latent : ℕ) (n timeAxis : ℤ) (inputs : List (NArr (d + 1) ℝ)) : Except Err (NArr (d + 1) ℝ) := do
  let x ← stackLastNStateEncoder n timeAxis inputs
  tower latent x

/-- `aligned_latent_encoder` (encoders.py:170-195); a tower without output channels gives the empty tuple. -/
def alignedLatentEncoder (g : Grid d ℝ) (tower : Tower d) (latent : ℕ) (n timeAxis : ℤ) (dataOffsets : Option (List (Fin d → ℚ)))
    (inputs : List (NArr (d + 1) ℝ)) : Except Err (List (GridVariable d ℝ)) := do
  let offsets := (match dataOffsets with
    | some (o :: os) => o :: os
    | _ => List.ofFn g.cellFaces)
  let x ← stackLastNStateEncoder n timeAxis inputs
  let raw ← tower latent x
  let parts := List.ofFn fun c : Fin (raw.shape (Fin.last d)) =>
    (⟨fun b => raw.shape b.castSucc, fun i => raw.data (Fin.snoc (α := fun _ => ℤ) i (c : ℤ))⟩ : NArr d ℝ)
  return (parts.zip offsets).map fun p => ⟨⟨p.1, p.2, g⟩, periodicBC d⟩

/-- `jnp.stack(xs, axis=-1)`. -/
def stackLast : List (NArr d ℝ) → Except Err (NArr (d + 1) ℝ)
  | [] => .error .value
  | x :: xs =>
      if ∀ y ∈ xs, y.shape = x.shape then
        .ok ⟨Fin.snoc (α := fun _ => ℕ) x.shape (xs.length + 1),
          fun i => (((x :: xs)[(i (Fin.last d)).toNat]?).getD x).data fun b => i b.castSucc⟩
      else .error .value

/-- `latent_decoder` (decoders.py:85-116); `num_components or grid.ndim`. -/
def latentDecoder (tower : Tower d) (components : Option ℕ) (x : NArr (d + 1) ℝ) : Except Err (List (NArr d ℝ)) := do
  let y ← tower (match components with
    | some (k + 1) => k + 1
    | _ => d) x
  channelsSplitDecoder y

/-- `aligned_latent_decoder` (decoders.py:120-136). -/
def alignedLatentDecoder (tower : Tower d) (components : Option ℕ) (inputs : List (GridVariable d ℝ)) : Except Err (List (NArr d ℝ)) := do
  let x ← stackLast (inputs.map fun u => u.array.toNArr)
  latentDecoder tower components x

/-! ### Spectral encoders -/

/-- `vorticity_hat` of two frames (encoders.py:212-214, 237-239, 260-262). -/
noncomputable def vorticityHat (g : Grid 2 ℝ) (u v : NArr 2 ℝ) : Except Err (NArr 2 ℂ) :=
  if (rfftn (k := 1) u).shape = rfftShape2 g ∧ (rfftn (k := 1) v).shape = rfftShape2 g then
    .ok ⟨rfftShape2 g, fun i => spectralCurl2d g (fun r c => ((rfftn (k := 1) u).data ![r, c], (rfftn (k := 1) v).data ![r, c])) (i 0) (i 1)⟩
  else .error .type

/-- `u, v = inputs` and the last frames (encoders.py:210-211, 235-236, 258-259). -/
def lastPair (inputs : List (NArr 3 ℝ)) : Except Err (NArr 2 ℝ × NArr 2 ℝ) :=
  match inputs with
  | [u, v] => do
      let u ← sliceLast u
      let v ← sliceLast v
      return (u, v)
  | _ => .error .value

/-- `spectral_vorticity_encoder` (encoders.py:246-265). -/
noncomputable def spectralVorticityEncoder (g : Grid 2 ℝ) (inputs : List (NArr 3 ℝ)) : Except Err (NArr 2 ℂ) := do
  let p ← lastPair inputs
  vorticityHat g p.1 p.2

/-- `vorticity_encoder` (encoders.py:199-219), with the new last axis of size 1. -/
noncomputable def vorticityEncoder (g : Grid 2 ℝ) (inputs : List (NArr 3 ℝ)) : Except Err (NArr 3 ℝ) := do
  let p ← lastPair inputs
  let w ← vorticityHat g p.1 p.2
  stackLast [irfftn (k := 1) w]

/-- `vorticity_velocity_encoder` (encoders.py:223-242). -/
noncomputable def vorticityVelocityEncoder (g : Grid 2 ℝ) (inputs : List (NArr 3 ℝ)) : Except Err (NArr 3 ℝ) := do
  let p ← lastPair inputs
  let w ← vorticityHat g p.1 p.2
  stackLast [p.1, p.2, irfftn (k := 1) w]

/-- `spectral_vorticity_decoder` (decoders.py:160-173). -/
noncomputable def spectralVorticityDecoder (g : Grid 2 ℝ) (w : NArr 2 ℂ) : Except Err (NArr 2 ℝ × NArr 2 ℝ) :=
  if w.shape = rfftShape2 g then
    let v := vorticityToVelocity g fun r c => w.data ![r, c]
    .ok (irfftn (k := 1) ⟨w.shape, fun i => (v (i 0) (i 1)).1⟩, irfftn (k := 1) ⟨w.shape, fun i => (v (i 0) (i 1)).2⟩)
  else .error .type

/-- `vorticity_decoder` (decoders.py:140-156); `jnp.squeeze(axis=-1)` of an axis that has not size 1 is a ValueError. -/
noncomputable def vorticityDecoder (g : Grid 2 ℝ) (x : NArr 3 ℝ) : Except Err (NArr 2 ℝ × NArr 2 ℝ) :=
  if x.shape (Fin.last 2) = 1 then
    spectralVorticityDecoder g (rfftn (k := 1) ⟨fun b => x.shape b.castSucc, fun i => x.data (Fin.snoc (α := fun _ => ℤ) i 0)⟩)
  else .error .value

end JaxCfd.ML
