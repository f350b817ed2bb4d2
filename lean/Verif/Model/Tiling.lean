import Verif.Model.Reshape

/-!
# Tiling of periodic convolutions into a batch dimension (`ml/tiling.py`)

An array `[*spatial, channel]` is a `Chan`, an array `[batch, *spatial, channel]` a `Tiled`.  Ranks are
fixed by the type (`layout` and `padding` have one entry per spatial axis), so the rank checks of the
code are not modelled.
-/

namespace JaxCfd
variable {d : ℕ} {K : Type}

/-- An array of shape `[*shape, chan]`. -/
structure Chan (d : ℕ) (K : Type) where
  shape : Fin d → ℕ
  chan : ℕ
  data : Idx d → ℤ → K

/-- An array of shape `[batch, *shape, chan]`. -/
structure Tiled (d : ℕ) (K : Type) where
  batch : ℕ
  shape : Fin d → ℕ
  chan : ℕ
  data : ℤ → Idx d → ℤ → K

/-- Row-major position of a tile in the batch axis (the pattern `(bx by bz)` of einops). -/
def tileNum (layout : Fin d → ℕ) (t : Idx d) : ℤ := ravelIdx (List.ofFn layout) (List.ofFn t)

/-- The tile at a position of the batch axis. -/
def tileIdx (layout : Fin d → ℕ) (b : ℤ) : Idx d := fun a => (unravelIdx (List.ofFn layout) b).getD a 0

/-- `_prod`: ml/tiling.py:28-33. -/
def layoutSize (layout : Fin d → ℕ) : ℕ := (List.ofFn layout).prod

/-- `_verify_layout` (the size check): ml/tiling.py:36-39. -/
def verifyLayout (y : Tiled d K) (layout : Fin d → ℕ) : Except Err Unit :=
  if y.batch ≠ layoutSize layout then .error .value else .ok ()

/-- The supported numbers of spatial dimensions: the `if len(layout) == 1 .. elif .. else` chains. -/
def tileRank (d : ℕ) : Bool := d == 1 || d == 2 || d == 3

/-- `space_to_batch`: ml/tiling.py:115-127.  einops refuses a length that is no multiple of the layout. -/
def spaceToBatch (x : Chan d K) (layout : Fin d → ℕ) : Except Err (Tiled d K) :=
  if tileRank d = false then .error .notImplemented
  else if ∃ a, layout a = 0 then .error .zeroDivision
  else if ∃ a, x.shape a % layout a ≠ 0 then .error .runtime
  else .ok
    { batch := layoutSize layout
      shape := fun a => x.shape a / layout a
      chan := x.chan
      data := fun b j c => x.data (fun a => tileIdx layout b a * (x.shape a / layout a : ℕ) + j a) c }

/-- `batch_to_space`: ml/tiling.py:130-142.  einops checks the length of the batch axis. -/
def batchToSpace (y : Tiled d K) (layout : Fin d → ℕ) : Except Err (Chan d K) :=
  if tileRank d = false then .error .notImplemented
  else if y.batch ≠ layoutSize layout then .error .runtime
  else .ok
    { shape := fun a => layout a * y.shape a
      chan := y.chan
      data := fun i c => y.data (tileNum layout fun a => i a / y.shape a) (fun a => i a % y.shape a) c }

/-- `_tile_roll`: ml/tiling.py:46-62 (`jnp.roll` along one axis of the tile grid:
entry `t` of the result is entry `t - shift`, cyclically). -/
def tileRoll (y : Tiled d K) (layout : Fin d → ℕ) (shift : ℤ) (ax : Fin d) : Except Err (Tiled d K) := do
  verifyLayout y layout
  if tileRank d = false then .error .notImplemented
  else .ok { y with
    data := fun b j c => y.data (tileNum layout (Function.update (tileIdx layout b) ax
      ((tileIdx layout b ax - shift) % layout ax))) j c }

/-- `lax.dynamic_slice_in_dim` on a spatial axis: a slice longer than the axis is a TypeError, the start
is clamped. -/
def Tiled.dynamicSlice (y : Tiled d K) (start : ℤ) (size : ℕ) (ax : Fin d) : Except Err (Tiled d K) :=
  if y.shape ax < size then .error .type
  else .ok { y with
    shape := Function.update y.shape ax size
    data := fun b j c => y.data b (Function.update j ax
      (j ax + max 0 (min start ((y.shape ax : ℤ) - size)))) c }

/-- `jnp.concatenate([y, z], axis)` on a spatial axis (the other axes agree in all uses). -/
def Tiled.concat (y z : Tiled d K) (ax : Fin d) : Tiled d K :=
  { y with
    shape := Function.update y.shape ax (y.shape ax + z.shape ax)
    data := fun b j c => if j ax < y.shape ax then y.data b j c
      else z.data b (Function.update j ax (j ax - y.shape ax)) c }

/-- `_halo_pad_1d`, the pieces up to the array itself: ml/tiling.py:67-79. -/
def haloLeft (y : Tiled d K) (layout : Fin d → ℕ) (ax : Fin d) (padLeft : ℕ) : Except Err (Tiled d K) :=
  if padLeft = 0 then .ok y else do
    let inputRight ← y.dynamicSlice ((y.shape ax : ℤ) - padLeft) padLeft ax
    let outputLeft ← tileRoll inputRight layout 1 ax
    pure (outputLeft.concat y ax)

/-- `_halo_pad_1d`: ml/tiling.py:65-88. -/
def haloPad1d (y : Tiled d K) (layout : Fin d → ℕ) (ax : Fin d) (pad : ℕ × ℕ) : Except Err (Tiled d K) := do
  let left ← haloLeft y layout ax pad.1
  if pad.2 = 0 then pure left else do
    let inputLeft ← y.dynamicSlice 0 pad.2 ax
    let outputRight ← tileRoll inputLeft layout (-1) ax
    pure (left.concat outputRight ax)

/-- `halo_exchange_pad`: ml/tiling.py:91-112. -/
def haloExchangePad (y : Tiled d K) (layout : Fin d → ℕ) (pad : Fin d → ℕ × ℕ) : Except Err (Tiled d K) := do
  verifyLayout y layout
  (List.finRange d).foldlM (fun out ax => haloPad1d out layout ax (pad ax)) y

/-- `apply_convolution`: ml/tiling.py:145-171. -/
def applyConvolution (conv : Tiled d K → Except Err (Tiled d K)) (x : Chan d K) (layout : Option (Fin d → ℕ))
    (pad : Fin d → ℕ × ℕ) : Except Err (Chan d K) := do
  let layout := layout.getD fun _ => 1
  let tiled ← spaceToBatch x layout
  let padded ← haloExchangePad tiled layout pad
  let convolved ← conv padded
  batchToSpace convolved layout

/-- `lax.conv_general_dilated(y, kernel, window_strides=1, padding='VALID', rhs_dilation=rate)` with
channels last: the cross-correlation of the input with the kernel `[*k, cin, cout]`.  The number of input
channels must match; a kernel larger than the input gives an empty result (natural subtraction). -/
def convGeneralDilated [Semiring K] (k : Fin d → ℕ) (cin cout : ℕ) (kernel : Idx d → ℤ → ℤ → K) (rate : ℕ)
    (y : Tiled d K) : Except Err (Tiled d K) :=
  if y.chan ≠ cin then .error .type
  else .ok
    { batch := y.batch
      shape := fun a => y.shape a + 1 - ((k a - 1) * rate + 1)
      chan := cout
      data := fun b j co => ∑ o ∈ Fintype.piFinset fun a => Finset.range (k a), ∑ ci ∈ Finset.range cin,
        y.data b (fun a => j a + rate * (o a : ℕ)) ci * kernel (fun a => (o a : ℤ)) ci co }

end JaxCfd
