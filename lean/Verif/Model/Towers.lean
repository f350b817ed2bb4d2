import Verif.Model.PeriodicConv
import Verif.Model.Boundaries
import Mathlib.Data.Real.Basic

/-!
# Towers: the neural networks of `ml/towers.py`

A tower maps arrays with channels to arrays with channels.  Weights and biases are arbitrary parameters, one pair per convolution; the number of input
channels of a convolution is the one of the array it is applied to (Haiku creates the weights on the first call).  `hk.to_module`, `jax.named_call` and the
names of modules are not modelled.  Nonlinearities are functions of one entry, as all of `ml/nonlinearities.py:8-13` are.
-/

namespace JaxCfd
variable {d : ℕ} {K : Type}

/-- Every `s`-th window of a convolution: `window_strides=s` of `lax.conv_general_dilated`. -/
def Tiled.every (s : ℕ) (z : Tiled d K) : Tiled d K :=
  { z with shape := fun a => (z.shape a + (s - 1)) / s, data := fun b j c => z.data b (fun a => s * j a) c }

/-- `hk.ConvND(.., padding='VALID', rate=rate, stride=stride)`. -/
def hkConvStrided [Semiring K] (k : Fin d → ℕ) (cin cout : ℕ) (w : Idx d → ℤ → ℤ → K) (b : ℤ → K) (rate stride : ℕ) (y : Tiled d K) :
    Except Err (Tiled d K) :=
  if stride = 0 then .error .value else (hkConv k cin cout w b rate y).map (Tiled.every stride)

/-- `PeriodicConvGeneral` without tiles and with a `stride` among its `conv_kwargs`: ml/layers.py:28-66. -/
def periodicConvStrided [Semiring K] (k : Fin d → ℕ) (cin cout : ℕ) (w : Idx d → ℤ → ℤ → K) (b : ℤ → K) (rate stride : ℕ) (x : Chan d K) :
    Except Err (Chan d K) :=
  applyConvolution (hkConvStrided k cin cout w b rate stride) x none fun a => periodicConvPadding (k a) rate

/-- A network on arrays with channels. -/
abbrev Net (d : ℕ) := Chan d ℝ → Except Err (Chan d ℝ)

/-- The trainable parameters of one convolution: weights `w[offset, input channel, output channel]` and bias. -/
structure ConvParams (d : ℕ) where
  w : Idx d → ℤ → ℤ → ℝ
  b : ℤ → ℝ

/-- A `conv_module`: parameters, output channels, kernel shape, rate and stride. -/
abbrev ConvModule (d : ℕ) := ConvParams d → ℕ → (Fin d → ℕ) → ℕ → ℕ → Net d

/-- `periodic_convolution`: ml/towers.py:29-37 (a KeyError from `PERIODIC_CONV_MODULES`, ml/towers.py:18-21, for other dimensions). -/
def periodicConvModule : ConvModule d := fun p cout k rate stride x =>
  if tileRank d = false then .error .key else periodicConvStrided k x.chan cout p.w p.b rate stride x

/-- `periodic_transpose_convolution`: ml/towers.py:40-52; `rate=None` is not modelled (it behaves like 1). -/
def periodicTransposeConvolution : ConvModule d := fun p cout k rate stride x =>
  if rate ≠ 1 then .error .value
  else if tileRank d = false then .error .key
  else periodicConvTranspose k x.chan cout p.w p.b stride none x

/-- A function of single entries applied to an array (the nonlinearities of `ml/nonlinearities.py:8-13`). -/
def Chan.map (φ : ℝ → ℝ) (x : Chan d ℝ) : Chan d ℝ := { x with data := fun i c => φ (x.data i c) }

/-- `fixed_scale`: ml/towers.py:68-74. -/
def fixedScale (one : ℝ) : Net d := fun x => .ok { x with data := fun i c => x.data i c * one }

open Classical in
/-- The least and the greatest entry of a channel over the spatial axes; ValueError if there is none. -/
noncomputable def channelRange (x : Chan d ℝ) (c : ℤ) : Except Err (ℝ × ℝ) :=
  if h : (box x.shape).Nonempty then .ok ((box x.shape).inf' h fun i => x.data i c, (box x.shape).sup' h fun i => x.data i c)
  else .error .value

open Classical in
/-- The formula of `rescale_to_range`: ml/layers.py:392-396.  Dividing by the scale 0 of a constant channel gives `0/0`, NaN; with
`max_value = min_value` the scale is infinite and the quotient 0. -/
noncomputable def rescaleEntry [HasNan ℝ] (lo hi mn mx v : ℝ) : ℝ :=
  if mx = mn then HasNan.nan else if hi = lo then lo else (v - mn) / ((mx - mn) / (hi - lo)) + lo

/-- `rescale_to_range` over all spatial axes: ml/layers.py:372-396, as used by `scale_to_range`, ml/towers.py:88-110. -/
noncomputable def scaleToRange [HasNan ℝ] (lo hi : ℝ) : Net d := fun x =>
  if (box x.shape).Nonempty then
    .ok { x with data := fun i c => match channelRange x c with
      | .ok (mn, mx) => rescaleEntry lo hi mn mx (x.data i c)
      | .error _ => 0 }
  else .error .value

/-- An `int` or a tuple of `int`s: the type of `rates` and `strides`. -/
inductive IntOrTuple where
  | int : ℕ → IntOrTuple
  | tuple : List ℕ → IntOrTuple

/-- `(rates,) * len(channels)` if it is an `int`: ml/towers.py:244-247. -/
def IntOrTuple.expand (n : ℕ) : IntOrTuple → List ℕ
  | .int r => List.replicate n r
  | .tuple l => l

/-- The architecture of a hidden layer: channels, kernel shape, rate and stride. -/
structure LayerSpec (d : ℕ) where
  channels : ℕ
  kernel : Fin d → ℕ
  rate : ℕ
  stride : ℕ

/-- `zip(channels, kernel_shapes, rates, strides)`: ml/towers.py:256. -/
def zipLayers (channels : List ℕ) (kernels : List (Fin d → ℕ)) (rates strides : List ℕ) : List (LayerSpec d) :=
  (channels.zip (kernels.zip (rates.zip strides))).map fun q => ⟨q.1, q.2.1, q.2.2.1, q.2.2.2⟩

/-- The hidden layers of `forward_pass`: a convolution and the nonlinearity each (ml/towers.py:257-260); layer `n` uses the parameters `p n`. -/
def hiddenLayers (conv : ConvModule d) (φ : ℝ → ℝ) (p : ℕ → ConvParams d) : ℕ → List (LayerSpec d) → Net d
  | _, [] => fun x => .ok x
  | n, s :: rest => fun x => do
      let y ← conv (p n) s.channels s.kernel s.rate s.stride x
      hiddenLayers conv φ p (n + 1) rest (y.map φ)

/-- `forward_pass` of `forward_flex_tower_factory`: ml/towers.py:254-264. -/
def forwardPass (conv : ConvModule d) (φ : ℝ → ℝ) (scaleIn scaleOut : Net d) (p : ℕ → ConvParams d) (layers : List (LayerSpec d)) (out : LayerSpec d) : Net d :=
  fun x => do
    let x ← scaleIn x
    let y ← hiddenLayers conv φ p 0 layers x
    let z ← conv (p layers.length) out.channels out.kernel out.rate out.stride y
    scaleOut z

/-- `forward_flex_tower_factory`: ml/towers.py:201-267.  The lengths are compared when the tower is constructed. -/
def flexTower (out : LayerSpec d) (channels : List ℕ) (kernels : List (Fin d → ℕ)) (rates strides : IntOrTuple) (conv : ConvModule d) (φ : ℝ → ℝ)
    (scaleIn scaleOut : Net d) (p : ℕ → ConvParams d) : Except Err (Net d) :=
  let rates := rates.expand channels.length
  let strides := strides.expand channels.length
  if kernels.length = channels.length ∧ rates.length = channels.length ∧ strides.length = channels.length then
    .ok (forwardPass conv φ scaleIn scaleOut p (zipLayers channels kernels rates strides) out)
  else .error .value

/-- `forward_tower_factory`: ml/towers.py:143-198. -/
def forwardTower (numOut hidden kernelSize numHidden : ℕ) (rates strides : IntOrTuple) (outKernel outRate outStride : ℕ) (conv : ConvModule d) (φ : ℝ → ℝ)
    (scaleIn scaleOut : Net d) (p : ℕ → ConvParams d) : Except Err (Net d) :=
  flexTower ⟨numOut, fun _ => outKernel, outRate, outStride⟩ (List.replicate numHidden hidden) (List.replicate numHidden fun _ => kernelSize) rates strides
    conv φ scaleIn scaleOut p

/-- `x + y` of two arrays of one shape; broadcasting of other shapes is not modelled. -/
def Chan.add (x y : Chan d ℝ) : Except Err (Chan d ℝ) :=
  if x.shape = y.shape ∧ x.chan = y.chan then .ok { x with data := fun i c => x.data i c + y.data i c } else .error .type

/-- The loop of `residual_block_tower_factory`: ml/towers.py:284-287.  `block n c` is block `n`, with `c` output channels. -/
def residualBlocks (block : ℕ → ℕ → Net d) (skipFn : Chan d ℝ → ℕ → Except Err (Chan d ℝ)) (m : ℕ) : Net d := fun x =>
  (List.range m).foldlM (fun x n => do
    let skip ← skipFn x n
    let y ← block n skip.chan x
    skip.add y) x

/-- `residual_block_tower_factory`: ml/towers.py:270-292. -/
def residualTower (numOut : ℕ) (numBlocks : ℕ) (block : ℕ → ℕ → Net d) (skipFn : Chan d ℝ → ℕ → Except Err (Chan d ℝ)) (scaleIn scaleOut : Net d) : Net d :=
  fun x => do
    let x ← scaleIn x
    let y ← residualBlocks block skipFn (numBlocks - 1) x
    let z ← block (numBlocks - 1) numOut y
    scaleOut z

/-- `residual_connection`: ml/towers.py:295-300. -/
def residualConnection (f : Net d) : Net d := fun x => do
  let y ← f x
  x.add y

/-- One linear layer of an MLP on a vector with `n` entries. -/
def linearLayer (w : ℤ → ℤ → ℝ) (b : ℤ → ℝ) (n : ℕ) (v : ℤ → ℝ) : ℤ → ℝ := fun co => ∑ ci ∈ Finset.range n, v ci * w ci co + b co

/-- `hk.nets.MLP(output_sizes, activation)`: linear layers, with the activation after all but the last. -/
def mlp (φ : ℝ → ℝ) (p : ℕ → (ℤ → ℤ → ℝ) × (ℤ → ℝ)) : ℕ → ℕ → List ℕ → (ℤ → ℝ) → ℤ → ℝ
  | _, _, [] => fun v => v
  | k, n, [_] => linearLayer (p k).1 (p k).2 n
  | k, n, m :: l => fun v => mlp φ p (k + 1) m l fun c => φ (linearLayer (p k).1 (p k).2 n v c)

/-- `MlpTowerFactory`: ml/towers.py:113-140.  `hk.vmap` over the spatial axes applies one MLP at every point. -/
def mlpTower (outputSize numHiddenUnits numHiddenLayers : ℕ) (φ : ℝ → ℝ) (scaleIn scaleOut : Net d) (p : ℕ → (ℤ → ℤ → ℝ) × (ℤ → ℝ)) : Net d := fun x => do
  let x ← scaleIn x
  scaleOut
    { shape := x.shape
      chan := outputSize
      data := fun i c => mlp φ p 0 x.chan (List.replicate numHiddenLayers numHiddenUnits ++ [outputSize]) (fun c => x.data i c) c }

/-- `NonPeriodicConvGeneral.__call__`: ml/layers.py:399-429; a batch axis of length 1 is added and removed. -/
def nonPeriodicConv (p : ConvParams d) (cout : ℕ) (k : Fin d → ℕ) (rate : ℕ) : Net d := fun x => do
  let y ← hkConv k x.chan cout p.w p.b rate { batch := 1, shape := x.shape, chan := x.chan, data := fun _ => x.data }
  return { shape := y.shape, chan := y.chan, data := y.data 0 }

/-- The padding of `MirrorConvGeneral.__init__` (ml/layers.py:168-173): one pair of widths, summed over the axes of the kernel, for all axes. -/
def mirrorPadding (k : Fin d → ℕ) (rate : ℕ) : ℕ × ℕ :=
  (∑ b, (periodicConvPadding (k b) rate).1, ∑ b, (periodicConvPadding (k b) rate).2)

/-- `concat_along_axis` of the padded inputs with a new last axis (ml/layers.py:179-187): the arrays must have one shape. -/
def concatChannels (l : List (GridArray d ℝ)) : Except Err (Tiled d ℝ) :=
  match l with
  | [] => .error .value
  | u :: _ =>
      if ∀ v ∈ l, v.shape = u.shape then
        .ok { batch := 1, shape := u.shape, chan := l.length, data := fun _ i c => (l[c.toNat]?).elim 0 fun v => v.data i }
      else .error .type

/-- `MirrorConvGeneral.__call__` (ml/layers.py:184-194), used by `mirror_convolution` (ml/towers.py:55-65). -/
noncomputable def mirrorConv [HasNan ℝ] (p : ConvParams d) (cout : ℕ) (k : Fin d → ℕ) (rate : ℕ) (inputs : List (GridVariable d ℝ)) : Except Err (List (GridVariable d ℝ)) := do
  let padded ← inputs.mapM fun u => u.bc.padAll u.array (fun _ => (((mirrorPadding k rate).1 : ℤ), ((mirrorPadding k rate).2 : ℤ))) .mirror
  let x ← concatChannels padded
  let y ← hkConv k x.chan cout p.w p.b rate x
  ((List.range cout).zip inputs).mapM fun q => q.2.bc.imposeBC ⟨⟨y.shape, fun i => y.data 0 i q.1⟩, q.2.array.offset, q.2.array.grid⟩

end JaxCfd
