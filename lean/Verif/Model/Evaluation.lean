import Verif.Model.GridCtor
import Verif.Model.Metrics
import Verif.Model.SpectralUtils
import Mathlib.Analysis.SpecialFunctions.Log.Basic

/-!
# `jax_cfd/data/xarray_utils.py` and `jax_cfd/data/evaluation.py`

A labelled array over the `d` spatial (or wavenumber) dimensions: sizes, coordinate values, entries.  The functions modelled here treat
every position along the other dimensions (`sample`, `time`, `model`) separately, except where such a dimension is an argument below.
Named dimensions have no order, so transpositions are not modelled.  NaN is not modelled: quotients by a zero norm and logarithms of zero
have Lean's values, and theorems assume that they do not occur.
-/

namespace JaxCfd.Eval
open JaxCfd
variable {d : ℕ}

/-- An `xarray.DataArray` over `d` labelled dimensions. -/
structure XArray (d : ℕ) (K : Type) where
  sizes : Fin d → ℕ
  coords : Fin d → ℤ → ℝ
  data : Idx d → K

/-- An `xarray.Dataset` over the `d` spatial dimensions: variables by name. -/
structure XDataset (d : ℕ) (K : Type) where
  sizes : Fin d → ℕ
  coords : Fin d → ℤ → ℝ
  vars : List (String × (Idx d → K))

/-- `XR_VELOCITY_NAMES` (xarray_utils.py:47) -/
def velocityNames : List String := ["u", "v", "w"]

/-- `XR_SPATIAL_DIMS` (xarray_utils.py:49) -/
def spatialDims : List String := ["x", "y", "z"]

/-- `XR_SCALAR_NAMES[component]` (xarray_utils.py:48); `('c')` is the string `'c'`, with the single entry `'c'`. -/
def scalarName (component : ℕ) : Except Err String := if component = 0 then .ok "c" else .error .index

/-- `ds[name]`; a missing variable is a KeyError. -/
def XDataset.get {K : Type} (ds : XDataset d K) (name : String) : Except Err (XArray d K) :=
  match ds.vars.lookup name with
  | some f => .ok ⟨ds.sizes, ds.coords, f⟩
  | none => .error .key

/-- `coord[1] - coord[0]` (e.g. xarray_utils.py:158): an IndexError if there are fewer than two points. -/
def spacing (n : ℕ) (c : ℤ → ℝ) : Except Err ℝ := if n < 2 then .error .index else .ok (c 1 - c 0)

/-- `array.roll({dim: shift})` (without the coordinates): entry `j` is entry `j - shift` modulo the size. -/
def rollData {K : Type} (sizes : Fin d → ℕ) (shift : Fin d → ℤ) (f : Idx d → K) : Idx d → K := fun i => f fun a => (i a - shift a) % sizes a

/-! ### Conversion -/

/-- One entry of a trajectory: its number of dimensions, its data and, for a `GridArray` or `GridVariable`, its offset. -/
structure Item (α : Type) where
  ndim : ℕ
  data : α
  offset : Option (List ℚ)

/-- A variable of the dataset: name, data and the `offset` attribute. -/
structure NamedVar (α : Type) where
  name : String
  data : α
  offset : Option (List ℚ)

/-- `xarray.Variable(dims, data, attrs)`: a ValueError unless there is one name per dimension. -/
def mkVar {α : Type} (ndims : ℕ) (name : String) (x : Item α) (offset : Option (List ℚ)) : Except Err (NamedVar α) :=
  if x.ndim = ndims then .ok ⟨name, x.data, offset⟩ else .error .value

/-- `trajectory[j]` for a Python integer `j`. -/
def pyItem {α : Type} (l : List α) (j : ℤ) : Except Err α := do
  let k ← Metric.pyIndex l.length j
  match l[k.toNat]? with
  | some x => .ok x
  | none => .error .index

/-- `XR_VELOCITY_NAMES[component]` (xarray_utils.py:47, 92) -/
def velocityName (component : ℕ) : Except Err String :=
  match velocityNames[component]? with
  | some n => .ok n
  | none => .error .index

/-- The variable of a scalar component (xarray_utils.py:82-89). -/
def scalarVar {α : Type} (trajectory : List (Item α)) (ndims : ℕ) (prefixName : String) (component : ℕ) : Except Err (NamedVar α) := do
  let name ← scalarName component
  let x ← pyItem trajectory component
  mkVar ndims (prefixName ++ name) x x.offset

/-- The variable of a velocity component (xarray_utils.py:91-98). -/
def velocityVar {α : Type} (trajectory : List (Item α)) (grid : Option (Grid d ℝ)) (numScalars : ℤ) (ndims : ℕ) (prefixName : String) (component : ℕ) :
    Except Err (NamedVar α) := do
  let name ← velocityName component
  let x ← pyItem trajectory (component + numScalars)
  mkVar ndims (prefixName ++ name) x (match grid with
    | some g => if h : component < d then some (List.ofFn (g.cellFaces ⟨component, h⟩)) else none
    | none => none)

/-- The data variables of `velocity_trajectory_to_xarray` (xarray_utils.py:63-108).  The coordinates are `constructCoords`; the checks of
`xarray.Dataset` are not modelled. -/
def trajectoryVars {α : Type} (trajectory : List (Item α)) (grid : Option (Grid d ℝ)) (samples : Bool) (prefixName : String) : Except Err (List (NamedVar α)) := do
  let dimension := match grid with
    | some _ => d
    | none => trajectory.length
  let ndims := (if samples then 1 else 0) + 1 + (spatialDims.take dimension).length
  let numScalars : ℤ := trajectory.length - dimension
  let scalars ← (List.range numScalars.toNat).mapM (scalarVar trajectory ndims prefixName)
  let velocities ← (List.range dimension).mapM (velocityVar trajectory grid numScalars ndims prefixName)
  return scalars ++ velocities

/-- `construct_coords` (xarray_utils.py:111-125). -/
noncomputable def constructCoords (grid : Option (Grid d ℝ)) (times sampleIds : Option (List ℝ)) : Except Err (List (String × List ℝ)) := do
  let space ← match grid with
    | none => .ok []
    | some g => do
        let axes ← g.axes (some (List.ofFn fun a => ((g.cellCenter a : ℚ) : ℝ)))
        .ok (spatialDims.zip (List.ofFn axes))
  return space ++ (match times with | some t => [("time", t)] | none => []) ++ (match sampleIds with | some t => [("sample", t)] | none => [])

/-- The attributes that `grid_from_attrs` reads. -/
structure Attrs where
  ndim : Option ℕ := none
  saveGridSize : Option ℕ := none
  domainSize : Option ℝ := none
  domainSizeMultiple : Option ℝ := none
  saveGridSizeX : Option ℕ := none
  saveGridSizeY : Option ℕ := none
  aspectRatio : Option ℝ := none

/-- `dataset_attrs[name]` -/
def Attrs.require {α : Type} : Option α → Except Err α
  | some x => .ok x
  | none => .error .key

/-- `grid_from_attrs` (xarray_utils.py:128-152). -/
noncomputable def gridFromAttrs (a : Attrs) : Except Err (RawGrid ℝ) := do
  let ndim ← Attrs.require a.ndim
  match a.saveGridSize with
  | some n => do
      let size ← match a.domainSize, a.domainSizeMultiple with
        | some L, _ => .ok L
        | none, some m => .ok (2 * Real.pi * m)
        | none, none => .error .value
      gridInit (List.replicate ndim n) .none (.seq (List.replicate ndim [0, size]))
  | none => do
      let shape ← ([a.saveGridSizeX, a.saveGridSizeY].take ndim).mapM Attrs.require
      let r ← Attrs.require a.aspectRatio
      gridInit shape .none (.seq [[0, r], [0, 1]])

/-! ### Derived quantities -/

/-- `vorticity_2d` (xarray_utils.py:155-162). -/
noncomputable def vorticity2d (ds : XDataset 2 ℝ) : Except Err (XArray 2 ℝ) := do
  let dy ← spacing (ds.sizes 1) (ds.coords 1)
  let dx ← spacing (ds.sizes 0) (ds.coords 0)
  let v ← ds.get "v"
  let u ← ds.get "u"
  return ⟨ds.sizes, ds.coords, fun i =>
    (rollData ds.sizes ![-1, 0] v.data i - v.data i) / dx - (rollData ds.sizes ![0, -1] u.data i - u.data i) / dy⟩

/-- `enstrophy_2d` (xarray_utils.py:165-167). -/
noncomputable def enstrophy2d (ds : XDataset 2 ℝ) : Except Err (XArray 2 ℝ) := do
  let w ← vorticity2d ds
  return ⟨w.sizes, w.coords, fun i => w.data i ^ 2 / 2⟩

/-- `magnitude` (xarray_utils.py:170-177), of one to three components. -/
noncomputable def magnitude {K : Type} [RCLike K] (cs : List (Idx d → K)) (i : Idx d) : ℝ :=
  Real.sqrt (cs.map fun c => RCLike.re (c i * (starRingEnd K) (c i))).sum

/-- `speed` (xarray_utils.py:180-183); without any velocity component the call of `magnitude` is a TypeError. -/
noncomputable def speed {K : Type} [RCLike K] (ds : XDataset d K) : Except Err (XArray d ℝ) :=
  let args := velocityNames.filterMap fun k => ds.vars.lookup k
  if args.isEmpty then .error .type else .ok ⟨ds.sizes, ds.coords, magnitude args⟩

/-- `kinetic_energy` (xarray_utils.py:186-188). -/
noncomputable def kineticEnergy {K : Type} [RCLike K] (ds : XDataset d K) : Except Err (XArray d ℝ) := do
  let s ← speed ds
  return ⟨s.sizes, s.coords, fun i => s.data i ^ 2 / 2⟩

/-- `fourier_transform` (xarray_utils.py:191-209): the transform over all spatial dimensions, with wavenumbers as coordinates, rolled into
ascending order. -/
noncomputable def fourierTransform (a : XArray d ℝ) : Except Err (XArray d ℂ) := do
  let steps ← seqFin fun b => spacing (a.sizes b) (a.coords b)
  let hat := fftn (⟨a.sizes, fun i => (a.data i : ℂ)⟩ : NArr d ℂ)
  let freqs := fun (b : Fin d) (j : ℤ) => 2 * Real.pi * fftfreq (a.sizes b) (steps b) j
  return ⟨a.sizes, fun b j => freqs b ((j - (a.sizes b / 2 : ℕ)) % a.sizes b), rollData a.sizes (fun b => (a.sizes b / 2 : ℕ)) hat.data⟩

/-- `energy_spectrum` (xarray_utils.py:370-383). -/
noncomputable def energySpectrum (ds : XDataset d ℝ) : Except Err (XArray d ℝ) := do
  let fs ← (velocityNames.take d).mapM fun name => do
    let a ← ds.get name
    let f ← fourierTransform a
    return (name, f)
  match fs with
  | [] => .error .type
  | (_, f) :: _ => kineticEnergy ⟨f.sizes, f.coords, fs.map fun p => (p.1, p.2.data)⟩

/-! ### Correlations -/

/-- `periodic_correlate` (xarray_utils.py:212-214) of arrays of length `n`. -/
noncomputable def periodicCorrelate (n : ℕ) (u v : ℤ → ℝ) (j : ℤ) : ℝ :=
  (ifft1 n (fun k => (starRingEnd ℂ) (fft1 n (fun x => (u x : ℂ)) k) * fft1 n (fun x => (v x : ℂ)) k) j).re

/-- `spatial_autocorrelation` (xarray_utils.py:217-230): along dimension `ax`, whose coordinate becomes that of the displacements. -/
noncomputable def spatialAutocorrelation (a : XArray d ℝ) (ax : Fin d) : XArray d ℝ :=
  ⟨Function.update a.sizes ax (a.sizes ax / 2), a.coords, fun i =>
    periodicCorrelate (a.sizes ax) (fun x => a.data (Function.update i ax x)) (fun x => a.data (Function.update i ax x)) (i ax) / a.sizes ax⟩

/-- `velocity_spatial_correlation` (xarray_utils.py:404-415). -/
noncomputable def velocitySpatialCorrelation (ds : XDataset d ℝ) (ax : Fin d) (axis : String) : Except Err (List (String × XArray d ℝ)) :=
  (velocityNames.take d).mapM fun name => do
    let a ← ds.get name
    return (name ++ "_" ++ axis ++ "_correlation", spatialAutocorrelation a ax)

/-- `normalize` (xarray_utils.py:418-421) over the whole box of state dimensions. -/
noncomputable def normalize (sizes : Fin d → ℕ) (f : Idx d → ℝ) : Idx d → ℝ := fun i => f i / Real.sqrt (∑ j ∈ box sizes, f j ^ 2)

/-- `state_correlation` (evaluation.py:50-83) at one time: `predicted` and `target` have `samples` samples; with an empty tuple of dimensions to
average this is the single sample. -/
noncomputable def stateCorrelation (sizes : Fin d → ℕ) (samples : ℕ) (predicted target : ℤ → Idx d → ℝ) : ℝ :=
  (∑ s ∈ Finset.Ico (0 : ℤ) samples, ∑ i ∈ box sizes, normalize sizes (predicted s) i * normalize sizes (target s) i) / samples

/-- `temporal_autocorrelation` (evaluation.py:176-207) of the time series at one position; `times` are the coordinate values.  The result is
the list of values together with the list of labels. -/
noncomputable def temporalAutocorrelation (length : ℕ) (times : ℤ → ℝ) (a : ℤ → ℝ) : Except Err (List ℝ × List ℝ) := do
  let dt ← spacing length times
  if dt = 0 then throw .value
  let q := 1 / dt
  let subsample := max 1 (if 0 ≤ q then ⌊q⌋ else ⌈q⌉).toNat
  let shifts := (List.range ((length + subsample - 1) / subsample)).map fun j : ℕ => ((j * subsample : ℕ) : ℤ)
  return (shifts.map fun s : ℤ => ∑ t ∈ Finset.Ico (0 : ℤ) length, if s ≤ t then a ((t - s) % length) * a t / length else 0, shifts.map times)

/-! ### Isotropic spectra -/

/-- Python's `round`: to the nearest integer, halves to even. -/
noncomputable def roundHalfEven (x : ℝ) : ℤ :=
  if x - ⌊x⌋ < 1 / 2 then ⌊x⌋ else if 1 / 2 < x - ⌊x⌋ then ⌊x⌋ + 1 else if ⌊x⌋ % 2 = 0 then ⌊x⌋ else ⌊x⌋ + 1

/-- `pandas.cut(x, bins, labels=False)` for ascending `bins`: `searchsorted(bins, x, side='left') - 1`, with NaN outside. -/
noncomputable def pandasCut (bins : List ℝ) (x : ℝ) : Option ℕ :=
  open Classical in
  let ids := bins.countP fun b => b < x
  if ids = bins.length ∨ ids = 0 then none else some (ids - 1)

/-- `_binned_sum_numpy` (xarray_utils.py:240-250): entry `j` of the result. -/
noncomputable def binnedSum (sizes : Fin d → ℕ) (array : Idx d → ℝ) (indices : Idx d → Option ℕ) (j : ℕ) : ℝ :=
  ∑ i ∈ box sizes, if indices i = some j then array i else 0

/-- The scales of `_isotropize_binsum` and `_isotropize_interpolation_2d` (xarray_utils.py:281-283, 298-300): spacing and largest wavenumber. -/
noncomputable def isotropicScales (e : XArray d ℝ) : Except Err (ℝ × ℝ) := do
  let steps ← seqFin fun b => spacing (e.sizes b) (e.coords b)
  let kSpacing := ⨆ b, steps b
  return (kSpacing, (⨅ b, ⨆ j : Fin (e.sizes b), e.coords b (j : ℕ)) - 1 / 2 * kSpacing)

/-- The magnitude of the wavenumber at one position: `magnitude(*wavenumbers)` (xarray_utils.py:284). -/
noncomputable def wavenumber (e : XArray d ℝ) (i : Idx d) : ℝ := Real.sqrt (∑ b, e.coords b (i b) * e.coords b (i b))

/-- `_isotropize_binsum` (xarray_utils.py:279-290) with `groupby_bins_sum` (253-276): the labels and the values.  A negative
number of bins is rejected by NumPy. -/
noncomputable def isotropizeBinsum (e : XArray d ℝ) : Except Err (List ℝ × List ℝ) := do
  let (kSpacing, kMax) ← isotropicScales e
  let m := roundHalfEven (kMax / kSpacing)
  if m < 0 then throw .value
  let bounds := (List.range (m.toNat + 1)).map fun j : ℕ => kSpacing * ((j : ℝ) + 1 - 1 / 2)
  let labels := (List.range m.toNat).map fun j : ℕ => kSpacing * ((j : ℝ) + 1)
  return (labels, (List.range m.toNat).map (binnedSum e.sizes e.data fun i => pandasCut bounds (wavenumber e i)))

/-- `_isotropize_interpolation_2d` (xarray_utils.py:293-322).  `interp f kx ky` is the interpolation of the data `f` (xarray's `interp`, not
modelled). -/
noncomputable def isotropizeInterpolation2d (interp : (Idx 2 → ℝ) → ℝ → ℝ → ℝ) (points : ℕ) (e : XArray 2 ℝ) : Except Err (List ℝ × List ℝ) := do
  let (kSpacing, kMax) ← isotropicScales e
  let m := roundHalfEven (kMax / kSpacing)
  let ks := (List.range m.toNat).map fun j : ℕ => kSpacing * ((j : ℝ) + 1)
  let angle := fun j : ℕ => 2 * Real.pi * j / points
  let density := fun k : ℝ => (∑ j ∈ Finset.range points, Real.exp (interp (fun i => Real.log (e.data i)) (k * Real.cos (angle j)) (k * Real.sin (angle j)))) / points
  return (ks, ks.map fun k => 2 * Real.pi * k * density k)

/-- `isotropize` (xarray_utils.py:325-367), with the interpolation as parameter. -/
noncomputable def isotropize (interp : (Idx 2 → ℝ) → ℝ → ℝ → ℝ) (points : ℕ) (method : Option String) (e : XArray d ℝ) : Except Err (List ℝ × List ℝ) :=
  if d = 0 then .error .value
  else
    let method := method.getD (if d = 2 then "interpolation" else "binsum")
    if method = "interpolation" then (if h : d = 2 then isotropizeInterpolation2d interp points (h ▸ e) else .error .value)
    else if method = "binsum" then isotropizeBinsum e
    else .error .value

/-! ### Summaries -/

/-- `absolute_error` (evaluation.py:28-47). -/
def absoluteError (predicted target : Idx d → ℝ) (i : Idx d) : ℝ := |predicted i - target i|

/-- `below_error_threshold` (evaluation.py:94-103). -/
def belowErrorThreshold (predicted target : Idx d → ℝ) (threshold : ℝ) (i : Idx d) : Prop := |predicted i - target i| ≤ threshold

/-- `average` (evaluation.py:106-135) over `samples` samples and all spatial dimensions. -/
noncomputable def average (sizes : Fin d → ℕ) (samples : ℕ) (f : ℤ → Idx d → ℝ) : ℝ :=
  (∑ s ∈ Finset.Ico (0 : ℤ) samples, ∑ i ∈ box sizes, f s i) / (samples * ∏ b, (sizes b : ℝ))

/-- `_energy_spectrum_metric` (evaluation.py:140-148) along `n` wavenumbers. -/
noncomputable def energySpectrumMetric1 (threshold : ℝ) (n : ℕ) (arr truth : ℤ → ℝ) : ℝ :=
  open Classical in
  (∑ k ∈ Finset.Ico (0 : ℤ) n, if threshold < truth k then |Real.log (arr k) - Real.log (truth k)| else 0) +
    ∑ k ∈ Finset.Ico (0 : ℤ) n, if threshold < arr k ∧ truth k < threshold then |Real.log (arr k)| else 0

/-- `energy_spectrum_metric` (evaluation.py:138-153): the mean over the samples. -/
noncomputable def energySpectrumMetric (threshold : ℝ) (n samples : ℕ) (arr truth : ℤ → ℤ → ℝ) : ℝ :=
  (∑ s ∈ Finset.Ico (0 : ℤ) samples, energySpectrumMetric1 threshold n (arr s) (truth s)) / samples

/-- `_u_x_correlation_metric` (evaluation.py:159-168) and `_u_t_correlation_metric` (212-222) along `n` displacements. -/
noncomputable def correlationMetric1 (threshold : ℝ) (n : ℕ) (arr truth : ℤ → ℝ) : ℝ :=
  open Classical in
  (∑ k ∈ Finset.Ico (0 : ℤ) n, if threshold < |truth k| then |arr k - truth k| else 0) +
    ∑ k ∈ Finset.Ico (0 : ℤ) n, if threshold < |arr k| ∧ |truth k| < threshold then |arr k| else 0

/-- `u_x_correlation_metric` (evaluation.py:156-173): the mean over the samples. -/
noncomputable def correlationMetric (threshold : ℝ) (n samples : ℕ) (arr truth : ℤ → ℤ → ℝ) : ℝ :=
  (∑ s ∈ Finset.Ico (0 : ℤ) samples, correlationMetric1 threshold n (arr s) (truth s)) / samples

end JaxCfd.Eval
