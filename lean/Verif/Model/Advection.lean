import Verif.Model.Interpolation
import Mathlib.Algebra.Order.Floor.Defs

/-!
# `jax_cfd/base/advection.py`

Sequences of variables that must have one entry per axis are functions on `Fin d`; where the code compares lengths they
are lists.  `dt` is always passed (the code's `None` default is only forwarded).
-/

namespace JaxCfd
variable {d : ℕ} {K : Type}

section
variable [Field K] [HasNan K] [DecidableEq K]

/-- The tail of `_advect_aligned` (advection.py:68-78), for one entry per axis. -/
def advectAlignedAxes (cs v : Fin d → GridVariable d K) : Except Err (GridArray d K) := do
  let flux ← seqFin fun a => gmap2 (fun x y => x * y) (cs a).array (v a).array
  let bcs ← seqFin fun a => advectionFluxBC (v a) (cs a) a
  let fluxes ← seqFin fun a => (bcs a).imposeBC (flux a)
  let r ← divergence (List.ofFn fluxes)
  return gmap (fun x => -x) r

/-- `_advect_aligned` (advection.py:34-78).  A number of components other than the rank is rejected here at once; the
code rejects it in `fd.divergence`, if nothing else raised before. -/
def advectAligned (cs v : List (GridVariable d K)) : Except Err (GridArray d K) :=
  if cs.length ≠ v.length then .error .value
  else if h : cs.length = d ∧ v.length = d then
    advectAlignedAxes (fun a => cs[a.1]'(by rw [h.1]; exact a.2)) (fun a => v[a.1]'(by rw [h.2]; exact a.2))
  else .error .value

/-- `interpolation.linear` as an `InterpolationFn`: velocity and time step are ignored (interpolation.py:67-93). -/
def linearFn : InterpFn d K := fun c o _ _ => linear c o

/-- `advect_general` (advection.py:81-116). -/
def advectGeneral (uFn cFn : InterpFn d K) (c : GridVariable d K) (v : Fin d → GridVariable d K) (dt : K) :
    Except Err (GridArray d K) :=
  if hasAllPeriodic [c] = true then do
    let av ← seqFin fun a => uFn (v a) (controlVolumeOffsets c.array a) v dt
    let ac ← seqFin fun a => cFn c (controlVolumeOffsets c.array a) av dt
    advectAligned (List.ofFn ac) (List.ofFn av)
  else .error .notImplemented

/-- `advect_linear` (advection.py:119-123). -/
def advectLinear (c : GridVariable d K) (v : Fin d → GridVariable d K) (dt : K) : Except Err (GridArray d K) :=
  advectGeneral linearFn linearFn c v dt

/-- `_align_velocities` (advection.py:133-150): entry `i`, `j` is `v[i]` at face `j` of its own control volume. -/
def alignVelocities (v : Fin d → GridVariable d K) : Except Err (Fin d → Fin d → GridVariable d K) := do
  let _ ← consistentGrid (List.ofFn fun a => (v a).array)
  seqFin fun i => seqFin fun j => linear (v i) (controlVolumeOffsets (v i).array j)

/-- One entry `i ≤ j` of `_velocities_to_flux` (advection.py:175-178). -/
def fluxEntry (av : Fin d → Fin d → GridVariable d K) (i j : Fin d) : Except Err (GridVariable d K) := do
  let bc ← advectionFluxBC (av j i) (av i j) j
  let p ← gmap2 (fun x y => x * y) (av i j).array (av j i).array
  bc.imposeBC p

/-- `_velocities_to_flux` (advection.py:153-181): entries below the diagonal are copied from above it.  (The code
interleaves the two; here an entry below the diagonal is recomputed from the same arguments.) -/
def velocitiesToFlux (av : Fin d → Fin d → GridVariable d K) : Except Err (Fin d → Fin d → GridVariable d K) :=
  seqFin fun i => seqFin fun j => if i ≤ j then fluxEntry av i j else fluxEntry av j i

/-- `convect_linear` (advection.py:184-207). -/
def convectLinear (v : Fin d → GridVariable d K) : Except Err (Fin d → GridArray d K) := do
  let av ← alignVelocities v
  let fl ← velocitiesToFlux av
  seqFin fun i => do
    let r ← divergence (List.ofFn (fl i))
    return gmap (fun x => -x) r

end

section
variable [Field K] [LinearOrder K] [HasNan K]

/-- `interpolation.upwind` as an `InterpolationFn`. -/
def upwindFn : InterpFn d K := fun c o v _ => upwind c o v

/-- `advect_upwind` (advection.py:126-130). -/
def advectUpwind (c : GridVariable d K) (v : Fin d → GridVariable d K) (dt : K) : Except Err (GridArray d K) :=
  advectGeneral linearFn upwindFn c v dt

/-- `advect_van_leer_using_limiters` (advection.py:387-395). -/
def advectVanLeerUsingLimiters (c : GridVariable d K) (v : Fin d → GridVariable d K) (dt : K) :
    Except Err (GridArray d K) :=
  advectGeneral linearFn (tvdInterpolation laxWendroff vanLeer) c v dt

/-- Python `int(x)` of a float: truncation towards zero. -/
def pyInt (x : ℚ) : ℤ := if 0 ≤ x then ⌊x⌋ else ⌈x⌉

/-- First loop of `advect_van_leer` (advection.py:259-267): edge-aligned data moves to offset 0. -/
def vanLeerLeft (c : GridVariable d K) : Except Err (GridVariable d K) :=
  (List.finRange d).foldlM (fun cl ax => do
    let s ← cl.shift (pyInt (Int.fract (c.array.offset ax) - c.array.offset ax)) ax
    c.bc.imposeBC s) c

/-- Upwind flux of one axis (advection.py:280-286). -/
def vanLeerUpwindFlux (cl u : GridVariable d K) (ax : Fin d) : Except Err (GridArray d K) := do
  let right ← cl.shift 1 ax
  let data ← jnpWhere (isPositive u.array.toNArr) (u.array.toNArr.map2 (fun x y => x * y) cl.array.toNArr)
    (u.array.toNArr.map2 (fun x y => x * y) right.toNArr)
  return ⟨data, u.array.offset, u.array.grid⟩

/-- `jnp.sign` of a number. -/
def sgn (x : K) : K := if 0 < x then 1 else if x < 0 then -1 else 0

/-- The limited slope of one point (advection.py:311-327), from `c_left_left`, `c_left`, `c_center`, `c_right` and the
velocity. -/
def vanLeerSlope (u ll l c r : K) : K :=
  let num := if 0 < u then l - ll else r - c
  let den := c - l
  let safe := if 0 < |den| then |den| + |num| else 1
  num * (sgn den + sgn num) * (den / safe)

/-- The second order correction of the flux of one axis (advection.py:288-335).  `lastAxis` is the value `ax` that the loop
variable of the first loop still has: the code shifts along it, not along `axis`.  All arrays are required to have one
shape (broadcasting is not modelled). -/
def vanLeerCorrection (c : GridVariable d K) (u : GridVariable d K) (fluxBC : BC d K) (target : ℚ) (dt : K)
    (mode : Padding) (lastAxis ax : Fin d) : Except Err (GridArray d K) := do
  let us ← u.shift (pyInt (Int.fract (u.array.offset ax) - u.array.offset ax)) ax
  let cc ← c.shift (pyInt (1 - c.array.offset lastAxis)) lastAxis
  let cr ← c.bc.shift cc 1 ax mode
  let cl ← c.bc.shift cc (-1) ax
  let cll ← c.bc.shift cc (-2) ax mode
  let _ ← uniqueOr .type (fun s : Fin d → ℕ => s) [us.shape, cc.shape, cr.shape, cl.shape, cll.shape]
  let corr : GridArray d K := ⟨⟨us.shape, fun i =>
      1 / 2 * (1 - dt / c.array.grid.step ax * |us.data i|) * |us.data i| *
        vanLeerSlope (us.data i) (cll.data i) (cl.data i) (cc.data i) (cr.data i)⟩, us.offset, us.grid⟩
  fluxBC.shift corr (pyInt (target - us.offset ax)) ax

/-- `advect_van_leer` (advection.py:210-342), on grids with at least one axis `lastAxis` (the last one). -/
def advectVanLeer (lastAxis : Fin d) (c : GridVariable d K) (v : Fin d → GridVariable d K) (dt : K)
    (mode : Padding := .mirror) : Except Err (GridArray d K) := do
  let cl ← vanLeerLeft c
  let av ← seqFin fun a => linear (v a) (controlVolumeOffsets cl.array a)
  let bcs ← seqFin fun a => advectionFluxBC (v a) c a
  let up ← seqFin fun a => vanLeerUpwindFlux cl (av a) a
  let fl ← seqFin fun a => do
    let corr ← vanLeerCorrection c (av a) (bcs a) (controlVolumeOffsets cl.array a a) dt mode lastAxis a
    gmap2 (fun x y => x + y) (up a) corr
  let fluxes ← seqFin fun a => (bcs a).imposeBC (fl a)
  let r ← divergence (List.ofFn fluxes)
  (List.finRange d).foldlM (fun r ax =>
    c.bc.shift r (-pyInt (Int.fract (c.array.offset ax) - c.array.offset ax)) ax) (gmap (fun x => -x) r)

/-- Python `min(xs)`. -/
def pyMin : List K → Except Err K
  | [] => .error .value
  | x :: xs => .ok (xs.foldl min x)

/-- `advection.stable_time_step` (advection.py:398-416). -/
def advectionStableTimeStep (maxVelocity maxCourant : K) (g : Grid d K) : Except Err K := do
  let dx ← pyMin (List.ofFn g.step)
  if maxVelocity = 0 then throw .zeroDivision
  else return maxCourant * dx / maxVelocity

/-- `jax.scipy.ndimage.map_coordinates(x, coords, order=1, mode='wrap')`: multilinear interpolation of the `2^d` surrounding
entries, indices taken modulo the size. -/
def mapCoordinatesWrap [FloorRing K] (x : NArr d K) (s : Fin d → ℕ) (coords : Fin d → Idx d → K) : NArr d K :=
  ⟨s, fun i => ∑ b : Fin d → Bool,
    (∏ a, if b a = true then coords a i - ⌊coords a i⌋ else 1 - (coords a i - ⌊coords a i⌋)) *
      x.data fun a => (⌊coords a i⌋ + (if b a = true then 1 else 0)) % (x.shape a : ℤ)⟩

/-- `advect_step_semilagrangian` (advection.py:345-382). -/
def advectSemilagrangian [IsStrictOrderedRing K] [FloorRing K] (c : GridVariable d K) (v : Fin d → GridVariable d K) (dt : K) :
    Except Err (GridVariable d K) := do
  let g ← consistentGrid (c.array :: List.ofFn fun a => (v a).array)
  if ∃ a, (g.domain a).1 ≠ 0 then throw .value
  else do
    let mesh ← g.mesh (some (List.ofFn fun a => (c.array.offset a : K)))
    let coords ← seqFin fun a => do
      let u ← linear (v a) c.array.offset
      if u.array.shape ≠ (mesh a).shape then throw .type
      else return (mesh a).map2 (fun x y => x - dt * y) u.array.toNArr
    if hasAllPeriodic [c] = true then
      return ⟨⟨mapCoordinatesWrap c.array.toNArr g.shape
        fun a i => (coords a).data i / g.step a - (c.array.offset a : K), c.array.offset, c.array.grid⟩, c.bc⟩
    else throw .notImplemented

end

end JaxCfd
