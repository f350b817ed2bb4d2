import Verif.Model.FiniteDifferences
import Verif.Model.BCUtils

/-!
# `jax_cfd/base/interpolation.py`

`int(x) == x` on rationals is `(⌊x⌋ : ℚ) = x`.  The `offset` argument and velocities have one entry per axis by type.
-/

namespace JaxCfd
variable {d : ℕ} {K : Type}

section
variable [Field K] [HasNan K]

/-- `_linear_along_axis` (interpolation.py:36-64).  The data of the two shifts are combined without an offset check. -/
def linearAlongAxis (c : GridVariable d K) (offset : ℚ) (ax : Fin d) : Except Err (GridVariable d K) :=
  let delta := offset - c.array.offset ax
  let newOffset := Function.update c.array.offset ax offset
  if delta = 0 then .ok c
  else if ((⌊delta⌋ : ℤ) : ℚ) = delta then do
    let s ← c.shift ⌊delta⌋ ax
    return ⟨⟨s.toNArr, newOffset, c.array.grid⟩, c.bc⟩
  else
    let floorWeight : ℚ := (⌈delta⌉ : ℚ) - delta
    let ceilWeight : ℚ := 1 - floorWeight
    do
      let f ← c.shift ⌊delta⌋ ax
      let g ← c.shift ⌈delta⌉ ax
      return ⟨⟨f.toNArr.map2 (fun x y => (floorWeight : K) * x + (ceilWeight : K) * y) g.toNArr,
        newOffset, c.array.grid⟩, c.bc⟩

/-- `linear` (interpolation.py:67-93). -/
def linear (c : GridVariable d K) (offset : Fin d → ℚ) : Except Err (GridVariable d K) :=
  (List.finRange d).foldlM (fun c a => linearAlongAxis c (offset a) a) c

end

/-- The axes along which two offsets differ (interpolation.py:127-130, 196-199). -/
def interpolationAxes (o o' : Fin d → ℚ) : List (Fin d) :=
  (List.finRange d).filter fun a => decide (o a ≠ o' a)

variable [Field K] [LinearOrder K] [HasNan K]

/-- `jnp.where(cond, x, y)` on arrays of one shape (other shapes are rejected, broadcasting is not modelled). -/
def jnpWhere (cond : NArr d Bool) (x y : NArr d K) : Except Err (NArr d K) :=
  if cond.shape = x.shape ∧ x.shape = y.shape then
    .ok ⟨x.shape, fun i => if cond.data i = true then x.data i else y.data i⟩
  else .error .type

/-- `u.array > 0` -/
def isPositive (u : NArr d K) : NArr d Bool := u.map fun x => decide (0 < x)

/-- The non-trivial part of `upwind` (interpolation.py:135-155) once the interpolation axis is known. -/
def upwindAlong (c : GridVariable d K) (offset : Fin d → ℚ) (u : GridVariable d K) (ax : Fin d) :
    Except Err (GridVariable d K) :=
  let delta := u.array.offset ax - c.array.offset ax
  if ((⌊delta⌋ : ℤ) : ℚ) = delta then do
    let s ← c.shift ⌊delta⌋ ax
    let g ← consistentGrid [c.array, u.array]
    return ⟨⟨s.toNArr, offset, g⟩, c.bc⟩
  else do
    let f ← c.shift ⌊delta⌋ ax
    let e ← c.shift ⌈delta⌉ ax
    let data ← jnpWhere (isPositive u.array.toNArr) f.toNArr e.toNArr
    let g ← consistentGrid [c.array, u.array]
    return ⟨⟨data, offset, g⟩, periodicBC d⟩

/-- `upwind` (interpolation.py:96-155). -/
def upwind (c : GridVariable d K) (offset : Fin d → ℚ) (v : Fin d → GridVariable d K) :
    Except Err (GridVariable d K) :=
  if c.array.offset = offset then .ok c
  else match interpolationAxes c.array.offset offset with
    | [ax] => upwindAlong c offset (v ax) ax
    | _ => .error .offset

/-- The non-trivial part of `lax_wendroff` (interpolation.py:204-221). -/
def laxWendroffAlong (c : GridVariable d K) (offset : Fin d → ℚ) (u : GridVariable d K) (dt : K)
    (ax : Fin d) : Except Err (GridVariable d K) :=
  let delta := u.array.offset ax - c.array.offset ax
  do
    let g ← consistentGrid [c.array, u.array]
    let f ← c.shift ⌊delta⌋ ax
    let e ← c.shift ⌈delta⌉ ax
    let courant := u.array.toNArr.map fun x => dt / g.step ax * x
    let diff := e.toNArr.map2 (fun x y => x - y) f.toNArr
    let pos := f.toNArr.map2 (fun x y => x + y)
      (courant.map2 (fun q x => 1 / 2 * (1 - q) * x) diff)
    let neg := e.toNArr.map2 (fun x y => x - y)
      (courant.map2 (fun q x => 1 / 2 * (1 + q) * x) diff)
    let data ← jnpWhere (isPositive u.array.toNArr) pos neg
    return ⟨⟨data, offset, g⟩, periodicBC d⟩

/-- `lax_wendroff` (interpolation.py:158-221). -/
def laxWendroff (c : GridVariable d K) (offset : Fin d → ℚ) (v : Fin d → GridVariable d K) (dt : K) :
    Except Err (GridVariable d K) :=
  if c.array.offset = offset then .ok c
  else match interpolationAxes c.array.offset offset with
    | [ax] => laxWendroffAlong c offset (v ax) dt ax
    | _ => .error .offset

/-- `safe_div` (interpolation.py:224-226), elementwise, default numerator 1. -/
def safeDiv (x y : K) : K := x / (if y ≠ 0 then y else 1)

/-- `van_leer_limiter` (interpolation.py:229-231), elementwise. -/
def vanLeer (r : K) : K := if 0 < r then safeDiv (2 * r) (1 + r) else 0

/-- `InterpolationFn` (interpolation.py:30-32). -/
abbrev InterpFn (d : ℕ) (K : Type) :=
  GridVariable d K → (Fin d → ℚ) → (Fin d → GridVariable d K) → K → Except Err (GridVariable d K)

/-- The body of the loop of `tvd_interpolation` for an axis that needs interpolation
(interpolation.py:277-300).  Raw arrays are combined without offset checks; GridArray operations check
offsets and grids. -/
def tvdAxisBody (fn : InterpFn d K) (limiter : K → K) (offset : Fin d → ℚ)
    (v : Fin d → GridVariable d K) (dt : K) (c : GridVariable d K) (ax : Fin d) :
    Except Err (GridVariable d K) := do
  let low ← upwind c offset v
  let high ← fn c offset v dt
  let left ← c.shift (-1) ax
  let right ← c.shift 1 ax
  let next ← c.shift 2 ax
  let step := right.toNArr.map2 (fun x y => x - y) c.array.toNArr
  let rPos := (c.array.toNArr.map2 (fun x y => x - y) left.toNArr).map2 safeDiv step
  let rNeg := (next.toNArr.map2 (fun x y => x - y) right.toNArr).map2 safeDiv step
  let u := v ax
  let phiData ← jnpWhere (isPositive u.array.toNArr) (rPos.map limiter) (rNeg.map limiter)
  let o ← uniqueOr .offset (fun o : Fin d → ℚ => o) [u.array.offset, low.array.offset, low.array.offset]
  let g ← uniqueOr .grid (fun g : Grid d K => g) [u.array.grid, c.array.grid, c.array.grid]
  let phi : GridArray d K := ⟨phiData, o, g⟩
  let diff ← gmap2 (fun x y => x - y) low.array high.array
  let corr ← gmap2 (fun x y => x * y) diff phi
  let res ← gmap2 (fun x y => x - y) low.array corr
  return ⟨⟨res.toNArr, Function.update c.array.offset ax (offset ax), c.array.grid⟩, c.bc⟩

/-- One axis of the loop of `tvd_interpolation` (interpolation.py:268-300). -/
def tvdAxis (fn : InterpFn d K) (limiter : K → K) (offset : Fin d → ℚ)
    (v : Fin d → GridVariable d K) (dt : K) (c : GridVariable d K) (ax : Fin d) :
    Except Err (GridVariable d K) :=
  if Function.update c.array.offset ax (offset ax) ≠ c.array.offset then
    if offset ax - c.array.offset ax ≠ 1 / 2 then .error .notImplemented
    else tvdAxisBody fn limiter offset v dt c ax
  else .ok c

/-- `apply_tvd_limiter(interpolation_fn, limiter)` (interpolation.py:234-303). -/
def tvdInterpolation (fn : InterpFn d K) (limiter : K → K) : InterpFn d K :=
  fun c offset v dt => (List.finRange d).foldlM (tvdAxis fn limiter offset v dt) c

/-- `gradient_tensor` of one variable (finite_differences.py:166-183), one axis. -/
def gradientAxis (v : GridVariable d K) (ax : Fin d) : Except Err (GridArray d K) :=
  if v.array.offset ax = 0 then forwardDifference v ax
  else if v.array.offset ax = 1 then backwardDifference v ax
  else if v.array.offset ax = 1 / 2 then do
    let c ← linear v v.array.grid.cellCenter
    centralDifference c ax
  else .error .value

/-- `gradient_tensor(v)` for one variable (finite_differences.py:166-183). -/
def gradientTensor (v : GridVariable d K) : Except Err (Fin d → GridArray d K) :=
  seqFin fun a => gradientAxis v a

end JaxCfd
