import Verif.Model.Grids

/-!
# `jax_cfd/base/boundaries.py`

`np.isclose(x, c)` on offsets (always small multiples of 1/2 in practice) is equality of rationals,
`x % 1` is `Int.fract`.  Only non-negative in-range axes (`Fin d`) are modelled.
-/

namespace JaxCfd

variable {d : ℕ} {K : Type}

/-- `boundaries.Padding` (boundaries.py:39-41); `other` stands for any other value of `mode`,
including `None`. -/
inductive Padding where
  | mirror | extend | other
  deriving DecidableEq, Repr

/-- The value that stands for `jnp.nan`.  Nothing is assumed about it. -/
class HasNan (K : Type) where
  nan : K

/-- `trim_side` argument of `_trim_padding` (boundaries.py:338-350). -/
inductive TrimSide where
  | both | left | right
  deriving DecidableEq, Repr

namespace BC

/-- `constant_values` (boundaries.py:70-79): `None` is replaced by `nan`. -/
def constantValues [HasNan K] (bc : BC d K) (a : Fin d) : K × K :=
  (((bc.bcValues a).1).getD HasNan.nan, ((bc.bcValues a).2).getD HasNan.nan)

/-- `_is_aligned` (boundaries.py:106-133): raises unless `u` holds all interior values. -/
def isAligned (bc : BC d K) (u : GridArray d K) (ax : Fin d) : Except Err Unit :=
  let sizeDiff : ℤ := (u.shape ax : ℤ) - u.grid.shape ax
  let sizeDiff := if (bc.types ax).1 = .dirichlet ∧ u.offset ax = 1 then sizeDiff + 1 else sizeDiff
  let sizeDiff := if (bc.types ax).2 = .dirichlet ∧ u.offset ax = 1 then sizeDiff + 1 else sizeDiff
  if (bc.types ax).1 = .neumann ∧ Int.fract (u.offset ax) = 0 then .error .notImplemented
  else if sizeDiff < 0 then .error .value
  else .ok ()

/-- `_trim` (boundaries.py:310-336), also exported as `trim` (boundaries.py:530). -/
def trim (u : GridArray d K) (width : ℤ) (ax : Fin d) : Except Err (GridArray d K) := do
  let padding : ℤ × ℤ := if width < 0 then (-width, 0) else (0, width)
  let limit : ℤ := (u.shape ax : ℤ) - padding.2
  let data ← sliceInDim u.toNArr padding.1 limit ax
  return ⟨data, Function.update u.offset ax (u.offset ax + padding.1), u.grid⟩

/-- First half of `_trim_padding` (boundaries.py:353-367): the amount `negative_trim ≤ 0` and the array
with the lower padding removed. -/
def trimPaddingLower (bc : BC d K) (u : GridArray d K) (ax : Fin d) (side : TrimSide) :
    Except Err (GridArray d K × ℤ) :=
  if u.offset ax ≤ 0 ∧ (side = .both ∨ side = .left) then
    let negativeTrim : ℤ := -⌈-(u.offset ax)⌉
    let negativeTrim : ℤ :=
      if (bc.types ax).1 = .periodic then
        max negativeTrim ((u.grid.shape ax : ℤ) - u.shape ax)
      else if Int.fract (u.offset ax) = 0 then negativeTrim - 1
      else negativeTrim
    do
      let u ← trim u negativeTrim ax
      return (u, negativeTrim)
  else .ok (u, 0)

/-- Second half of `_trim_padding` (boundaries.py:368-384): the amount `positive_trim`. -/
def positiveTrim (bc : BC d K) (u : GridArray d K) (ax : Fin d) (side : TrimSide) : ℤ :=
  if side = .right ∨ side = .both then
    if (bc.types ax).2 = .periodic then max ((u.shape ax : ℤ) - u.grid.shape ax) 0
    else
      let last : ℚ := (u.shape ax : ℚ) + u.offset ax - 1
      let boundary : ℚ := (u.grid.shape ax : ℚ)
      if last ≥ boundary then
        if (bc.types ax).2 = .dirichlet ∧ Int.fract (u.offset ax) = 0 then ⌈last - boundary⌉ + 1
        else ⌈last - boundary⌉
      else 0
  else 0

/-- `if positive_trim > 0: u = self._trim(u, positive_trim, axis)` (boundaries.py:385-386). -/
def trimUpperIf (u : GridArray d K) (pt : ℤ) (ax : Fin d) : Except Err (GridArray d K) :=
  if pt > 0 then trim u pt ax else .ok u

/-- `_trim_padding` (boundaries.py:338-389): removes ghost cells, returning how many on each side. -/
def trimPadding (bc : BC d K) (u : GridArray d K) (ax : Fin d) (side : TrimSide) :
    Except Err (GridArray d K × (ℤ × ℤ)) :=
  if u.shape ax ≥ u.grid.shape ax then do
    let (u, negativeTrim) ← bc.trimPaddingLower u ax side
    let pt := bc.positiveTrim u ax side
    let u ← trimUpperIf u pt ax
    return (u, (-negativeTrim, pt))
  else .ok (u, (0, 0))

variable [Field K] [HasNan K]

/-- Dirichlet, cell centred branch of `_pad` (boundaries.py:199-226). -/
def padDirichletCenter (bc : BC d K) (data : NArr d K) (w : ℤ × ℤ) (ax : Fin d) (mode : Padding) :
    Except Err (NArr d K) :=
  let mode := if w.1 + w.2 = 1 ∨ w.1 + w.2 = 0 then .mirror else mode
  let cv := bc.constantValues ax
  match mode with
  | .mirror => do
      let a ← jnpPad data ax w (.const cv.1 cv.2)
      let b ← jnpPad data ax w .symmetric
      return a.map2 (fun x y => 2 * x - y) b
  | .extend => do
      let a ← jnpPad data ax w (.const cv.1 cv.2)
      let b ← jnpPad data ax w .edge
      return a.map2 (fun x y => 2 * x - y) b
  | .other => .error .notImplemented

/-- Dirichlet, edge aligned branch of `_pad` (boundaries.py:227-273).  The MIRROR case uses `bc_values`
(not `constant_values`): `None / 2` and `None` constants are TypeErrors. -/
def padDirichletEdge (bc : BC d K) (data : NArr d K) (w : ℤ × ℤ) (ax : Fin d) (mode : Padding) :
    Except Err (NArr d K) :=
  let cv := bc.constantValues ax
  if w.1 + w.2 = 1 ∨ w.1 + w.2 = 0 then jnpPad data ax w (.const cv.1 cv.2)
  else if w.1 + w.2 > 1 then
    match mode with
    | .mirror =>
        if (∃ a, (bc.bcValues a).1 = none ∨ (bc.bcValues a).2 = none) then .error .type
        else do
          let bcPad : ℤ × ℤ := (if w.1 > 0 then 1 else 0, if w.2 > 0 then 1 else 0)
          let past : ℤ × ℤ := (if w.1 > 0 then w.1 - 1 else 0, if w.2 > 0 then w.2 - 1 else 0)
          let expanded ← jnpPad data ax bcPad (.const 0 0)
          let a ← jnpPad data ax w (.const (cv.1 / 2) (cv.2 / 2))
          let b ← jnpPad expanded ax past .reflect
          return a.map2 (fun x y => 2 * x - y) b
    | .extend => jnpPad data ax w (.const cv.1 cv.2)
    | .other => .error .notImplemented
  else .ok data

/-- Neumann, cell centred branch of `_pad` (boundaries.py:277-303). -/
def padNeumann (bc : BC d K) (data : NArr d K) (w : ℤ × ℤ) (width : ℤ) (ax : Fin d) (step : K)
    (mode : Padding) : Except Err (NArr d K) :=
  let npMode : Except Err (PadMode K) :=
    if w.1 + w.2 = 1 ∨ w.1 + w.2 = 0 then .ok .symmetric
    else match mode with
      | .mirror => .ok .symmetric
      | .extend => .ok .edge
      | .other => .error .notImplemented
  let cv := bc.constantValues ax
  let direction : K := ((width / max 1 |width| : ℤ) : K)
  do
    let m ← npMode
    let a ← jnpPad data ax w m
    let z ← jnpPad data ax w (.const 0 0)
    let c ← jnpPad data ax w (.const cv.1 cv.2)
    return a.map2 (fun x y => x - direction * step * y) (z.map2 (fun x y => x - y) c)

/-- `make_padding` (boundaries.py:166-176): the requested widths and the boundary type concerned. -/
def makePadding (bc : BC d K) (width : ℤ) (ax : Fin d) : (ℤ × ℤ) × BCType :=
  if width < 0 then ((-width, 0), (bc.types ax).1) else ((0, width), (bc.types ax).2)

/-- The side from which stale ghost cells are removed first (boundaries.py:181-186). -/
def needTrimming (t : BCType) (width : ℤ) : TrimSide :=
  if t = .periodic then .both else if width ≥ 0 then .right else .left

/-- The dispatch of `_pad` on the boundary type and alignment (boundaries.py:193-306). -/
def padByType (bc : BC d K) (v : GridArray d K) (t : BCType) (w : ℤ × ℤ) (width : ℤ) (ax : Fin d)
    (mode : Padding) : Except Err (NArr d K) :=
  match t with
  | .periodic => jnpPad v.toNArr ax w .wrap
  | .dirichlet =>
      if Int.fract (v.offset ax) = 1 / 2 then bc.padDirichletCenter v.toNArr w ax mode
      else if Int.fract (v.offset ax) = 0 then bc.padDirichletEdge v.toNArr w ax mode
      else .error .value
  | .neumann =>
      if Int.fract (v.offset ax) = 1 / 2 then
        bc.padNeumann v.toNArr w width ax (v.grid.step ax) mode
      else .error .value
  | .invalid => .error .value

/-- `_pad` (boundaries.py:135-308). -/
def pad1 (bc : BC d K) (u : GridArray d K) (width : ℤ) (ax : Fin d) (mode : Padding := .extend) :
    Except Err (GridArray d K) :=
  let p := (bc.makePadding width ax).1
  let t := (bc.makePadding width ax).2
  let offset := Function.update u.offset ax (u.offset ax - p.1)
  do
    let (v, tr) ← bc.trimPadding u ax (needTrimming t width)
    let data ← bc.padByType v t (p.1 + tr.1, p.2 + tr.2) width ax mode
    return ⟨data, offset, u.grid⟩

/-- `shift` (boundaries.py:81-104). -/
def shift (bc : BC d K) (u : GridArray d K) (k : ℤ) (ax : Fin d) (mode : Padding := .extend) :
    Except Err (GridArray d K) := do
  let padded ← bc.pad1 u k ax mode
  trim padded (-k) ax

/-- The `width` argument of `pad` (boundaries.py:391-396): an int, or a (lower, upper) pair. -/
inductive Width where
  | one (w : ℤ)
  | pair (lo hi : ℤ)

/-- `pad` (boundaries.py:391-418). -/
def pad (bc : BC d K) (u : GridArray d K) (width : Width) (ax : Fin d) (mode : Padding := .extend) :
    Except Err (GridArray d K) := do
  bc.isAligned u ax
  match width with
  | .one w => bc.pad1 u w ax mode
  | .pair lo hi => do
      let u ← bc.pad1 u (-lo) ax mode
      bc.pad1 u hi ax mode

/-- `pad_all` (boundaries.py:420-439). -/
def padAll (bc : BC d K) (u : GridArray d K) (width : Fin d → ℤ × ℤ) (mode : Padding := .extend) :
    Except Err (GridArray d K) :=
  (List.finRange d).foldlM (fun u a => bc.pad u (.pair (width a).1 (width a).2) a mode) u

/-- One axis of `trim_boundary` (boundaries.py:475-476). -/
def trimBoundaryAxis (bc : BC d K) (u : GridArray d K) (ax : Fin d) : Except Err (GridArray d K) := do
  bc.isAligned u ax
  let (u, _) ← bc.trimPadding u ax .both
  return u

/-- `trim_boundary` (boundaries.py:462-477). -/
def trimBoundary (bc : BC d K) (u : GridArray d K) : Except Err (GridArray d K) :=
  (List.finRange d).foldlM (fun u a => bc.trimBoundaryAxis u a) u

/-- One axis of `pad_and_impose_bc` (boundaries.py:505-511). -/
def padImposeAxis (bc : BC d K) (target : Fin d → ℚ) (mode : Padding) (u : GridArray d K)
    (ax : Fin d) : Except Err (GridArray d K) := do
  bc.isAligned u ax
  if (bc.types ax).1 = .dirichlet ∧ u.offset ax = 1 then
    if target ax = 1 then bc.pad1 u 1 ax mode
    else if target ax = 0 then bc.pad1 u (-1) ax mode
    else return u
  else return u

/-- `pad_and_impose_bc` (boundaries.py:479-512). -/
def padAndImposeBC (bc : BC d K) (u : GridArray d K) (target : Option (Fin d → ℚ) := none)
    (mode : Padding := .extend) : Except Err (GridVariable d K) := do
  let u ← (List.finRange d).foldlM (bc.padImposeAxis (target.getD u.offset) mode) u
  return ⟨u, bc⟩

/-- `impose_bc` (boundaries.py:514-528). -/
def imposeBC (bc : BC d K) (u : GridArray d K) : Except Err (GridVariable d K) := do
  let t ← bc.trimBoundary u
  bc.padAndImposeBC t (some u.offset)

end BC

/-- `GridVariable.shift` (grids.py:331-349). -/
def GridVariable.shift [Field K] [HasNan K] (u : GridVariable d K) (k : ℤ) (ax : Fin d)
    (mode : Padding := .extend) : Except Err (GridArray d K) :=
  u.bc.shift u.array k ax mode

/-- `GridVariable.impose_bc` (grids.py:388-395). -/
def GridVariable.imposeBC [Field K] [HasNan K] (u : GridVariable d K) :
    Except Err (GridVariable d K) := u.bc.imposeBC u.array

/-- `GridVariable.trim_boundary` (grids.py:370-386). -/
def GridVariable.trimBoundary [Field K] [HasNan K] (u : GridVariable d K) :
    Except Err (GridArray d K) := u.bc.trimBoundary u.array

end JaxCfd
