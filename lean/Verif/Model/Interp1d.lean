import Verif.Model.ArrayUtils
import Verif.Model.Boundaries

/-!
# `jax_cfd/base/array_utils.py`: `interp1d`

`x` is a list (its rank is fixed to 1), `y` and `x_new` are arrays of any rank.  `jnp.searchsorted(x, v, side='right')` is
modelled by its specification on sorted arrays, the number of entries `≤ v`; `jnp.argsort` by a stable merge sort.
-/

namespace JaxCfd
variable {K : Type}

/-- The `fill_value` argument: a string, a scalar, or an array of positive rank (array_utils.py:351). -/
inductive Fill (K : Type) where
  | str (s : String)
  | scalar (c : K)
  | array

/-- What a valid `fill_value` selects. -/
inductive FillMode (K : Type) where
  | extrapolate
  | constant
  | scalar (c : K)

/-- The checks of `fill_value` (array_utils.py:391-400). -/
def Fill.parse : Fill K → Except Err (FillMode K)
  | .str s => if s = "extrapolate" then .ok .extrapolate else if s = "constant_extrapolate" then .ok .constant else .error .value
  | .scalar c => .ok (.scalar c)
  | .array => .error .value

section
variable [Field K] [LinearOrder K]

/-- `np.min` of a non-empty list. -/
def listMin : List K → K
  | [] => 0
  | a :: l => l.foldl min a

/-- `np.max` of a non-empty list. -/
def listMax : List K → K
  | [] => 0
  | a :: l => l.foldl max a

/-- `jnp.clip(x_new, np.min(x), np.max(x))` (array_utils.py:433). -/
def clipTo (x : List K) (v : K) : K := min (max v (listMin x)) (listMax x)

/-- `above_idx` (array_utils.py:434-435). -/
def aboveIdx (x : List K) (v : K) : ℕ := min (x.length - 1) (x.countP fun a => decide (a ≤ clipTo x v))

/-- `below_idx` (array_utils.py:436). -/
def belowIdx (x : List K) (v : K) : ℕ := aboveIdx x v - 1

/-- One entry of `y_new`: `v` is the entry of `x_new`, `y` the line of the array `y` along the axis (array_utils.py:443-464). -/
def interpVal (x : List K) (fill : FillMode K) (v : K) (y : ℕ → K) : K :=
  let xa := x.getD (aboveIdx x v) 0
  let xb := x.getD (belowIdx x v) 0
  let ya := y (aboveIdx x v)
  let yb := y (belowIdx x v)
  let slope := (ya - yb) / (xa - xb)
  match fill with
  | .extrapolate => yb + (v - xb) * slope
  | .constant => yb + (clipTo x v - xb) * slope
  | .scalar c => if v - xb < 0 ∨ v - xb > xa - xb then c else yb + (v - xb) * slope

/-- `jnp.argsort` (stable). -/
def argsort (x : List K) : List ℕ := (List.range x.length).mergeSort fun i j => decide (x.getD i 0 ≤ x.getD j 0)

/-- `jnp.take(y, ind, axis)`; positions outside the axis give NaN. -/
def takeAxis [HasNan K] (y : LArr K) (ind : List ℕ) (ax : ℕ) : LArr K :=
  ⟨y.shape.set ax ind.length, fun i =>
    if ind.getD (i.getD ax 0).toNat 0 < y.shape.getD ax 0 then y.data (i.set ax (ind.getD (i.getD ax 0).toNat 0 : ℕ)) else HasNan.nan⟩

/-- The function returned by `interp1d` (array_utils.py:424-466), for checked arguments. -/
def interpFunc (x : List K) (y : LArr K) (ax : ℕ) (fill : FillMode K) (xnew : LArr K) : Except Err (LArr K) :=
  let yNew : LArr K := ⟨y.shape.set ax xnew.shape.prod, fun i =>
    interpVal x fill (xnew.data (unravelIdx xnew.shape (i.getD ax 0))) fun k => y.data (i.set ax (k : ℤ))⟩
  yNew.reshape (yNew.shape.take ax ++ xnew.shape ++ yNew.shape.drop (ax + 1))

/-- `interp1d` (array_utils.py:347-467). -/
def interp1d [HasNan K] (x : List K) (y : LArr K) (axis : ℤ := -1) (fill : Fill K := .scalar HasNan.nan) (assumeSorted : Bool := true) :
    Except Err (LArr K → Except Err (LArr K)) := do
  let mode ← fill.parse
  if x.length < 2 then .error .value
  else match normalizeAxis axis y.shape.length with
    | .error _ => if y.shape = [] then .error .value else if assumeSorted = true then .error .index else .error .value
    | .ok ax =>
      if assumeSorted = true then
        if x.length ≠ y.shape.getD ax 0 then .error .value
        else .ok (interpFunc x y ax mode)
      else
        -- the array has already been re-indexed by `ind`, so that the comparison of the sizes always succeeds
        let ind := argsort x
        let x' := ind.map fun i => x.getD i 0
        let y' := takeAxis y ind ax
        if x'.length ≠ y'.shape.getD ax 0 then .error .value
        else .ok (interpFunc x' y' ax mode)

end

end JaxCfd
