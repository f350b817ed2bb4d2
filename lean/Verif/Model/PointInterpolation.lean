import Verif.Model.Advection
import Mathlib.Data.Real.Archimedean

/-!
# Interpolation at a point (`jax_cfd/base/interpolation.py:308-359`)

`jax.scipy.ndimage.map_coordinates` is modelled by its definition in JAX: for order 1 the sum over the `2^d` surrounding indices of the
product of the one-dimensional weights times the entry, for order 0 the entry at the index rounded to the nearest integer; indices outside
the array are mapped back (or, for `constant`, replaced by `cval`).
-/

namespace JaxCfd
variable {d : ℕ}

/-- The `mode` argument (interpolation.py:312, 320-337). -/
inductive ExtendMode where
  | constant
  | nearest
  | wrap
  | mirror
  | reflect
  deriving DecidableEq

/-- The valid names of modes (interpolation.py:320); others are rejected by `map_coordinates` with NotImplementedError. -/
def ExtendMode.parse : String → Except Err ExtendMode
  | "constant" => .ok .constant
  | "nearest" => .ok .nearest
  | "wrap" => .ok .wrap
  | "mirror" => .ok .mirror
  | "reflect" => .ok .reflect
  | _ => .error .notImplemented

/-- JAX's `_mirror_index_fixer` (used by interpolation.py:358-359). -/
def mirrorIndex (k : ℤ) (n : ℤ) : ℤ := |(k + (n - 1)) % (2 * (n - 1)) - (n - 1)|

/-- The index that is read for index `k` of an axis with `n` entries, per mode (JAX's `_INDEX_FIXERS`; the table of interpolation.py:323-337). -/
def ExtendMode.fix (n : ℕ) (k : ℤ) : ExtendMode → ℤ
  | .constant => k
  | .nearest => max 0 (min k (n - 1))
  | .wrap => k % n
  | .mirror => mirrorIndex k n
  | .reflect => (mirrorIndex (2 * k + 1) (2 * n + 1) - 1) / 2

/-- The entry that contributes for the index `k`: `cval` for a `constant` index outside the array (interpolation.py:338). -/
noncomputable def ExtendMode.entry (mode : ExtendMode) (cval : ℝ) (u : NArr d ℝ) (k : Idx d) : ℝ :=
  open Classical in
  if mode = .constant ∧ ¬ InR u.shape k then cval else u.data fun a => mode.fix (u.shape a) (k a)

/-- `lax.round`: to the nearest integer, halves away from zero. -/
noncomputable def roundHalfAway (x : ℝ) : ℤ := if 0 ≤ x then ⌊x + 1 / 2⌋ else ⌈x - 1 / 2⌉

/-- `jax.scipy.ndimage.map_coordinates(input, coordinates, order, mode, cval)` at one point (called in interpolation.py:358-359). -/
noncomputable def mapCoordinates (u : NArr d ℝ) (x : Fin d → ℝ) (order : ℤ) (mode : ExtendMode) (cval : ℝ) : Except Err ℝ :=
  if order = 0 then .ok (mode.entry cval u fun a => roundHalfAway (x a))
  else if order = 1 then
    .ok (∑ b : Fin d → Bool, (∏ a, if b a = true then x a - ⌊x a⌋ else 1 - (x a - ⌊x a⌋)) *
      mode.entry cval u fun a => ⌊x a⌋ + (if b a = true then 1 else 0))
  else .error .notImplemented

/-- `point_interpolation` (interpolation.py:308-359).  The point has one coordinate per dimension (broadcasting of a shorter one is not modelled). -/
noncomputable def pointInterpolation (point : Fin d → ℝ) (c : GridArray d ℝ) (order : ℤ) (mode : String) (cval : ℝ) : Except Err ℝ := do
  if d = 0 then throw .value
  let mode ← ExtendMode.parse mode
  mapCoordinates c.toNArr (fun a => -(c.offset a : ℝ) + (point a - (c.grid.domain a).1) * c.grid.shape a / ((c.grid.domain a).2 - (c.grid.domain a).1)) order mode cval

end JaxCfd
