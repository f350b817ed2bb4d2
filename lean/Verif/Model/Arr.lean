import Mathlib.Data.Rat.Floor
import Mathlib.Data.Fintype.Pi
import Mathlib.Data.Fintype.BigOperators
import Mathlib.Algebra.Field.Basic
import Mathlib.Algebra.BigOperators.Ring.Finset
import Mathlib.Order.Interval.Finset.Basic
import Mathlib.Data.Int.Interval

/-!
# Arrays and the few `jax.numpy` primitives the solvers are built from

An `n`-d array is a shape together with a data function on integer multi-indices.  Only the values at
indices inside the shape (`InR`) are meaningful; every property theorem speaks about those only.

Simplifications: exact scalars instead of floats, no dtypes, no tracing.  Errors raised by the library
primitives are returned as values of `Except Err`.
-/

namespace JaxCfd

/-- Exceptions raised by the modelled code (Python exception classes). -/
inductive Err where
  | value            -- ValueError
  | type             -- TypeError
  | notImplemented   -- NotImplementedError
  | index            -- IndexError
  | zeroDivision     -- ZeroDivisionError
  | key              -- KeyError
  | assertion        -- AssertionError
  | runtime          -- RuntimeError (einops.EinopsError)
  | offset           -- grids.InconsistentOffsetError
  | grid             -- grids.InconsistentGridError
  | bc               -- grids.InconsistentBoundaryConditionsError
  deriving DecidableEq, Repr

/-- Multi-indices of a `d`-dimensional array. -/
abbrev Idx (d : ℕ) := Fin d → ℤ

/-- The index lies inside the shape: `0 ≤ i[a] < shape[a]` on every axis. -/
def InR {d : ℕ} (s : Fin d → ℕ) (i : Idx d) : Prop := ∀ a, 0 ≤ i a ∧ i a < s a

/-- An n-d array. -/
structure NArr (d : ℕ) (K : Type) where
  shape : Fin d → ℕ
  data : Idx d → K

namespace NArr

variable {d : ℕ} {K : Type}

/-- Two arrays are the same array: same shape and same in-range entries. -/
def Eqv (a b : NArr d K) : Prop :=
  a.shape = b.shape ∧ ∀ i, InR a.shape i → a.data i = b.data i

/-- elementwise unary operation -/
def map {L : Type} (f : K → L) (a : NArr d K) : NArr d L := ⟨a.shape, fun i => f (a.data i)⟩

/-- elementwise binary operation on arrays of one shape
(broadcasting is not modelled: all uses combine arrays of one shape) -/
def map2 {L M : Type} (f : K → L → M) (a : NArr d K) (b : NArr d L) : NArr d M :=
  ⟨a.shape, fun i => f (a.data i) (b.data i)⟩

end NArr

/-- The modes of `jnp.pad` that the code uses, `const lo hi` being `mode='constant'` with the pair of
constants of the padded axis (all other axes are always padded by `(0, 0)`, so their constants are
never used). -/
inductive PadMode (K : Type) where
  | wrap
  | symmetric
  | reflect
  | edge
  | const (lo hi : K)

/-- `np.pad(mode='wrap')`: periodic continuation. -/
def wrapIdx (n : ℕ) (j : ℤ) : ℤ := j % (n : ℤ)

/-- `np.pad(mode='symmetric')`: reflection about the outer face of the last cell, period `2n`. -/
def symIdx (n : ℕ) (j : ℤ) : ℤ :=
  if j % (2 * (n : ℤ)) < n then j % (2 * (n : ℤ)) else 2 * (n : ℤ) - 1 - j % (2 * (n : ℤ))

/-- `np.pad(mode='reflect')`: reflection about the centre of the last cell, period `2(n-1)`. -/
def reflIdx (n : ℕ) (j : ℤ) : ℤ :=
  if n ≤ 1 then 0
  else if j % (2 * ((n : ℤ) - 1)) < n then j % (2 * ((n : ℤ) - 1))
  else 2 * ((n : ℤ) - 1) - j % (2 * ((n : ℤ) - 1))

/-- `np.pad(mode='edge')`: clamping. -/
def edgeIdx (n : ℕ) (j : ℤ) : ℤ := max 0 (min j ((n : ℤ) - 1))

section
variable {d : ℕ} {K : Type}

/-- Pads the data with an index map: entry `i` of the result is entry `m(i - lo)` of the input. -/
def padIdxData (x : NArr d K) (ax : Fin d) (lo : ℤ) (m : ℕ → ℤ → ℤ) : Idx d → K :=
  fun i => x.data (Function.update i ax (m (x.shape ax) (i ax - lo)))

/-- Data of `jnp.pad` along one axis. -/
def padData (x : NArr d K) (ax : Fin d) (lo : ℤ) : PadMode K → Idx d → K
  | .wrap => padIdxData x ax lo wrapIdx
  | .symmetric => padIdxData x ax lo symIdx
  | .reflect => padIdxData x ax lo reflIdx
  | .edge => padIdxData x ax lo edgeIdx
  | .const vlo vhi => fun i =>
      if i ax < lo then vlo
      else if i ax < lo + x.shape ax then x.data (Function.update i ax (i ax - lo))
      else vhi

/-- Whether the mode needs existing entries to copy from. -/
def PadMode.needsData : PadMode K → Bool
  | .const _ _ => false
  | _ => true

/-- `jnp.pad(x, [(0,0),..,w,..,(0,0)], mode)`, padding only axis `ax`.  Raises on negative widths and on
copying modes applied to an empty axis. -/
def jnpPad (x : NArr d K) (ax : Fin d) (w : ℤ × ℤ) (m : PadMode K) : Except Err (NArr d K) :=
  if w.1 < 0 ∨ w.2 < 0 then .error .value
  else if m.needsData = true ∧ x.shape ax = 0 ∧ (w.1 ≠ 0 ∨ w.2 ≠ 0) then .error .value
  else .ok ⟨Function.update x.shape ax (x.shape ax + w.1.toNat + w.2.toNat), padData x ax w.1 m⟩

/-- `lax.slice_in_dim(x, start, limit, axis)`: negative indices count from the end, anything but
`0 ≤ start ≤ limit ≤ n` is a TypeError. -/
def sliceInDim (x : NArr d K) (start limit : ℤ) (ax : Fin d) : Except Err (NArr d K) :=
  let n : ℤ := x.shape ax
  let s := if start < 0 then start + n else start
  let l := if limit < 0 then limit + n else limit
  if 0 ≤ s ∧ s ≤ l ∧ l ≤ n then
    .ok ⟨Function.update x.shape ax (l - s).toNat, fun i => x.data (Function.update i ax (i ax + s))⟩
  else .error .type

/-- The set of in-range indices of a shape. -/
def box (s : Fin d → ℕ) : Finset (Idx d) := Fintype.piFinset fun a => Finset.Ico (0 : ℤ) (s a)

/-- `x.sum()`: the sum of all entries of an array. -/
def NArr.sum [AddCommMonoid K] (x : NArr d K) : K := ∑ i ∈ box x.shape, x.data i

end

end JaxCfd
