import Verif.Model.Arr
import Mathlib.Algebra.BigOperators.Fin
import Mathlib.Order.Interval.Finset.Fin

/-!
# Row-major `reshape`

Shapes and indices of arrays whose rank is not fixed are lists.
-/

namespace JaxCfd
variable {d : ℕ} {K : Type}

/-- Position of an index in the row-major ordering of an array of the given shape. -/
def ravelIdx : List ℕ → List ℤ → ℤ
  | _ :: ss, i :: is => i * (ss.prod : ℕ) + ravelIdx ss is
  | _, _ => 0

/-- The index at a position of the row-major ordering. -/
def unravelIdx : List ℕ → ℤ → List ℤ
  | [], _ => []
  | s :: ss, t => t / (ss.prod : ℕ) % (s : ℤ) :: unravelIdx ss t

/-- An array of any rank. -/
structure LArr (K : Type) where
  shape : List ℕ
  data : List ℤ → K

/-- The index lies inside the shape (and has the right length). -/
def LInR : List ℕ → List ℤ → Prop
  | [], [] => True
  | s :: ss, i :: is => (0 ≤ i ∧ i < s) ∧ LInR ss is
  | _, _ => False

/-- Same shape and same in-range entries. -/
def LArr.Eqv (x y : LArr K) : Prop := x.shape = y.shape ∧ ∀ i, LInR x.shape i → x.data i = y.data i

/-- `x.reshape(shape)`: the row-major order of the entries is kept; the number of entries must agree. -/
def LArr.reshape (x : LArr K) (shape : List ℕ) : Except Err (LArr K) :=
  if shape.prod ≠ x.shape.prod then .error .type
  else .ok ⟨shape, fun i => x.data (unravelIdx x.shape (ravelIdx shape i))⟩

/-- An array of fixed rank as one with list shape. -/
def NArr.toL (x : NArr d K) : LArr K := ⟨List.ofFn x.shape, fun i => x.data fun a => i.getD a 0⟩

end JaxCfd
