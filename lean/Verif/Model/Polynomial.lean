import Verif.Model.Patches
import Verif.Model.ArrayUtils
import Mathlib.Data.Nat.Factorial.Basic
import Mathlib.Data.List.Lex
import Mathlib.Data.Real.Sqrt

/-!
# Polynomial accuracy constraints (`ml/layers_util.py`, `ml/layers.py`)

One-dimensional NumPy arrays are lists of reals.  `np.linalg.solve` and the right factor of
`np.linalg.svd` are parameters.
-/

namespace JaxCfd

/-- `Method`: ml/layers_util.py:18-21. -/
inductive Method where
  | finiteDifference
  | finiteVolume
  deriving DecidableEq

/-- `np.kron` of one-dimensional arrays. -/
def kron (xs ys : List ℝ) : List ℝ := xs.flatMap fun x => ys.map fun y => x * y

/-- `_kronecker_product`: ml/layers_util.py:24-26 (`functools.reduce` of nothing is a TypeError). -/
def kroneckerProduct : List (List ℝ) → Except Err (List ℝ)
  | [] => .error .type
  | l :: ls => .ok (ls.foldl kron l)

/-- `_exponents_up_to_degree`: ml/layers_util.py:29-53. -/
def exponentsUpToDegree : (degree num : ℕ) → List (List ℕ)
  | _, 0 => [[]]
  | degree, num + 1 => (List.range (degree + 1)).flatMap fun e =>
      (exponentsUpToDegree (degree - e) num).map fun r => e :: r

/-- Left-hand side for one axis: ml/layers_util.py:119-133. -/
noncomputable def lhsTerm (method : Method) (gridStep : Option ℝ) (exponent : ℕ) (stencil : List ℝ) : Except Err (List ℝ) :=
  match method with
  | .finiteVolume => match gridStep with
    | none => .error .value
    | some h => .ok (stencil.map fun s =>
        1 / h * ((s + h / 2) ^ (exponent + 1) - (s - h / 2) ^ (exponent + 1)) / ((exponent : ℝ) + 1))
  | .finiteDifference => .ok (stencil.map fun s => s ^ exponent)

/-- Right-hand side for one axis: ml/layers_util.py:135-140. -/
def rhsTerm (exponent order : ℕ) : ℝ := if exponent = order then (exponent.factorial : ℝ) else 0

/-- The loop over axes for one tuple of exponents: ml/layers_util.py:112-140. -/
noncomputable def constraintTerms (method : Method) (gridStep : Option ℝ) :
    List ℕ → List (List ℝ) → List ℕ → Except Err (List (List ℝ) × List ℝ)
  | e :: es, s :: ss, o :: os => do
      let l ← lhsTerm method gridStep e s
      let r ← constraintTerms method gridStep es ss os
      return (l :: r.1, rhsTerm e o :: r.2)
  | _, _, _ => .ok ([], [])

open Classical in
/-- Entering one constraint into the dictionary: ml/layers_util.py:142-147. -/
noncomputable def addConstraint (all : List (List ℝ × ℝ)) (lhs : List ℝ) (rhs : ℝ) : Except Err (List (List ℝ × ℝ)) :=
  match all.find? (fun q => decide (q.1 = lhs)) with
  | some q => if q.2 ≠ rhs then .error .value else .ok all
  | none => .ok (all ++ [(lhs, rhs)])

open Classical in
/-- `polynomial_accuracy_constraints`: ml/layers_util.py:56-151.  The result lists the rows of `(A, b)`. -/
noncomputable def polynomialAccuracyConstraints (stencils : List (List ℝ)) (method : Method) (orders : List ℕ)
    (accuracy : ℤ) (gridStep : Option ℝ) : Except Err (List (List ℝ × ℝ)) :=
  if stencils.length ≠ orders.length then .error .value
  else if accuracy < 1 then .error .value
  else do
    let all ← (exponentsUpToDegree (accuracy + (orders.sum : ℕ) - 1).toNat stencils.length).foldlM (fun all exponents => do
      let t ← constraintTerms method gridStep exponents stencils orders
      let lhs ← kroneckerProduct t.1
      addConstraint all lhs t.2.prod) []
    return all.mergeSort fun p q => decide (p.1 ≤ q.1)

/-- Python `l[start:stop]`. -/
def pySliceList {α : Type} (l : List α) (start stop : ℤ) : List α :=
  let lo := (clipBound l.length start).toNat
  (l.take (clipBound l.length stop).toNat).drop lo

/-- The part of a stencil that is used: ml/layers_util.py:213-219. -/
def coefficientSlice (size order : ℕ) (accuracy : Option ℤ) : ℤ × ℤ :=
  let excess : ℤ := match accuracy with
    | none => 0
    | some acc => (size : ℤ) - order - acc
  (excess / 2, (size : ℤ) - excess / 2)

/-- `_high_order_coefficients_1d`: ml/layers_util.py:154-178. -/
noncomputable def highOrderCoefficients (solve : List (List ℝ) → List ℝ → Except Err (List ℝ)) (stencil : List ℝ) (method : Method)
    (order : ℕ) (gridStep : Option ℝ) : Except Err (List ℝ) := do
  let rows ← polynomialAccuracyConstraints [stencil] method [order] ((stencil.length : ℤ) - order) gridStep
  solve (rows.map fun q => q.1) (rows.map fun q => q.2)

/-- The coefficients along every axis: ml/layers_util.py:210-225. -/
noncomputable def axisCoefficients (solve : List (List ℝ) → List ℝ → Except Err (List ℝ)) (method : Method)
    (accuracy : Option ℤ) (gridStep : Option ℝ) : List (List ℝ) → List ℕ → Except Err (List (List ℝ))
  | s :: ss, o :: os => do
      let sl := coefficientSlice s.length o accuracy
      let c ← highOrderCoefficients solve (pySliceList s sl.1 sl.2) method o gridStep
      let r ← axisCoefficients solve method accuracy gridStep ss os
      return c :: r
  | _, _ => .ok []

/-- `polynomial_accuracy_coefficients(..).ravel()`: ml/layers_util.py:181-229.  The outer product of the
coefficients is written into the block of a zero array selected by the slices; the entries are listed in
row-major order.  Simplification: the array and the derivative orders have one entry per stencil. -/
noncomputable def polynomialAccuracyCoefficients (solve : List (List ℝ) → List ℝ → Except Err (List ℝ)) (stencils : List (List ℝ))
    (method : Method) (orders : List ℕ) (accuracy : Option ℤ) (gridStep : Option ℝ) : Except Err (List ℝ) := do
  let cs ← axisCoefficients solve method accuracy gridStep stencils orders
  let block ← kroneckerProduct cs
  let lo : List ℤ := List.zipWith (fun (s : List ℝ) (o : ℕ) => clipBound s.length (coefficientSlice s.length o accuracy).1) stencils orders
  let hi : List ℤ := List.zipWith (fun (s : List ℝ) (o : ℕ) => clipBound s.length (coefficientSlice s.length o accuracy).2) stencils orders
  let sizes : List ℕ := List.zipWith (fun l h => (h - l).toNat) lo hi
  return (cartesian (stencils.map fun s => pyRange 0 s.length)).map fun o =>
    if ∀ a < stencils.length, lo.getD a 0 ≤ o.getD a 0 ∧ o.getD a 0 < hi.getD a 0
    then block.getD (ravelIdx sizes (List.zipWith (fun i l => i - l) o lo)).toNat 0
    else 0

/-- Dot product of two arrays. -/
def dotL (xs ys : List ℝ) : ℝ := (List.zipWith (fun x y => x * y) xs ys).sum

/-- `np.linalg.norm(A @ c - b)`: ml/layers.py:505. -/
noncomputable def residualNorm (rows : List (List ℝ × ℝ)) (c : List ℝ) : ℝ :=
  Real.sqrt ((rows.map fun q => (dotL q.1 c - q.2) ^ 2).sum)

/-- The state of a `PolynomialConstraint`. -/
structure PolyConstraint where
  bias : List ℝ
  nullspace : List (List ℝ)
  nullspaceSize : ℤ

/-- `PolynomialConstraint.__init__`, the part after the bias is known: ml/layers.py:505-520
(`np.dot` refuses a bias of the wrong length). -/
noncomputable def finishPolyConstraint (svd : List (List ℝ) → List (List ℝ)) (rows : List (List ℝ × ℝ)) (orders : List ℕ) (h : ℝ)
    (bias : List ℝ) : Except Err PolyConstraint :=
  let v := svd (rows.map fun q => q.1)
  let columns : ℕ := ((rows.map fun q => q.1.length).head?).getD 0
  let size : ℤ := (columns : ℤ) - rows.length
  if bias.length ≠ columns then .error .value
  else if residualNorm rows bias > 1 / 10 ^ 8 then .error .value
  else if size = 0 then .error .value
  else .ok
    { bias := bias
      nullspace := (pySliceList v (-size) v.length).map fun r => r.map fun x => x / (orders.map fun o => h ^ o).prod
      nullspaceSize := size }

open Classical in
/-- `PolynomialConstraint.__init__`: ml/layers.py:462-520. -/
noncomputable def mkPolyConstraint (solve : List (List ℝ) → List ℝ → Except Err (List ℝ)) (svd : List (List ℝ) → List (List ℝ))
    (stencils : List (List ℝ)) (orders : List ℕ) (method : Method) (steps : List ℝ) (accuracy biasAccuracy : ℤ)
    (bias : Option (List ℝ)) : Except Err PolyConstraint :=
  if steps.dedup.length ≠ 1 then .error .value
  else do
    let h := steps.dedup.getD 0 0
    let rows ← polynomialAccuracyConstraints stencils method orders accuracy (some h)
    let b ← match bias with
      | some b => .ok b
      | none => polynomialAccuracyCoefficients solve stencils method orders (some biasAccuracy) (some h)
    finishPolyConstraint svd rows orders h b

/-- `PolynomialConstraint.__call__` at one point: ml/layers.py:527-544. -/
noncomputable def PolyConstraint.apply (p : PolyConstraint) (inputs : List ℝ) : Except Err (List ℝ) :=
  if inputs.length ≠ p.nullspace.length then .error .type
  else .ok ((List.range p.bias.length).map fun j => p.bias.getD j 0 +
    ((List.zipWith (fun x (r : List ℝ) => x * r.getD j 0) inputs p.nullspace).sum))

end JaxCfd
