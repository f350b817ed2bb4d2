import Verif.Model.Grids
import Verif.Model.Seq

/-!
# Construction of grids and variables, axes and meshes (`jax_cfd/base/grids.py`)

Here the arguments are Python sequences of arbitrary length (lists), so that the length checks of the
constructors can be stated.  Sizes are natural numbers (the code would accept negative sizes).
-/

namespace JaxCfd
variable {d : ℕ} {K : Type}

/-- The `step` argument of `Grid` (grids.py:519): `None`, a number or a sequence. -/
inductive StepArg (K : Type) where
  | none
  | scalar (x : K)
  | seq (xs : List K)

/-- The `domain` argument of `Grid` (grids.py:520): `None`, a number or a sequence of sequences. -/
inductive DomainArg (K : Type) where
  | none
  | scalar (x : K)
  | seq (xs : List (List K))

/-- The three attributes of a constructed `Grid` (grids.py:512-514). -/
structure RawGrid (K : Type) where
  shape : List ℕ
  step : List K
  domain : List (K × K)

/-- `tuple((float(lower), float(upper)) for lower, upper in domain)` (grids.py:537); unpacking something that is not
a pair is a ValueError. -/
def asPairs : List (List K) → Except Err (List (K × K))
  | [] => .ok []
  | [a, b] :: rest => do
      let r ← asPairs rest
      return (a, b) :: r
  | _ :: _ => .error .value

/-- The domain computed by `Grid.__init__` (grids.py:523-548). -/
def gridDomain [Field K] (shape : List ℕ) : StepArg K → DomainArg K → Except Err (List (K × K))
  | .scalar _, .scalar _ => .error .type
  | .scalar _, .seq _ => .error .type
  | .seq _, .scalar _ => .error .type
  | .seq _, .seq _ => .error .type
  | .none, .scalar x => .ok (List.replicate shape.length (0, x))
  | .none, .seq xs =>
      if xs.length ≠ shape.length then .error .value
      else if (xs.all fun b => b.length == 2) = false then .error .value
      else asPairs xs
  | .none, .none => .ok (shape.map fun n : ℕ => (0, 1 * (n : K)))
  | .scalar x, .none => .ok (shape.map fun n : ℕ => (0, x * (n : K)))
  | .seq xs, .none =>
      if xs.length ≠ shape.length then .error .value
      else .ok (List.zipWith (fun x n => (0, x * ((n : ℕ) : K))) xs shape)

/-- `Grid.__init__` (grids.py:516-554).  Python floats: `(upper - lower) / size` raises ZeroDivisionError for
`size = 0`. -/
def gridInit [Field K] (shape : List ℕ) (step : StepArg K) (domain : DomainArg K) :
    Except Err (RawGrid K) := do
  let dom ← gridDomain shape step domain
  if 0 ∈ shape then throw .zeroDivision
  else return ⟨shape, List.zipWith (fun b n => (b.2 - b.1) / ((n : ℕ) : K)) dom shape, dom⟩

/-- The rank check of `GridVariable.__post_init__` (grids.py:291-298): number of `bc.types` entries against
`grid.ndim`. -/
def variableRankCheck (bcTypes : List (BCType × BCType)) (gridShape : List ℕ) : Except Err Unit :=
  if bcTypes.length ≠ gridShape.length then .error .value else .ok ()

/-- `Grid.cell_center` (grids.py:562-565). -/
def Grid.cellCenter (_ : Grid d K) : Fin d → ℚ := fun _ => 1 / 2

/-- `Grid.cell_faces` (grids.py:567-572): rows of `(eye + ones) / 2`. -/
def Grid.cellFaces (_ : Grid d K) (j : Fin d) : Fin d → ℚ :=
  fun i => ((if i = j then 1 else 0) + 1) / 2

/-- `Grid.axes` (grids.py:584-602).  `none` means the cell centre. -/
def Grid.axes [Field K] (g : Grid d K) (offset : Option (List K)) : Except Err (Fin d → List K) :=
  let off := offset.getD (List.replicate d (1 / 2))
  if off.length ≠ d then .error .value
  else .ok fun a => (List.range (g.shape a)).map fun i : ℕ =>
    (g.domain a).1 + ((i : K) + off.getD a 0) * g.step a

/-- `Grid.mesh` (grids.py:640-653): `jnp.meshgrid(*axes, indexing='ij')`. -/
def Grid.mesh [Field K] (g : Grid d K) (offset : Option (List K)) : Except Err (Fin d → NArr d K) := do
  let axes ← g.axes offset
  return fun n => ⟨g.shape, fun i => (axes n).getD (i n).toNat 0⟩

/-- `Grid.eval_on_mesh` (grids.py:660-675) for a pointwise function `fn(x, y, ...)` and an offset given by
rationals. -/
def Grid.evalOnMesh [Field K] [CharZero K] (g : Grid d K) (fn : (Fin d → K) → K) (offset : Fin d → ℚ) :
    Except Err (GridArray d K) := do
  let m ← g.mesh (some (List.ofFn fun a => (offset a : K)))
  return ⟨⟨g.shape, fun i => fn fun a => (m a).data i⟩, offset, g⟩

/-- An argument of a ufunc or of a function wrapped by `grids.applied` (grids.py:89-108, 401-438). -/
inductive UArg (d : ℕ) (K : Type) where
  | array (u : GridArray d K)
  | var (u : GridVariable d K)
  | raw (x : K)

namespace UArg
/-- `x.data if isinstance(x, GridArray) else x`, at one index (scalars broadcast). -/
def value [Zero K] (i : Idx d) : UArg d K → K
  | .array u => u.data i
  | .raw x => x
  | .var _ => 0
/-- `[x for x in args if isinstance(x, GridArray)]` -/
def arrays (args : List (UArg d K)) : List (GridArray d K) :=
  args.filterMap fun | .array u => some u | _ => none
def isVariable : UArg d K → Bool
  | .var _ => true
  | _ => false
end UArg

/-- The result of an elementwise function on arrays and scalars.  Arrays must have one shape (broadcasting between
different shapes is not modelled and treated as an error). -/
def elementwise [Zero K] (f : List K → K) (args : List (UArg d K)) : Except Err (NArr d K) := do
  let s ← uniqueOr .type (fun u : GridArray d K => u.shape) (UArg.arrays args)
  return ⟨s, fun i => f (args.map (UArg.value i))⟩

/-- `GridArray.__array_ufunc__` (grids.py:89-108).  A GridVariable argument makes it return `NotImplemented`, i.e.
numpy raises a TypeError. -/
def arrayUfunc [Zero K] [DecidableEq K] (f : List K → K) (args : List (UArg d K)) :
    Except Err (GridArray d K) :=
  if args.any UArg.isVariable then .error .type
  else do
    let data ← elementwise f args
    let o ← consistentOffset (UArg.arrays args)
    let g ← consistentGrid (UArg.arrays args)
    return ⟨data, o, g⟩

/-- `grids.applied(func)` (grids.py:401-438). -/
def applied [Zero K] [DecidableEq K] (f : List K → K) (args : List (UArg d K)) :
    Except Err (GridArray d K) :=
  if args.any UArg.isVariable then .error .value
  else do
    let o ← consistentOffset (UArg.arrays args)
    let g ← consistentGrid (UArg.arrays args)
    let data ← elementwise f args
    return ⟨data, o, g⟩

/-- `grids.averaged_offset` (grids.py:441-445): `np.mean` over the arrays, per axis (nan when there are
none; here 0). -/
def averagedOffset (us : List (GridArray d K)) : Fin d → ℚ :=
  fun a => (us.map fun u => u.offset a).sum / us.length

/-- `grids.control_volume_offsets` (grids.py:448-454). -/
def controlVolumeOffsets (c : GridArray d K) (j : Fin d) : Fin d → ℚ :=
  fun i => if i = j then c.offset i + 1 / 2 else c.offset i

/-- `grids.domain_interior_masks` (grids.py:678-690): for every cell face offset, the product over all axes of
`not isclose(x, lower)` and `not isclose(x, upper)` (isclose is equality). -/
def domainInteriorMasks [Field K] [DecidableEq K] (g : Grid d K) : Except Err (Fin d → NArr d K) :=
  seqFin fun j => do
    let mesh ← g.mesh (some (List.ofFn fun a => ((if a = j then 1 else 0) + 1) / 2))
    return ⟨g.shape, fun i => ((List.finRange d).map fun a =>
      (if (mesh a).data i = (g.domain a).2 then (0 : K) else 1) *
      (if (mesh a).data i = (g.domain a).1 then (0 : K) else 1)).prod⟩

end JaxCfd
