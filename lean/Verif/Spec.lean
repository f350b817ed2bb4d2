import Verif.Model.Boundaries

/-!
# Specification vocabulary

The predicates the property theorems are stated with.  Nothing here is used by the model.
-/

namespace JaxCfd
variable {d : ℕ} {K : Type}

namespace BC
/-- Which variables `impose_bc` treats as data on all points of the grid: along every axis the array has the
size of the grid and is periodic, or cell centred between two walls, or has one wall point of a Dirichlet
wall (offset 0: the lower one, offset 1: the upper one). -/
def OnGrid (bc : BC d K) (u : GridArray d K) : Prop :=
  ∀ a, u.shape a = u.grid.shape a ∧ 0 < u.grid.shape a ∧
    (bc.types a = (.periodic, .periodic) ∨
     ((bc.types a).1 ≠ .periodic ∧ (bc.types a).2 ≠ .periodic ∧ u.offset a = 1 / 2) ∨
     (bc.types a = (.dirichlet, .dirichlet) ∧ (u.offset a = 0 ∨ u.offset a = 1)))
end BC

/-- The variable is periodic along every axis and holds one value per cell of a grid with at least one cell. -/
def GridVariable.Periodic (u : GridVariable d K) : Prop :=
  (∀ a, u.bc.types a = (.periodic, .periodic)) ∧
  ∀ a, u.array.shape a = u.array.grid.shape a ∧ 0 < u.array.grid.shape a

/-- The cyclic shift of an index along one axis: the index of the neighbour `k` cells away along axis `ax` of a
periodic grid of shape `s`. -/
def rollIdx (s : Fin d → ℕ) (ax : Fin d) (k : ℤ) (i : Idx d) : Idx d :=
  Function.update i ax ((i ax + k) % (s ax : ℤ))

/-- The discrete inner product `sum(x * y)` of two arrays of one shape. -/
def inner [Semiring K] (x y : NArr d K) : K := ∑ i ∈ box x.shape, x.data i * y.data i

/-- The variables on which all stencil operators are supported.  Along every axis the array has the size of the grid and
either is periodic, or lies at cell centres between two walls each of which carries a Dirichlet or Neumann condition, or
lies at the upper cell faces (the last one on the wall) between two Dirichlet walls. -/
def GridVariable.Supported (u : GridVariable d K) : Prop :=
  ∀ a, u.array.shape a = u.array.grid.shape a ∧ 0 < u.array.grid.shape a ∧
    (u.bc.types a = (.periodic, .periodic) ∨
     (((u.bc.types a).1 = .dirichlet ∨ (u.bc.types a).1 = .neumann) ∧
      ((u.bc.types a).2 = .dirichlet ∨ (u.bc.types a).2 = .neumann) ∧ u.array.offset a = 1 / 2) ∨
     (u.bc.types a = (.dirichlet, .dirichlet) ∧ u.array.offset a = 1))

/-- The value a stencil sees one cell above cell `i` along axis `ax` of a supported variable.  Beyond the last cell this is:
periodic, the first cell; cell centres and a Dirichlet wall of value `b`, the ghost value `2 b - u`; cell centres and a
Neumann wall of slope `b`, `u + h b`; upper faces, the wall value `b` (also in place of the stored wall value). -/
def GridVariable.above [Field K] [HasNan K] (u : GridVariable d K) (ax : Fin d) (i : Idx d) : K :=
  if (u.bc.types ax).2 = .periodic then u.array.data (rollIdx u.array.shape ax 1 i)
  else if u.array.offset ax = 1 / 2 then
    if i ax + 1 < u.array.shape ax then u.array.data (Function.update i ax (i ax + 1))
    else if (u.bc.types ax).2 = .dirichlet then 2 * (u.bc.constantValues ax).2 - u.array.data i
    else u.array.data i + u.array.grid.step ax * (u.bc.constantValues ax).2
  else if i ax + 2 < u.array.shape ax then u.array.data (Function.update i ax (i ax + 1))
  else (u.bc.constantValues ax).2

/-- The value a stencil sees one cell below cell `i` along axis `ax` of a supported variable. -/
def GridVariable.below [Field K] [HasNan K] (u : GridVariable d K) (ax : Fin d) (i : Idx d) : K :=
  if (u.bc.types ax).1 = .periodic then u.array.data (rollIdx u.array.shape ax (-1) i)
  else if 0 < i ax then u.array.data (Function.update i ax (i ax - 1))
  else if u.array.offset ax = 1 / 2 then
    if (u.bc.types ax).1 = .dirichlet then 2 * (u.bc.constantValues ax).1 - u.array.data i
    else u.array.data i - u.array.grid.step ax * (u.bc.constantValues ax).1
  else (u.bc.constantValues ax).1

/-- `u` is a face velocity of axis `ax` for the scalar `c`: half a cell above the scalar along that axis, same grid and
shape. -/
def FaceVelocity (c : GridVariable d K) (u : GridVariable d K) (ax : Fin d) : Prop :=
  u.array.shape = c.array.shape ∧ u.array.grid = c.array.grid ∧
  u.array.offset = Function.update c.array.offset ax (c.array.offset ax + 1 / 2)

/-- The offset half a cell above the variable along an axis. -/
def upperFace (c : GridVariable d K) (ax : Fin d) : Fin d → ℚ :=
  Function.update c.array.offset ax (c.array.offset ax + 1 / 2)

/-- A periodic velocity staggered around the scalar `c`: component `a` lives on the faces of axis `a` of the control volumes
of `c`, and carries homogeneous (periodic) boundary conditions. -/
def StaggeredPeriodic (c : GridVariable d K) (v : Fin d → GridVariable d K) : Prop :=
  ∀ a, (v a).Periodic ∧ (v a).bc.cls = .homogeneous ∧ FaceVelocity c (v a) a

/-- A velocity field on a staggered (MAC) grid, as the pressure projection expects it: component `a` is stored on the upper
faces of axis `a`, and every axis is either periodic for all components or closed by two walls: Dirichlet for the component
normal to the wall, Dirichlet or Neumann for the tangential components. -/
def VelocityField (g : Grid d K) (v : Fin d → GridVariable d K) : Prop :=
  (∀ b, 0 < g.shape b) ∧
  (∀ a, (v a).array.grid = g ∧ (v a).array.shape = g.shape ∧ ∀ b, (v a).array.offset b = if b = a then 1 else 1 / 2) ∧
  ∀ b, (∀ c, (v c).bc.types b = (.periodic, .periodic)) ∨
    ((v b).bc.types b = (.dirichlet, .dirichlet) ∧ ∀ c,
      (((v c).bc.types b).1 = .dirichlet ∨ ((v c).bc.types b).1 = .neumann) ∧
      (((v c).bc.types b).2 = .dirichlet ∨ ((v c).bc.types b).2 = .neumann))

/-- The stored values on the upper walls are the prescribed ones (what `impose_bc` establishes). -/
def WallsStored [HasNan K] (v : Fin d → GridVariable d K) : Prop :=
  ∀ a i, InR (v a).array.shape i → (v a).bc.types a = (.dirichlet, .dirichlet) → i a + 1 = (v a).array.shape a →
    (v a).array.data i = ((v a).bc.constantValues a).2

/-- Number of points of a supported variable along an axis that lie strictly inside the domain: all of them, except that the
last face between two Dirichlet walls lies on the wall. -/
def GridVariable.interior (u : GridVariable d K) (a : Fin d) : ℕ :=
  if u.bc.types a = (.dirichlet, .dirichlet) ∧ u.array.offset a = 1 then u.array.shape a - 1 else u.array.shape a

/-- The walls of the variable carry the value 0. -/
def GridVariable.HomogeneousWalls [Zero K] (u : GridVariable d K) : Prop :=
  ∀ a, u.bc.types a ≠ (.periodic, .periodic) → u.bc.bcValues a = (some 0, some 0)

end JaxCfd
