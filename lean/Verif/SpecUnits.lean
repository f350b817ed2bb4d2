import Verif.SpecPermute

/-!
# Changing the units of measurement: the vocabulary of C77

`l` is the factor of lengths and `m` the factor of the quantity stored in an array.
-/

namespace JaxCfd
variable {d : ℕ} {K : Type}

/-- The same array in other units: the entries are multiplied by `m`. -/
def NArr.Scaled [Mul K] (m : K) (x y : NArr d K) : Prop := y.shape = x.shape ∧ ∀ i : Idx d, InR x.shape i → y.data i = m * x.data i

variable [Field K]

/-- The same grid with lengths in other units. -/
def Grid.inUnits (l : K) (g : Grid d K) : Grid d K := ⟨g.shape, fun a => (l * (g.domain a).1, l * (g.domain a).2)⟩

/-- A boundary value in other units: a Neumann value is a derivative of the quantity. -/
def sideInUnits (l m : K) (t : BCType) (v : Option K) : Option K := v.map fun x => (if t = .neumann then m / l else m) * x

/-- Boundary conditions in other units. -/
def BC.inUnits (l m : K) (b : BC d K) : BC d K :=
  ⟨b.cls, b.types, fun a => (sideInUnits l m (b.types a).1 (b.bcValues a).1, sideInUnits l m (b.types a).2 (b.bcValues a).2)⟩

/-- Every side that is not periodic has a boundary value. -/
def BC.Given (b : BC d K) : Prop := ∀ a, ((b.types a).1 ≠ .periodic → (b.bcValues a).1 ≠ none) ∧ ((b.types a).2 ≠ .periodic → (b.bcValues a).2 ≠ none)

/-- `v` is `u` in other units. -/
def GridArray.InUnits (l m : K) (u v : GridArray d K) : Prop := v.offset = u.offset ∧ v.grid = u.grid.inUnits l ∧ u.toNArr.Scaled m v.toNArr

/-- `v` is `u` in other units, and so are the boundary conditions. -/
def GridVariable.InUnits (l m : K) (u v : GridVariable d K) : Prop := v.bc = u.bc.inUnits l m ∧ u.bc.Given ∧ u.array.InUnits l m v.array

end JaxCfd
