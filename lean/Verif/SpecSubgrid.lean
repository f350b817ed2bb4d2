import Verif.Spec
import Mathlib.Data.Real.Basic

/-!
# Specification vocabulary for eddy viscosity models: difference quotients on the periodic grid
-/

namespace JaxCfd
variable {d : ℕ}

/-- Forward difference quotient on the periodic grid. -/
noncomputable def fwd (g : Grid d ℝ) (a : Fin d) (f : Idx d → ℝ) (i : Idx d) : ℝ := (f (rollIdx g.shape a 1 i) - f i) / g.step a

/-- Backward difference quotient on the periodic grid. -/
noncomputable def bwd (g : Grid d ℝ) (a : Fin d) (f : Idx d → ℝ) (i : Idx d) : ℝ := (f i - f (rollIdx g.shape a (-1) i)) / g.step a

/-- The rate of strain of a periodic field: `(∂ⱼ vᵢ + ∂ᵢ vⱼ) / 2` with forward differences. -/
noncomputable def strain (g : Grid d ℝ) (w : Fin d → Idx d → ℝ) (i j : Fin d) (p : Idx d) : ℝ :=
  1 / 2 * (fwd g j (w i) p + fwd g i (w j) p)

/-- The position of the strain component `i j` in its cell: half a cell from the centre along both axes (so a whole cell if `i = j`). -/
def edge (i j : Fin d) : Fin d → ℚ := fun b => 1 / 2 + (if b = i then 1 / 2 else 0) + (if b = j then 1 / 2 else 0)

/-- The strain tensor of a velocity field as `evm_model` passes it to the viscosity model: component `i j` has one value per cell. -/
noncomputable def strainTensor (g : Grid d ℝ) (w : Fin d → Idx d → ℝ) (i j : Fin d) : GridArray d ℝ := ⟨⟨g.shape, strain g w i j⟩, edge i j, g⟩

/-- `Σᵢⱼ sum(ν[i,j] * s[i,j]²)`. -/
noncomputable def dissipation (g : Grid d ℝ) (nu s : Fin d → Fin d → Idx d → ℝ) : ℝ :=
  ∑ i, ∑ j, ∑ p ∈ box g.shape, nu i j p * s i j p ^ 2

end JaxCfd
