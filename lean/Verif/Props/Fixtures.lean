import Verif.Model.Boundaries
import Mathlib.Data.Fin.VecNotation
import Mathlib.Tactic.FinCases

/-!
Concrete values used by the non-vacuity examples that stand beside the property theorems.
-/

namespace JaxCfd.Fixtures

/-- The rationals with `nan` interpreted as 0 (only used in examples). -/
instance : HasNan ℚ := ⟨0⟩

/-- a 1-d grid with four cells on [0, 2] -/
def g4 : Grid 1 ℚ := ⟨fun _ => 4, fun _ => (0, 2)⟩

/-- 1-d data `u[i] = i² + 1` at the cell centres of `g4` -/
def uCenter : GridArray 1 ℚ := ⟨⟨fun _ => 4, fun i => (i 0 : ℚ) ^ 2 + 1⟩, fun _ => 1 / 2, g4⟩

/-- 1-d data at the upper faces of `g4`, the last one lying on the wall -/
def uFace : GridArray 1 ℚ := ⟨⟨fun _ => 4, fun i => (i 0 : ℚ) ^ 2 + 1⟩, fun _ => 1, g4⟩

/-- 1-d data at the interior faces of `g4` -/
def uInner : GridArray 1 ℚ := ⟨⟨fun _ => 3, fun i => (i 0 : ℚ) ^ 2 + 1⟩, fun _ => 1, g4⟩

def bcPer : BC 1 ℚ := ⟨.homogeneous, fun _ => (.periodic, .periodic), fun _ => (some 0, some 0)⟩
def bcDir : BC 1 ℚ := ⟨.constant, fun _ => (.dirichlet, .dirichlet), fun _ => (some 3, some 5)⟩
def bcNeu : BC 1 ℚ := ⟨.constant, fun _ => (.neumann, .neumann), fun _ => (some 3, some 5)⟩

/-- a 2-d grid with 3 x 4 cells on [0,3] x [0,2] -/
def g34 : Grid 2 ℚ := ⟨![3, 4], fun a => (0, if a = 0 then 3 else 2)⟩

/-- 2-d data at cell centres of `g34` -/
def u34 : GridArray 2 ℚ :=
  ⟨⟨![3, 4], fun i => (i 0 : ℚ) ^ 2 + 7 * (i 1 : ℚ)⟩, fun _ => 1 / 2, g34⟩

def bcPer2 : BC 2 ℚ := ⟨.homogeneous, fun _ => (.periodic, .periodic), fun _ => (some 0, some 0)⟩

/-- a periodic scalar on `g34` -/
def pu34 : GridVariable 2 ℚ := ⟨u34, bcPer2⟩

/-- a periodic velocity on the upper faces of `g34` -/
def pv34 (a : Fin 2) : GridVariable 2 ℚ :=
  ⟨⟨⟨![3, 4], fun i => (i 0 : ℚ) * (i 1 : ℚ) + (a : ℕ) - 2⟩, fun b => if b = a then 1 else 1 / 2, g34⟩, bcPer2⟩

/-- a periodic velocity on the upper faces of a 3-d grid -/
def pv3 (a : Fin 3) : GridVariable 3 ℚ :=
  ⟨⟨⟨fun _ => 3, fun i => (i 0 : ℚ) * (i 1 : ℚ) + (i 2 : ℚ) ^ 2 * (a : ℕ)⟩, fun b => if b = a then 1 else 1 / 2,
    ⟨fun _ => 3, fun _ => (0, 1)⟩⟩, ⟨.homogeneous, fun _ => (.periodic, .periodic), fun _ => (some 0, some 0)⟩⟩

/-- the quadratic `3 x² + 2 x + 1` sampled at the cell centres of `g4` (step 1/2) -/
def pq4 : GridVariable 1 ℚ :=
  ⟨⟨⟨fun _ => 4, fun i => 3 * (((i 0 : ℚ) + 1 / 2) * (1 / 2)) ^ 2 + 2 * (((i 0 : ℚ) + 1 / 2) * (1 / 2)) + 1⟩,
    fun _ => 1 / 2, g4⟩, bcPer⟩

end JaxCfd.Fixtures
