import Verif.Spec

/-!
# Relabelling the axes: the vocabulary of C72

A permutation `σ` of the axes: axis `a` of the relabelled object is axis `σ a` of the original one.
-/

namespace JaxCfd
variable {d : ℕ} {K : Type}

/-- If the first run returns, so does the second, with a related value. -/
def RelS {α β : Type} (R : α → β → Prop) (x : Except Err α) (y : Except Err β) : Prop := ∀ r, x = .ok r → ∃ s, y = .ok s ∧ R r s

/-- The index into the original array of the entry `i` of the transposed array. -/
def original (σ : Equiv.Perm (Fin d)) (i : Idx d) : Idx d := fun b => i (σ.symm b)

/-- The grid with its axes relabelled. -/
def Grid.permute (σ : Equiv.Perm (Fin d)) (g : Grid d K) : Grid d K := ⟨fun a => g.shape (σ a), fun a => g.domain (σ a)⟩

/-- Boundary conditions with their axes relabelled. -/
def BC.permute (σ : Equiv.Perm (Fin d)) (b : BC d K) : BC d K := ⟨b.cls, fun a => b.types (σ a), fun a => b.bcValues (σ a)⟩

/-- The array `v` is the transpose of `u` by `σ`. -/
def NArr.Transposed (σ : Equiv.Perm (Fin d)) (u v : NArr d K) : Prop :=
  (∀ a, v.shape a = u.shape (σ a)) ∧ (∀ a, 0 < u.shape a) ∧ ∀ i : Idx d, InR v.shape i → v.data i = u.data (original σ i)

/-- `v` is `u` with its axes relabelled: grid, offset and array; the arrays have the shape of the grid. -/
def GridArray.Relabelled (σ : Equiv.Perm (Fin d)) (u v : GridArray d K) : Prop :=
  (∀ a, v.offset a = u.offset (σ a)) ∧ v.grid = u.grid.permute σ ∧ u.shape = u.grid.shape ∧ u.toNArr.Transposed σ v.toNArr

/-- A periodic variable with its axes relabelled. -/
def GridVariable.Relabelled (σ : Equiv.Perm (Fin d)) (u v : GridVariable d K) : Prop :=
  v.bc = u.bc.permute σ ∧ (∀ a, u.bc.types a = (.periodic, .periodic)) ∧ u.array.Relabelled σ v.array

/-- A velocity field with its axes relabelled: the components are exchanged as well. -/
def VelocityRelabelled (σ : Equiv.Perm (Fin d)) (u v : Fin d → GridVariable d K) : Prop := ∀ a, (u (σ a)).Relabelled σ (v a)

/-- A variable with its axes relabelled, whatever its boundary conditions. -/
def GridVariable.RelabelledWalls (σ : Equiv.Perm (Fin d)) (u v : GridVariable d K) : Prop := v.bc = u.bc.permute σ ∧ u.array.Relabelled σ v.array

/-- A velocity field, possibly between walls, with its axes relabelled. -/
def VelocityRelabelledWalls (σ : Equiv.Perm (Fin d)) (u v : Fin d → GridVariable d K) : Prop := ∀ a, (u (σ a)).RelabelledWalls σ (v a)

/-- Tendencies (arrays) of a velocity field with its axes relabelled. -/
def TendencyRelabelled (σ : Equiv.Perm (Fin d)) (u v : Fin d → GridArray d K) : Prop := ∀ a, (u (σ a)).Relabelled σ (v a)

end JaxCfd
