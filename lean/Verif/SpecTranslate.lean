import Verif.Spec

/-!
# Translations of periodic fields: the vocabulary of C68
-/

namespace JaxCfd
variable {d : ℕ} {K : Type}

/-- Two runs that raise the same exception or return related values. -/
def RelE {α β : Type} (R : α → β → Prop) (x : Except Err α) (y : Except Err β) : Prop :=
  (∀ e, x = .error e → y = .error e) ∧ ∀ r, x = .ok r → ∃ s, y = .ok s ∧ R r s

/-- The index moved by `t` cells on the periodic grid of shape `s`. -/
def moved (s : Fin d → ℕ) (t : Idx d) (i : Idx d) : Idx d := fun a => (i a + t a) % (s a : ℤ)

/-- The entries of the array `v` are those of `u` translated by `t` cells on the periodic grid; both have the shape of the grid. -/
def NArr.Translated (t : Idx d) (u v : NArr d K) : Prop :=
  v.shape = u.shape ∧ (∀ a, 0 < u.shape a) ∧ ∀ i, InR u.shape i → v.data i = u.data (moved u.shape t i)

/-- `v` is `u` translated by `t` cells: same grid and offset, the shape of the grid, and entry `i` of `v` is entry `i + t` of `u`, periodically. -/
def GridArray.Translated (t : Idx d) (u v : GridArray d K) : Prop :=
  v.offset = u.offset ∧ v.grid = u.grid ∧ u.shape = u.grid.shape ∧ u.toNArr.Translated t v.toNArr

/-- A translated periodic variable. -/
def GridVariable.Translated (t : Idx d) (u v : GridVariable d K) : Prop :=
  v.bc = u.bc ∧ (∀ a, u.bc.types a = (.periodic, .periodic)) ∧ u.array.Translated t v.array

end JaxCfd
