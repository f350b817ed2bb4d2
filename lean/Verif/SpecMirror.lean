import Verif.Spec
import Mathlib.Data.Real.Basic

/-!
# Reflections of periodic fields: the vocabulary of C78
-/

namespace JaxCfd
variable {d : ℕ}

/-- The cell whose coordinate along `ax` is the mirror image of that of cell `i`, for data at offset `m / 2`, on the periodic grid of
shape `s`: the positions `i + m / 2` and `-(i + m / 2)` differ by a multiple of the period. -/
def mirrorIdx (s : Fin d → ℕ) (ax : Fin d) (m : ℤ) (i : Idx d) : Idx d := Function.update i ax ((-(i ax) - m) % (s ax : ℤ))

/-- `v` is `σ` times the mirror image of `u` along `ax`: same grid and offset, the shape of the grid, an offset along `ax` that is a
multiple of one half, and the value of `v` at a point is `σ` times the value of `u` at the mirror image of the point. -/
def GridArray.Mirrored (ax : Fin d) (σ : ℝ) (u v : GridArray d ℝ) : Prop :=
  v.offset = u.offset ∧ v.grid = u.grid ∧ v.shape = u.shape ∧
    ∃ m : ℤ, (m : ℚ) = 2 * u.offset ax ∧ ∀ i, InR u.shape i → v.data i = σ * u.data (mirrorIdx u.shape ax m i)

/-- A reflection along `ax` changes the sign of the component of a vector along `ax`. -/
noncomputable def mirrorSign (ax a : Fin d) : ℝ := if a = ax then -1 else 1

/-- The tendency `v` is the mirror image of `u`. -/
def TendencyMirrored (ax : Fin d) (u v : Fin d → GridArray d ℝ) : Prop := ∀ a, (u a).Mirrored ax (mirrorSign ax a) (v a)

/-- The velocity field `v` is the mirror image of `u`. -/
def FieldMirrored (ax : Fin d) (u v : Fin d → GridVariable d ℝ) : Prop :=
  ∀ a, (v a).bc = (u a).bc ∧ (u a).array.Mirrored ax (mirrorSign ax a) (v a).array

/-- Between two walls: the cell whose coordinate along `ax` is the mirror image, in the middle of the box, of that of cell `i`, for data at offset `m / 2`. -/
def wallMirrorIdx (s : Fin d → ℕ) (ax : Fin d) (m : ℤ) (i : Idx d) : Idx d := Function.update i ax ((s ax : ℤ) - m - i ax)

/-- The factor of the value a wall prescribes when the quantity is multiplied by `σ` and the wall moves to the other side: the slope at a Neumann wall changes its sign once more. -/
noncomputable def wallSign (σ : ℝ) : BCType → ℝ
  | .neumann => -σ
  | _ => σ

/-- The boundary conditions `b'` are `σ` times the mirror image of `b`: the two walls normal to `ax` are exchanged. -/
def BC.WallMirrored [HasNan ℝ] (ax : Fin d) (σ : ℝ) (b b' : BC d ℝ) : Prop :=
  (∀ c, b'.types c = if c = ax then (b.types c).swap else b.types c) ∧
    (∀ c, c ≠ ax → b.types c ≠ (.periodic, .periodic) → b'.constantValues c = (σ * (b.constantValues c).1, σ * (b.constantValues c).2)) ∧
    b'.constantValues ax = (wallSign σ (b.types ax).2 * (b.constantValues ax).2, wallSign σ (b.types ax).1 * (b.constantValues ax).1)

/-- `v` is `σ` times the mirror image of `u`, which lies between two walls normal to `ax`: same grid and offset, mirrored boundary conditions, and the value of `v` at every point whose mirror image
is stored (a wall face has its image on the other wall, where no value is stored) is `σ` times the value of `u` at the image. -/
def GridVariable.WallMirrored [HasNan ℝ] (ax : Fin d) (σ : ℝ) (u v : GridVariable d ℝ) : Prop :=
  u.bc.types ax ≠ (.periodic, .periodic) ∧ u.bc.WallMirrored ax σ v.bc ∧ v.array.offset = u.array.offset ∧ v.array.grid = u.array.grid ∧ v.array.shape = u.array.shape ∧
    ∃ m : ℤ, (m : ℚ) = 2 * u.array.offset ax ∧ ∀ i, InR u.array.shape i → InR u.array.shape (wallMirrorIdx u.array.shape ax m i) →
      v.array.data i = σ * u.array.data (wallMirrorIdx u.array.shape ax m i)

/-- The velocity field `v` is the mirror image of `u`, which flows between two walls normal to `ax`. -/
def FieldWallMirrored [HasNan ℝ] (ax : Fin d) (u v : Fin d → GridVariable d ℝ) : Prop := ∀ a, (u a).WallMirrored ax (mirrorSign ax a) (v a)

end JaxCfd
