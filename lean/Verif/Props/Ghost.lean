import Verif.Lemmas.Ghost
import Verif.Props.Fixtures
import Mathlib.Tactic.FinCases

/-!
# Property theorems: ghost cells (C09, C10, C11) and pad/trim round trips (C13)

`bc.pad u (.one w) ax mode` models `bc.pad(u, w, axis, mode)`: `w < 0` pads below, `w > 0` above.
In the statements the ghost cells added below occupy the indices `0, ..., w-1` of the result, the old
entry `i` sits at `i + w`; ghost cells added above occupy `n, ..., n+w-1`.
-/

namespace JaxCfd

variable {d : ℕ} {K : Type} [Field K] [HasNan K]

section C09

/-- **C09** lower wall, MIRROR, any width up to the array size (and, for width 1, any mode):
every ghost cell and its mirror image average to the prescribed boundary value `b`; interior data is
untouched. -/
theorem C09_dirichlet_center_lower (bc : BC d K) (u : GridArray d K) (ax : Fin d) (w : ℕ)
    (mode : Padding) (b : K)
    (ht : (bc.types ax).1 = .dirichlet) (hb : (bc.bcValues ax).1 = some b)
    (hoff : u.offset ax = 1 / 2) (hs : u.shape ax = u.grid.shape ax)
    (hw : 0 < w) (hwn : w ≤ u.shape ax) (hm : mode = .mirror ∨ w = 1) :
    ∃ r, bc.pad u (.one (-(w : ℤ))) ax mode = .ok r ∧ r.grid = u.grid ∧
      r.offset = Function.update u.offset ax (1 / 2 - (w : ℚ)) ∧
      r.shape = Function.update u.shape ax (u.shape ax + w) ∧
      (∀ i, InR u.shape i → r.data (Function.update i ax (i ax + w)) = u.data i) ∧
      (∀ i, InR u.shape i → i ax < w →
        r.data (Function.update i ax (w - 1 - i ax)) + u.data i = 2 * b) := by
  have hn : 0 < u.shape ax := by omega
  have hmir : bc.padDirichletCenter u.toNArr (w, (0 : ℕ)) ax mode =
      bc.padDirichletCenter u.toNArr (w, (0 : ℕ)) ax .mirror := by
    rcases hm with rfl | rfl
    · rfl
    · exact BC.padDirichletCenter_small _ _ _ _ _ _ (by omega)
  rw [BC.pad_one _ _ _ _ _ (bc.isAligned_center u ax hoff hs),
    BC.pad1_lower _ _ _ _ _ hw (by rw [ht]; decide) (by rw [hoff]; norm_num)]
  simp only [BC.padByType, ht, hoff, BC.fract_half, if_true]
  have := BC.padDirichletCenter_mirror bc u.toNArr w 0 ax hn
  rw [show ((w : ℤ), (0 : ℤ)) = ((w : ℤ), ((0 : ℕ) : ℤ)) from rfl, hmir, this]
  refine ⟨_, rfl, rfl, rfl, by simp, ?_, ?_⟩
  · intro i hi
    have := hi ax
    simp only
    rw [padData_interior _ _ _ _ _ (by simp; omega) (by simp; omega),
      padData_interior _ _ _ _ _ (by simp; omega) (by simp; omega)]
    simp only [Function.update_self, Function.update_idem, add_sub_cancel_right, update_get]
    ring
  · intro i hi hiw
    have := hi ax
    simp only
    rw [BC.padData_const_lo _ _ _ _ _ _ (by simp; omega)]
    simp only [padData, padIdxData, Function.update_self, Function.update_idem]
    rw [BC.symIdx_neg _ _ (by omega) (by omega)]
    have e : (-1 - ((w : ℤ) - 1 - i ax - w)) = i ax := by ring
    rw [e, update_get]
    simp [BC.constantValues, hb]

/-- **C09** upper wall, MIRROR, any width up to the array size (and, for width 1, any mode). -/
theorem C09_dirichlet_center_upper (bc : BC d K) (u : GridArray d K) (ax : Fin d) (w : ℕ)
    (mode : Padding) (b : K)
    (ht : (bc.types ax).2 = .dirichlet) (hb : (bc.bcValues ax).2 = some b)
    (hoff : u.offset ax = 1 / 2) (hs : u.shape ax = u.grid.shape ax)
    (hw : 0 < w) (hwn : w ≤ u.shape ax) (hm : mode = .mirror ∨ w = 1) :
    ∃ r, bc.pad u (.one (w : ℤ)) ax mode = .ok r ∧ r.grid = u.grid ∧ r.offset = u.offset ∧
      r.shape = Function.update u.shape ax (u.shape ax + w) ∧
      (∀ i, InR u.shape i → r.data i = u.data i) ∧
      (∀ i, InR u.shape i → (u.shape ax : ℤ) - w ≤ i ax →
        r.data (Function.update i ax (2 * u.shape ax - 1 - i ax)) + u.data i = 2 * b) := by
  have hn : 0 < u.shape ax := by omega
  have hmir : bc.padDirichletCenter u.toNArr ((0 : ℕ), w) ax mode =
      bc.padDirichletCenter u.toNArr ((0 : ℕ), w) ax .mirror := by
    rcases hm with rfl | rfl
    · rfl
    · exact BC.padDirichletCenter_small _ _ _ _ _ _ (by omega)
  rw [BC.pad_one _ _ _ _ _ (bc.isAligned_center u ax hoff hs),
    BC.pad1_upper _ _ _ _ _ (by rw [ht]; decide) (by rw [hoff, hs]; linarith)]
  simp only [BC.padByType, ht, hoff, BC.fract_half, if_true]
  have := BC.padDirichletCenter_mirror bc u.toNArr 0 w ax hn
  rw [show ((0 : ℤ), (w : ℤ)) = (((0 : ℕ) : ℤ), (w : ℤ)) from rfl, hmir, this]
  refine ⟨_, rfl, rfl, rfl, by simp, ?_, ?_⟩
  · intro i hi
    have := hi ax
    simp only
    rw [padData_interior _ _ _ _ _ (by simp; omega) (by simp; omega),
      padData_interior _ _ _ _ _ (by simp; omega) (by simp; omega)]
    simp only [Nat.cast_zero, sub_zero, update_get]
    ring
  · intro i hi hiw
    have := hi ax
    simp only
    rw [BC.padData_const_hi _ _ _ _ _ _ (by simp; omega)]
    simp only [padData, padIdxData, Function.update_self, Function.update_idem]
    rw [BC.symIdx_up _ _ (by simp; omega) (by simp; omega)]
    have e : (2 * (u.shape ax : ℤ) - 1 - (2 * (u.shape ax : ℤ) - 1 - i ax - ((0 : ℕ) : ℤ))) = i ax := by
      simp
    rw [e, update_get]
    simp [BC.constantValues, hb]

/-- **C09** lower wall, EXTEND, any width: every ghost cell and the first interior cell average to `b`
(so all ghost cells are equal). -/
theorem C09_dirichlet_center_lower_extend (bc : BC d K) (u : GridArray d K) (ax : Fin d) (w : ℕ) (b : K)
    (ht : (bc.types ax).1 = .dirichlet) (hb : (bc.bcValues ax).1 = some b)
    (hoff : u.offset ax = 1 / 2) (hs : u.shape ax = u.grid.shape ax) (hN : 0 < u.grid.shape ax)
    (hw : 1 < w) :
    ∃ r, bc.pad u (.one (-(w : ℤ))) ax .extend = .ok r ∧
      r.shape = Function.update u.shape ax (u.shape ax + w) ∧
      (∀ i, InR u.shape i → r.data (Function.update i ax (i ax + w)) = u.data i) ∧
      (∀ i, InR u.shape i → i ax = 0 → ∀ j : ℤ, 0 ≤ j → j < w →
        r.data (Function.update i ax j) + u.data i = 2 * b) := by
  have hn : 0 < u.shape ax := by omega
  rw [BC.pad_one _ _ _ _ _ (bc.isAligned_center u ax hoff hs),
    BC.pad1_lower _ _ _ _ _ (by omega) (by rw [ht]; decide) (by rw [hoff]; norm_num)]
  simp only [BC.padByType, ht, hoff, BC.fract_half, if_true]
  have := BC.padDirichletCenter_extend bc u.toNArr w 0 ax hn (by omega)
  rw [show ((w : ℤ), (0 : ℤ)) = ((w : ℤ), ((0 : ℕ) : ℤ)) from rfl, this]
  refine ⟨_, rfl, by simp, ?_, ?_⟩
  · intro i hi
    have := hi ax
    simp only
    rw [padData_interior _ _ _ _ _ (by simp; omega) (by simp; omega),
      padData_interior _ _ _ _ _ (by simp; omega) (by simp; omega)]
    simp only [Function.update_self, Function.update_idem, add_sub_cancel_right, update_get]
    ring
  · intro i hi hi0 j hj0 hjw
    simp only
    rw [BC.padData_const_lo _ _ _ _ _ _ (by simpa using hjw)]
    simp only [padData, padIdxData, Function.update_self, Function.update_idem, edgeIdx]
    have e : max 0 (min (j - (w : ℤ)) ((u.shape ax : ℤ) - 1)) = i ax := by omega
    rw [e, update_get]
    simp [BC.constantValues, hb]

/-- **C09** upper wall, EXTEND, any width. -/
theorem C09_dirichlet_center_upper_extend (bc : BC d K) (u : GridArray d K) (ax : Fin d) (w : ℕ) (b : K)
    (ht : (bc.types ax).2 = .dirichlet) (hb : (bc.bcValues ax).2 = some b)
    (hoff : u.offset ax = 1 / 2) (hs : u.shape ax = u.grid.shape ax) (hN : 0 < u.grid.shape ax)
    (hw : 1 < w) :
    ∃ r, bc.pad u (.one (w : ℤ)) ax .extend = .ok r ∧
      r.shape = Function.update u.shape ax (u.shape ax + w) ∧
      (∀ i, InR u.shape i → r.data i = u.data i) ∧
      (∀ i, InR u.shape i → i ax = u.shape ax - 1 → ∀ j : ℤ, u.shape ax ≤ j → j < u.shape ax + w →
        r.data (Function.update i ax j) + u.data i = 2 * b) := by
  have hn : 0 < u.shape ax := by omega
  rw [BC.pad_one _ _ _ _ _ (bc.isAligned_center u ax hoff hs),
    BC.pad1_upper _ _ _ _ _ (by rw [ht]; decide) (by rw [hoff, hs]; linarith)]
  simp only [BC.padByType, ht, hoff, BC.fract_half, if_true]
  have := BC.padDirichletCenter_extend bc u.toNArr 0 w ax hn (by omega)
  rw [show ((0 : ℤ), (w : ℤ)) = (((0 : ℕ) : ℤ), (w : ℤ)) from rfl, this]
  refine ⟨_, rfl, by simp, ?_, ?_⟩
  · intro i hi
    have := hi ax
    simp only
    rw [padData_interior _ _ _ _ _ (by simp; omega) (by simp; omega),
      padData_interior _ _ _ _ _ (by simp; omega) (by simp; omega)]
    simp only [Nat.cast_zero, sub_zero, update_get]
    ring
  · intro i hi hi0 j hj0 hjw
    simp only
    rw [BC.padData_const_hi _ _ _ _ _ _ (by simpa using hj0)]
    simp only [padData, padIdxData, Function.update_self, Function.update_idem, edgeIdx]
    have e : max 0 (min (j - ((0 : ℕ) : ℤ)) ((u.shape ax : ℤ) - 1)) = i ax := by simp; omega
    rw [e, update_get]
    simp [BC.constantValues, hb]

open Fixtures in
-- the hypotheses are met by cell-centred data with wall values 3 and 5
example : (bcDir.types 0).1 = .dirichlet ∧ (bcDir.bcValues 0).1 = some 3 ∧
    uCenter.offset 0 = 1 / 2 ∧ uCenter.shape 0 = uCenter.grid.shape 0 ∧ 0 < 2 ∧ 2 ≤ uCenter.shape 0 := by
  refine ⟨rfl, rfl, rfl, rfl, by norm_num, by decide⟩

end C09

section C10

/-- **C10** lower wall, data on the faces `1, 2, ...` (the wall itself is face 0): padding by one cell in any
mode, or by any number of cells in EXTEND mode, writes the boundary value `b` on the wall (index `w-1`)
and in every ghost cell below it; the data is untouched. -/
theorem C10_dirichlet_edge_lower (bc : BC d K) (u : GridArray d K) (ax : Fin d) (w : ℕ)
    (mode : Padding) (b : K)
    (ht : (bc.types ax).1 = .dirichlet) (ht2 : (bc.types ax).2 = .dirichlet)
    (hb : (bc.bcValues ax).1 = some b)
    (hoff : u.offset ax = 1) (hs : u.grid.shape ax ≤ u.shape ax + 1)
    (hw : 0 < w) (hm : mode = .extend ∨ w = 1) :
    ∃ r, bc.pad u (.one (-(w : ℤ))) ax mode = .ok r ∧ r.grid = u.grid ∧
      r.offset = Function.update u.offset ax (1 - (w : ℚ)) ∧
      r.shape = Function.update u.shape ax (u.shape ax + w) ∧
      (∀ i, InR u.shape i → r.data (Function.update i ax (i ax + w)) = u.data i) ∧
      (∀ i : Idx d, i ax < w → r.data i = b) := by
  rw [BC.pad_one _ _ _ _ _ (bc.isAligned_face u ax ht ht2 hoff (by omega)),
    BC.pad1_lower _ _ _ _ _ hw (by rw [ht]; decide) (by rw [hoff]; norm_num)]
  have hf : ¬ ((0 : ℚ) = 1 / 2) := by norm_num
  have hf0 : Int.fract (1 : ℚ) = 0 := by norm_num
  simp only [BC.padByType, ht, hoff, hf, if_false, hf0, if_true]
  have := BC.padDirichletEdge_const bc u.toNArr w 0 ax mode (by rcases hm with h | h; exacts [Or.inr h, Or.inl (by omega)])
  rw [show ((w : ℤ), (0 : ℤ)) = ((w : ℤ), ((0 : ℕ) : ℤ)) from rfl, this]
  refine ⟨_, rfl, rfl, rfl, by simp, ?_, ?_⟩
  · intro i hi
    have := hi ax
    simp only
    rw [padData_interior _ _ _ _ _ (by simp; omega) (by simp; omega)]
    simp only [Function.update_self, Function.update_idem, add_sub_cancel_right, update_get]
  · intro i hiw
    simp only
    rw [BC.padData_const_lo _ _ _ _ _ _ hiw]
    simp [BC.constantValues, hb]

/-- **C10** upper wall, data on all the faces `1, ..., N` (face `N` is the wall): padding by any number of
cells (one cell in any mode) rewrites the wall entry with the boundary value `b`, which also fills all
ghost cells above it; the data strictly below the wall is untouched. -/
theorem C10_dirichlet_edge_upper (bc : BC d K) (u : GridArray d K) (ax : Fin d) (w : ℕ) (b : K)
    (ht : (bc.types ax).1 = .dirichlet) (ht2 : (bc.types ax).2 = .dirichlet)
    (hb : (bc.bcValues ax).2 = some b)
    (hoff : u.offset ax = 1) (hs : u.shape ax = u.grid.shape ax) (hN : 0 < u.grid.shape ax) :
    ∃ r, bc.pad u (.one (w : ℤ)) ax .extend = .ok r ∧ r.grid = u.grid ∧ r.offset = u.offset ∧
      r.shape = Function.update u.shape ax (u.shape ax + w) ∧
      (∀ i, InR u.shape i → i ax < (u.grid.shape ax : ℤ) - 1 → r.data i = u.data i) ∧
      (∀ i, (u.grid.shape ax : ℤ) - 1 ≤ i ax → r.data i = b) := by
  have hf : ¬ ((0 : ℚ) = 1 / 2) := by norm_num
  have hf0 : Int.fract (1 : ℚ) = 0 := by norm_num
  have ne : ¬ (BCType.dirichlet = BCType.periodic) := by decide
  have hneg : ¬ (w : ℤ) < 0 := by omega
  have hnn : (w : ℤ) ≥ 0 := by omega
  have htr : bc.trimPadding u ax .right =
      .ok (⟨⟨Function.update u.shape ax (u.shape ax - 1), u.data⟩, u.offset, u.grid⟩, (0, 1)) := by
    have h1 : bc.trimPaddingLower u ax .right = .ok (u, 0) := by
      unfold BC.trimPaddingLower
      rw [if_neg (by rintro ⟨-, hh⟩; simp at hh)]
    have h2 : bc.positiveTrim u ax .right = 1 := by
      unfold BC.positiveTrim
      simp only [true_or, if_true, ht2, ne, if_false, hoff, hs, hf0, and_self]
      rw [if_pos (by linarith)]
      norm_num
    have h3 := BC.trim_upper u 1 ax (by omega)
    rw [Nat.cast_one] at h3
    unfold BC.trimPadding
    rw [if_pos (by rw [hs]), h1]
    simp [Except.bind_ok, Except.pure_eq_ok, h2, BC.trimUpperIf, h3]
  rw [BC.pad_one _ _ _ _ _ (bc.isAligned_face u ax ht ht2 hoff (by omega))]
  unfold BC.pad1
  simp only [BC.makePadding, hneg, if_false, BC.needTrimming, ht2, ne, hnn, if_true]
  rw [htr]
  simp only [Except.bind_ok, Int.cast_zero, sub_zero, BC.padByType, hoff, hf0, hf,
    if_false, if_true, zero_add]
  have := BC.padDirichletEdge_const bc
    (⟨Function.update u.shape ax (u.shape ax - 1), u.data⟩ : NArr d K) 0 (w + 1) ax .extend (Or.inr rfl)
  rw [show ((0 : ℤ), (w : ℤ) + 1) = (((0 : ℕ) : ℤ), ((w + 1 : ℕ) : ℤ)) by simp, this]
  refine ⟨_, rfl, rfl, update_update_self _ _ _ hoff.symm, ?_, ?_, ?_⟩
  · simp only [Function.update_self, Function.update_idem]
    congr 1; omega
  · intro i hi hlt
    have := hi ax
    simp only
    rw [padData_interior _ _ _ _ _ (by simp; omega) (by simp; omega)]
    simp
  · intro i hle
    simp only
    rw [BC.padData_const_hi _ _ _ _ _ _ (by simp; omega)]
    simp [BC.constantValues, hb]

/-- **C10** lower wall, MIRROR mode with two or more cells: the wall (index `w-1`) carries `b`, and the ghost
cell `m` cells below the wall carries `b - u[m-1]`, the mirror image of the face `m` above the wall.
For a homogeneous condition this is the odd reflection; see `C10_mirror_not_odd` for `b ≠ 0`. -/
theorem C10_dirichlet_edge_lower_mirror (bc : BC d K) (u : GridArray d K) (ax : Fin d) (w : ℕ) (b : K)
    (ht : (bc.types ax).1 = .dirichlet) (ht2 : (bc.types ax).2 = .dirichlet)
    (hb : (bc.bcValues ax).1 = some b)
    (hv : ∀ a, (bc.bcValues a).1 ≠ none ∧ (bc.bcValues a).2 ≠ none) (h2 : (2 : K) ≠ 0)
    (hoff : u.offset ax = 1) (hs : u.grid.shape ax ≤ u.shape ax + 1)
    (hw : 1 < w) :
    ∃ r, bc.pad u (.one (-(w : ℤ))) ax .mirror = .ok r ∧
      r.shape = Function.update u.shape ax (u.shape ax + w) ∧
      (∀ i, InR u.shape i → r.data (Function.update i ax (i ax + w)) = u.data i) ∧
      (∀ i, i ax = (w : ℤ) - 1 → r.data i = b) ∧
      (∀ i, InR u.shape i → i ax + 1 < w →
        r.data (Function.update i ax (w - 2 - i ax)) = b - u.data i) := by
  rw [BC.pad_one _ _ _ _ _ (bc.isAligned_face u ax ht ht2 hoff (by omega)),
    BC.pad1_lower _ _ _ _ _ (by omega) (by rw [ht]; decide) (by rw [hoff]; norm_num)]
  have hf : ¬ ((0 : ℚ) = 1 / 2) := by norm_num
  have hf0 : Int.fract (1 : ℚ) = 0 := by norm_num
  have hw0 : 0 < w := by omega
  simp only [BC.padByType, ht, hoff, hf, if_false, hf0, if_true]
  have := BC.padDirichletEdge_mirror bc u.toNArr w 0 ax (by omega) hv _ rfl
  rw [show ((w : ℤ), (0 : ℤ)) = ((w : ℤ), ((0 : ℕ) : ℤ)) from rfl, this]
  simp only [hw0, if_true, lt_irrefl, if_false, add_zero]
  refine ⟨_, rfl, rfl, ?_, ?_, ?_⟩
  · intro i hi
    have := hi ax
    simp only
    rw [padData_interior u.toNArr _ _ _ _ (by simp; omega) (by simp; omega)]
    rw [padData_interior _ ax ((w : ℤ) - 1) _ _ (by simp; omega) (by simp; omega)]
    simp only [Function.update_self, Function.update_idem, add_sub_cancel_right, update_get]
    rw [padData_interior u.toNArr _ _ _ _ (by simp; omega) (by simp; omega)]
    simp only [Function.update_self, Function.update_idem]
    have e : i ax + (w : ℤ) - (w - 1) - 1 = i ax := by ring
    rw [e, update_get]; ring
  · intro i hi
    simp only
    rw [BC.padData_const_lo _ _ _ _ _ _ (by omega)]
    rw [padData_interior _ ax ((w : ℤ) - 1) _ _ (by omega) (by simp; omega)]
    simp only
    rw [BC.padData_const_lo _ _ _ _ _ _ (by simp; omega)]
    simp only [BC.constantValues, hb, Option.getD_some]
    field_simp
    ring
  · intro i hi hiw
    have := hi ax
    simp only
    rw [BC.padData_const_lo _ _ _ _ _ _ (by simp; omega)]
    simp only [padData.eq_3, padIdxData, Function.update_self, Function.update_idem]
    rw [BC.reflIdx_neg _ _ (by omega) (by simp; omega)]
    rw [padData_interior _ _ _ _ _ (by simp; omega) (by simp; omega)]
    simp only [Function.update_self, Function.update_idem]
    have e : -((w : ℤ) - 2 - i ax - (w - 1)) - 1 = i ax := by ring
    rw [e, update_get]
    simp only [BC.constantValues, hb, Option.getD_some]
    field_simp

/-- **C10** (homogeneous case) MIRROR padding of wall-aligned data is the odd reflection about the wall. -/
theorem C10_dirichlet_edge_lower_odd (bc : BC d K) (u : GridArray d K) (ax : Fin d) (w : ℕ)
    (ht : (bc.types ax).1 = .dirichlet) (ht2 : (bc.types ax).2 = .dirichlet)
    (hb : (bc.bcValues ax).1 = some 0)
    (hv : ∀ a, (bc.bcValues a).1 ≠ none ∧ (bc.bcValues a).2 ≠ none) (h2 : (2 : K) ≠ 0)
    (hoff : u.offset ax = 1) (hs : u.grid.shape ax ≤ u.shape ax + 1)
    (hw : 1 < w) :
    ∃ r, bc.pad u (.one (-(w : ℤ))) ax .mirror = .ok r ∧
      (∀ i, i ax = (w : ℤ) - 1 → r.data i = 0) ∧
      (∀ i, InR u.shape i → i ax + 1 < w →
        r.data (Function.update i ax (w - 2 - i ax)) = - u.data i) := by
  obtain ⟨r, h, -, -, h3, h4⟩ := C10_dirichlet_edge_lower_mirror bc u ax w 0 ht ht2 hb hv h2 hoff hs hw
  exact ⟨r, h, h3, fun i hi hw => by rw [h4 i hi hw, zero_sub]⟩

open Fixtures in
-- the hypotheses of the C10 theorems are met by `uFace`/`uInner` with wall values 3 and 5
example : (bcDir.types 0).1 = .dirichlet ∧ (bcDir.types 0).2 = .dirichlet ∧
    (bcDir.bcValues 0).1 = some 3 ∧ uFace.offset 0 = 1 ∧ uFace.grid.shape 0 ≤ uFace.shape 0 + 1 ∧
    uInner.grid.shape 0 ≤ uInner.shape 0 + 1 ∧
    (∀ a, (bcDir.bcValues a).1 ≠ none ∧ (bcDir.bcValues a).2 ≠ none) := by
  refine ⟨rfl, rfl, rfl, rfl, by decide, by decide, fun a => by simp [bcDir]⟩

open Fixtures in
/-- **C10** (defect) For a non-zero wall value the MIRROR ghost values of wall-aligned data do *not* average
with their mirror images to the wall value: with `b = 3` the sum of the pair is `b`, not `2 b`
(boundaries.py:255-264 halves the constant and reflects around a zero wall value). -/
theorem C10_mirror_not_odd :
    ∃ r, bcDir.pad uInner (.one (-2)) 0 .mirror = .ok r ∧
      r.data ![0] + uInner.data ![0] = 3 ∧ r.data ![0] + uInner.data ![0] ≠ 2 * 3 := by
  obtain ⟨r, h, -, -, -, h4⟩ := C10_dirichlet_edge_lower_mirror bcDir uInner 0 2 3 rfl rfl rfl
    (fun a => by simp [bcDir]) (by norm_num) rfl (by decide) (by norm_num)
  have := h4 ![0] (by intro a; fin_cases a; decide) (by norm_num)
  have e : Function.update (![0] : Idx 1) 0 (((2 : ℕ) : ℤ) - 2 - (![0] : Idx 1) 0) = ![0] := by
    funext a; fin_cases a; simp
  rw [e] at this
  refine ⟨r, h, by rw [this]; ring, by rw [this]; norm_num⟩

end C10

section C11

/-- **C11** lower wall: one ghost cell below reproduces the prescribed derivative `g` along the axis,
`(u[0] - ghost) / step = g`, whatever the mode. -/
theorem C11_neumann_lower (bc : BC d K) (u : GridArray d K) (ax : Fin d) (mode : Padding) (g : K)
    (ht : (bc.types ax).1 = .neumann) (hb : (bc.bcValues ax).1 = some g)
    (hoff : u.offset ax = 1 / 2) (hs : u.shape ax = u.grid.shape ax) (hN : 0 < u.grid.shape ax)
    (hstep : u.grid.step ax ≠ 0) :
    ∃ r, bc.pad u (.one (-1)) ax mode = .ok r ∧
      r.shape = Function.update u.shape ax (u.shape ax + 1) ∧
      (∀ i, InR u.shape i → r.data (Function.update i ax (i ax + 1)) = u.data i) ∧
      (∀ i, InR u.shape i → i ax = 0 → (u.data i - r.data i) / u.grid.step ax = g) := by
  have hn : 0 < u.shape ax := by omega
  rw [BC.pad_one _ _ _ _ _ (bc.isAligned_center u ax hoff hs)]
  have hp := BC.pad1_lower bc u ax 1 mode (by norm_num) (by rw [ht]; decide) (by rw [hoff]; norm_num)
  rw [Nat.cast_one] at hp
  rw [hp]
  simp only [BC.padByType, ht, hoff, BC.fract_half, if_true]
  have := BC.padNeumann_closed bc u.toNArr 1 0 (-1) ax (u.grid.step ax) mode hn (by omega)
  rw [Nat.cast_one] at this
  rw [show ((1 : ℤ), (0 : ℤ)) = ((1 : ℤ), ((0 : ℕ) : ℤ)) from rfl, this]
  refine ⟨_, rfl, by simp, ?_, ?_⟩
  · intro i hi
    have := hi ax
    simp only
    rw [padData_interior _ _ _ _ _ (by simp; omega) (by simp; omega),
      padData_interior _ _ _ _ _ (by simp; omega) (by simp; omega),
      padData_interior _ _ _ _ _ (by simp; omega) (by simp; omega)]
    simp only [Function.update_self, Function.update_idem, add_sub_cancel_right, update_get]
    ring
  · intro i hi h0
    simp only
    rw [BC.padData_const_lo _ _ _ _ _ _ (by omega), BC.padData_const_lo _ _ _ _ _ _ (by omega)]
    simp only [padData, padIdxData]
    rw [BC.symIdx_neg _ _ (by omega) (by omega)]
    have e : -1 - (i ax - 1) = i ax := by omega
    rw [e, update_get]
    simp only [BC.constantValues, hb, Option.getD_some]
    have : ((-1 / max 1 |(-1)| : ℤ) : K) = -1 := by norm_num
    rw [this]
    field_simp
    ring

/-- **C11** upper wall: `(ghost - u[n-1]) / step = g`. -/
theorem C11_neumann_upper (bc : BC d K) (u : GridArray d K) (ax : Fin d) (mode : Padding) (g : K)
    (ht : (bc.types ax).2 = .neumann) (hb : (bc.bcValues ax).2 = some g)
    (hoff : u.offset ax = 1 / 2) (hs : u.shape ax = u.grid.shape ax) (hN : 0 < u.grid.shape ax)
    (hstep : u.grid.step ax ≠ 0) :
    ∃ r, bc.pad u (.one 1) ax mode = .ok r ∧
      r.shape = Function.update u.shape ax (u.shape ax + 1) ∧
      (∀ i, InR u.shape i → r.data i = u.data i) ∧
      (∀ i, InR u.shape i → i ax = u.shape ax - 1 →
        (r.data (Function.update i ax (u.shape ax)) - u.data i) / u.grid.step ax = g) := by
  have hn : 0 < u.shape ax := by omega
  rw [BC.pad_one _ _ _ _ _ (bc.isAligned_center u ax hoff hs)]
  have hp := BC.pad1_upper bc u ax 1 mode (by rw [ht]; decide) (by rw [hoff, hs]; linarith)
  rw [Nat.cast_one] at hp
  rw [hp]
  simp only [BC.padByType, ht, hoff, BC.fract_half, if_true]
  have := BC.padNeumann_closed bc u.toNArr 0 1 1 ax (u.grid.step ax) mode hn (by omega)
  rw [Nat.cast_one] at this
  rw [show ((0 : ℤ), (1 : ℤ)) = (((0 : ℕ) : ℤ), (1 : ℤ)) from rfl, this]
  refine ⟨_, rfl, by simp, ?_, ?_⟩
  · intro i hi
    have := hi ax
    simp only
    rw [padData_interior _ _ _ _ _ (by simp; omega) (by simp; omega),
      padData_interior _ _ _ _ _ (by simp; omega) (by simp; omega),
      padData_interior _ _ _ _ _ (by simp; omega) (by simp; omega)]
    simp
  · intro i hi h0
    simp only
    rw [BC.padData_const_hi _ _ _ _ _ _ (by simp), BC.padData_const_hi _ _ _ _ _ _ (by simp)]
    simp only [padData, padIdxData, Function.update_self, Function.update_idem]
    rw [BC.symIdx_up _ _ (by simp) (by simp; omega)]
    have e : 2 * (u.shape ax : ℤ) - 1 - ((u.shape ax : ℤ) - ((0 : ℕ) : ℤ)) = i ax := by simp; omega
    rw [e, update_get]
    simp only [BC.constantValues, hb, Option.getD_some]
    have : ((1 / max 1 |1| : ℤ) : K) = 1 := by norm_num
    rw [this]
    field_simp
    ring

/-- **C11** Layers beyond the first, upper wall: with `k ≥ 2` ghost cells the `j`-th one (`j = 0, …, k - 1`) is the mirror image of
the interior cell at the same distance (MIRROR) or the value of the last cell (EXTEND), plus `step * g` in both cases; so for `g = 0`
MIRROR is the even reflection, while for `g ≠ 0` only the first layer has the prescribed slope. -/
theorem C11_neumann_wide_upper (bc : BC d K) (u : GridArray d K) (ax : Fin d) (g : K) (k : ℕ) (hk : 2 ≤ k)
    (ht : (bc.types ax).2 = .neumann) (hb : (bc.bcValues ax).2 = some g)
    (hoff : u.offset ax = 1 / 2) (hs : u.shape ax = u.grid.shape ax) (hkN : k ≤ u.grid.shape ax) :
    (∃ r, bc.pad u (.one k) ax .mirror = .ok r ∧ r.shape = Function.update u.shape ax (u.shape ax + k) ∧
      (∀ i, InR u.shape i → r.data i = u.data i) ∧
      ∀ i, InR u.shape i → ∀ j : ℤ, 0 ≤ j → j < k → r.data (Function.update i ax (u.shape ax + j)) =
        u.data (Function.update i ax (u.shape ax - 1 - j)) + u.grid.step ax * g) ∧
    (∃ r, bc.pad u (.one k) ax .extend = .ok r ∧ r.shape = Function.update u.shape ax (u.shape ax + k) ∧
      (∀ i, InR u.shape i → r.data i = u.data i) ∧
      ∀ i, InR u.shape i → ∀ j : ℤ, 0 ≤ j → j < k → r.data (Function.update i ax (u.shape ax + j)) =
        u.data (Function.update i ax (u.shape ax - 1)) + u.grid.step ax * g) := by
  have hn : 0 < u.shape ax := by omega
  have hdir : (((k : ℤ) / max 1 |(k : ℤ)| : ℤ) : K) = 1 := by
    rw [abs_of_nonneg (by omega), max_eq_right (by omega), Int.ediv_self (by omega), Int.cast_one]
  constructor
  · rw [BC.pad_one _ _ _ _ _ (bc.isAligned_center u ax hoff hs),
      BC.pad1_upper bc u ax k .mirror (by rw [ht]; decide) (by rw [hoff, hs]; linarith)]
    simp only [BC.padByType, ht, hoff, BC.fract_half, if_true]
    rw [show ((0 : ℤ), (k : ℤ)) = (((0 : ℕ) : ℤ), (k : ℤ)) from rfl,
      BC.padNeumann_wide bc u.toNArr 0 k k ax (u.grid.step ax) .mirror .symmetric (by omega) hn (Or.inl ⟨rfl, rfl⟩)]
    refine ⟨_, rfl, by simp, ?_, ?_⟩
    · intro i hi
      have := hi ax
      simp only
      rw [padData_interior _ _ _ _ _ (by simp; omega) (by simp; omega),
        padData_interior _ _ _ _ _ (by simp; omega) (by simp; omega),
        padData_interior _ _ _ _ _ (by simp; omega) (by simp; omega)]
      simp
    · intro i hi j h0 hj
      simp only
      rw [BC.padData_const_hi _ _ _ _ _ _ (by simp; omega), BC.padData_const_hi _ _ _ _ _ _ (by simp; omega)]
      simp only [padData, padIdxData, Function.update_self, Function.update_idem]
      rw [BC.symIdx_up _ _ (by simp; omega) (by simp; omega), hdir]
      have e : 2 * (u.shape ax : ℤ) - 1 - ((u.shape ax : ℤ) + j - ((0 : ℕ) : ℤ)) = u.shape ax - 1 - j := by push_cast; ring
      rw [e]
      simp only [BC.constantValues, hb, Option.getD_some]
      ring
  · rw [BC.pad_one _ _ _ _ _ (bc.isAligned_center u ax hoff hs),
      BC.pad1_upper bc u ax k .extend (by rw [ht]; decide) (by rw [hoff, hs]; linarith)]
    simp only [BC.padByType, ht, hoff, BC.fract_half, if_true]
    rw [show ((0 : ℤ), (k : ℤ)) = (((0 : ℕ) : ℤ), (k : ℤ)) from rfl,
      BC.padNeumann_wide bc u.toNArr 0 k k ax (u.grid.step ax) .extend .edge (by omega) hn (Or.inr ⟨rfl, rfl⟩)]
    refine ⟨_, rfl, by simp, ?_, ?_⟩
    · intro i hi
      have := hi ax
      simp only
      rw [padData_interior _ _ _ _ _ (by simp; omega) (by simp; omega),
        padData_interior _ _ _ _ _ (by simp; omega) (by simp; omega),
        padData_interior _ _ _ _ _ (by simp; omega) (by simp; omega)]
      simp
    · intro i hi j h0 hj
      simp only
      rw [BC.padData_const_hi _ _ _ _ _ _ (by simp; omega), BC.padData_const_hi _ _ _ _ _ _ (by simp; omega)]
      simp only [padData, padIdxData, Function.update_self, Function.update_idem]
      rw [BC.edgeIdx_up _ _ (by simp; omega) (by omega), hdir]
      simp only [BC.constantValues, hb, Option.getD_some]
      ring

/-- **C11** Layers beyond the first, lower wall. -/
theorem C11_neumann_wide_lower (bc : BC d K) (u : GridArray d K) (ax : Fin d) (g : K) (k : ℕ) (hk : 2 ≤ k)
    (ht : (bc.types ax).1 = .neumann) (hb : (bc.bcValues ax).1 = some g)
    (hoff : u.offset ax = 1 / 2) (hs : u.shape ax = u.grid.shape ax) (hkN : k ≤ u.grid.shape ax) :
    (∃ r, bc.pad u (.one (-k)) ax .mirror = .ok r ∧ r.shape = Function.update u.shape ax (u.shape ax + k) ∧
      (∀ i, InR u.shape i → r.data (Function.update i ax (i ax + k)) = u.data i) ∧
      ∀ i, InR u.shape i → ∀ j : ℤ, 0 ≤ j → j < k → r.data (Function.update i ax (k - 1 - j)) =
        u.data (Function.update i ax j) - u.grid.step ax * g) ∧
    (∃ r, bc.pad u (.one (-k)) ax .extend = .ok r ∧ r.shape = Function.update u.shape ax (u.shape ax + k) ∧
      (∀ i, InR u.shape i → r.data (Function.update i ax (i ax + k)) = u.data i) ∧
      ∀ i, InR u.shape i → ∀ j : ℤ, 0 ≤ j → j < k → r.data (Function.update i ax (k - 1 - j)) =
        u.data (Function.update i ax 0) - u.grid.step ax * g) := by
  have hn : 0 < u.shape ax := by omega
  have hdir : ((-(k : ℤ) / max 1 |-(k : ℤ)| : ℤ) : K) = -1 := by
    rw [abs_neg, abs_of_nonneg (by omega : (0 : ℤ) ≤ k), max_eq_right (by omega),
      Int.neg_ediv_of_dvd (dvd_refl _), Int.ediv_self (by omega), Int.cast_neg, Int.cast_one]
  constructor
  · rw [BC.pad_one _ _ _ _ _ (bc.isAligned_center u ax hoff hs),
      BC.pad1_lower bc u ax k .mirror (by omega) (by rw [ht]; decide) (by rw [hoff]; norm_num)]
    simp only [BC.padByType, ht, hoff, BC.fract_half, if_true]
    rw [show ((k : ℤ), (0 : ℤ)) = ((k : ℤ), ((0 : ℕ) : ℤ)) from rfl,
      BC.padNeumann_wide bc u.toNArr k 0 (-k) ax (u.grid.step ax) .mirror .symmetric (by omega) hn (Or.inl ⟨rfl, rfl⟩)]
    refine ⟨_, rfl, by simp, ?_, ?_⟩
    · intro i hi
      have := hi ax
      simp only
      rw [padData_interior _ _ _ _ _ (by simp; omega) (by simp; omega),
        padData_interior _ _ _ _ _ (by simp; omega) (by simp; omega),
        padData_interior _ _ _ _ _ (by simp; omega) (by simp; omega)]
      simp only [Function.update_self, Function.update_idem, add_sub_cancel_right, update_get]
      ring
    · intro i hi j h0 hj
      simp only
      rw [BC.padData_const_lo _ _ _ _ _ _ (by simp; omega), BC.padData_const_lo _ _ _ _ _ _ (by simp; omega)]
      simp only [padData, padIdxData, Function.update_self, Function.update_idem]
      rw [BC.symIdx_neg _ _ (by omega) (by omega), hdir]
      have e : -1 - ((k : ℤ) - 1 - j - k) = j := by ring
      rw [e]
      simp only [BC.constantValues, hb, Option.getD_some]
      ring
  · rw [BC.pad_one _ _ _ _ _ (bc.isAligned_center u ax hoff hs),
      BC.pad1_lower bc u ax k .extend (by omega) (by rw [ht]; decide) (by rw [hoff]; norm_num)]
    simp only [BC.padByType, ht, hoff, BC.fract_half, if_true]
    rw [show ((k : ℤ), (0 : ℤ)) = ((k : ℤ), ((0 : ℕ) : ℤ)) from rfl,
      BC.padNeumann_wide bc u.toNArr k 0 (-k) ax (u.grid.step ax) .extend .edge (by omega) hn (Or.inr ⟨rfl, rfl⟩)]
    refine ⟨_, rfl, by simp, ?_, ?_⟩
    · intro i hi
      have := hi ax
      simp only
      rw [padData_interior _ _ _ _ _ (by simp; omega) (by simp; omega),
        padData_interior _ _ _ _ _ (by simp; omega) (by simp; omega),
        padData_interior _ _ _ _ _ (by simp; omega) (by simp; omega)]
      simp only [Function.update_self, Function.update_idem, add_sub_cancel_right, update_get]
      ring
    · intro i hi j h0 hj
      simp only
      rw [BC.padData_const_lo _ _ _ _ _ _ (by simp; omega), BC.padData_const_lo _ _ _ _ _ _ (by simp; omega)]
      simp only [padData, padIdxData, Function.update_self, Function.update_idem]
      rw [BC.edgeIdx_neg _ _ (by omega), hdir]
      simp only [BC.constantValues, hb, Option.getD_some]
      ring

/-- **C11** Edge-aligned Neumann data is rejected: `pad` raises NotImplementedError. -/
theorem C11_neumann_edge_rejected (bc : BC d K) (u : GridArray d K) (ax : Fin d) (w : BC.Width)
    (mode : Padding) (ht : (bc.types ax).1 = .neumann) (hoff : ∃ m : ℤ, u.offset ax = m) :
    bc.pad u w ax mode = .error .notImplemented := by
  obtain ⟨m, hm⟩ := hoff
  unfold BC.pad BC.isAligned
  simp [ht, hm, Except.bind_error]

open Fixtures in
example : (bcNeu.types 0).1 = .neumann ∧ (bcNeu.bcValues 0).1 = some 3 ∧
    uCenter.offset 0 = 1 / 2 ∧ uCenter.shape 0 = uCenter.grid.shape 0 ∧ uCenter.grid.step 0 ≠ 0 := by
  refine ⟨rfl, rfl, rfl, rfl, by norm_num [Grid.step, uCenter, g4]⟩

end C11
end JaxCfd
