import Verif.Lemmas.FD
import Verif.Lemmas.Ghost
import Verif.Lemmas.Impose

/-!
Closed forms of the one-cell shifts of supported variables.
-/

set_option linter.unusedSectionVars false

namespace JaxCfd
variable {d : ℕ} {K : Type} [Field K] [HasNan K]

/-- What a one-cell shift upwards of a supported variable returns. -/
theorem shift_above {u : GridVariable d K} (hu : u.Supported) (ax : Fin d) :
    ∃ r, u.shift 1 ax = .ok r ∧ r.shape = u.array.shape ∧ r.grid = u.array.grid ∧
      r.offset = Function.update u.array.offset ax (u.array.offset ax + 1) ∧
      ∀ i, InR u.array.shape i → r.data i = u.above ax i := by
  obtain ⟨hs, hN, hcase⟩ := hu ax
  have hn : 0 < u.array.shape ax := by omega
  rcases hcase with hper | ⟨-, ht, hoff⟩ | ⟨ht, hoff⟩
  · refine ⟨_, BC.shift_periodic u.bc u.array 1 ax .extend hper hs hN, rfl, rfl, by simp, fun i hi => ?_⟩
    simp [GridVariable.above, hper]
  · have hnp : (u.bc.types ax).2 ≠ .periodic := by rcases ht with h | h <;> rw [h] <;> decide
    have hpad := BC.pad1_upper u.bc u.array ax 1 .extend hnp (by rw [hoff, hs]; linarith)
    unfold GridVariable.shift BC.shift
    rw [show (1 : ℤ) = ((1 : ℕ) : ℤ) from rfl, hpad]
    rcases ht with ht | ht
    · simp only [BC.padByType, ht, hoff, BC.fract_half, if_true]
      rw [show ((0 : ℤ), ((1 : ℕ) : ℤ)) = (((0 : ℕ) : ℤ), ((1 : ℕ) : ℤ)) from rfl,
        BC.padDirichletCenter_small _ _ _ _ _ _ (by omega), BC.padDirichletCenter_mirror _ _ _ _ _ hn]
      simp only [Except.map, Except.bind_ok]
      rw [BC.trim_lower _ 1 _ (by simp)]
      refine ⟨_, rfl, by simp, rfl, by simp [hoff], fun i hi => ?_⟩
      have hi' := hi ax
      have hnp' : ¬ (BCType.dirichlet = BCType.periodic) := by decide
      simp only [GridVariable.above, ht, hnp', if_false, hoff, if_true]
      by_cases hlt : i ax + 1 < u.array.shape ax
      · rw [if_pos hlt, padData_interior _ _ _ _ _ (by simp; omega) (by simp; omega),
          padData_interior _ _ _ _ _ (by simp; omega) (by simp; omega)]
        simp only [Function.update_self, Function.update_idem, Nat.cast_zero, sub_zero, Nat.cast_one]
        ring
      · rw [if_neg hlt, BC.padData_const_hi _ _ _ _ _ _ (by simp; omega)]
        simp only [padData, padIdxData, Function.update_self, Function.update_idem]
        rw [BC.symIdx_up _ _ (by simp; omega) (by simp; omega)]
        have e : (2 * (u.array.shape ax : ℤ) - 1 - (i ax + ((1 : ℕ) : ℤ) - ((0 : ℕ) : ℤ))) = i ax := by
          push_cast; omega
        rw [e, update_get]
    · simp only [BC.padByType, ht, hoff, BC.fract_half, if_true]
      rw [show ((0 : ℤ), ((1 : ℕ) : ℤ)) = (((0 : ℕ) : ℤ), ((1 : ℕ) : ℤ)) from rfl,
        BC.padNeumann_closed _ _ _ _ _ _ _ _ hn (by omega)]
      simp only [Except.map, Except.bind_ok]
      rw [BC.trim_lower _ 1 _ (by simp)]
      refine ⟨_, rfl, by simp, rfl, by simp [hoff], fun i hi => ?_⟩
      have hi' := hi ax
      have hnp' : ¬ (BCType.neumann = BCType.periodic) := by decide
      have hnp'' : ¬ (BCType.neumann = BCType.dirichlet) := by decide
      simp only [GridVariable.above, ht, hnp', if_false, hoff, if_true, hnp'']
      by_cases hlt : i ax + 1 < u.array.shape ax
      · rw [if_pos hlt, padData_interior _ _ _ _ _ (by simp; omega) (by simp; omega),
          padData_interior _ _ _ _ _ (by simp; omega) (by simp; omega),
          padData_interior _ _ _ _ _ (by simp; omega) (by simp; omega)]
        simp only [Function.update_self, Function.update_idem, Nat.cast_zero, sub_zero, Nat.cast_one]
        ring
      · rw [if_neg hlt, BC.padData_const_hi _ _ _ _ _ _ (by simp; omega),
          BC.padData_const_hi _ _ _ _ _ _ (by simp; omega)]
        simp only [padData, padIdxData, Function.update_self, Function.update_idem]
        rw [BC.symIdx_up _ _ (by simp; omega) (by simp; omega)]
        have e : (2 * (u.array.shape ax : ℤ) - 1 - (i ax + ((1 : ℕ) : ℤ) - ((0 : ℕ) : ℤ))) = i ax := by
          push_cast; omega
        rw [e, update_get]
        norm_num
  · have ht1 : (u.bc.types ax).1 = .dirichlet := by rw [ht]
    have ht2 : (u.bc.types ax).2 = .dirichlet := by rw [ht]
    have hnp' : ¬ (BCType.dirichlet = BCType.periodic) := by decide
    have hfr : Int.fract (1 : ℚ) = 0 := by simp
    have hhalf : ¬ ((1 : ℚ) = 1 / 2) := by norm_num
    -- the stored wall value is trimmed off before padding
    have htrim : u.bc.trimPadding u.array ax .right = .ok
        (⟨⟨Function.update u.array.shape ax (u.array.shape ax - 1), u.array.data⟩, u.array.offset, u.array.grid⟩,
          (0, 1)) := by
      unfold BC.trimPadding
      rw [if_pos (by omega)]
      have h1 : u.bc.trimPaddingLower u.array ax .right = .ok (u.array, 0) := by
        unfold BC.trimPaddingLower; rw [if_neg (by simp)]
      have h2 : u.bc.positiveTrim u.array ax .right = 1 := by
        have hc : ⌈((u.array.shape ax : ℚ) + 1 - 1 - (u.array.grid.shape ax : ℚ))⌉ = 0 := by
          rw [hs]; simp
        unfold BC.positiveTrim
        simp only [ht2, hnp', if_false, hoff, hfr, and_self, if_true, true_or, hc]
        rw [if_pos (by rw [hs]; linarith)]
        rfl
      rw [h1, Except.bind_ok]
      dsimp only
      rw [h2]
      have := BC.trim_upper u.array 1 ax (by omega)
      simp only [BC.trimUpperIf, gt_iff_lt, zero_lt_one, if_true]
      rw [show (1 : ℤ) = ((1 : ℕ) : ℤ) from rfl, this]
      simp [Except.bind_ok, Except.pure_eq_ok]
    unfold GridVariable.shift BC.shift BC.pad1
    have h10 : ¬ ((1 : ℤ) < 0) := by norm_num
    have h11 : (1 : ℤ) ≥ 0 := by norm_num
    simp only [BC.makePadding, BC.needTrimming, h10, if_false, ht2, hnp', h11, if_true, htrim, Except.bind_ok,
      BC.padByType, hoff, hfr]
    have hh : ¬ ((0 : ℚ) = 1 / 2) := by norm_num
    rw [if_neg hh]
    rw [show ((0 : ℤ) + 0, (1 : ℤ) + 1) = (((0 : ℕ) : ℤ), ((2 : ℕ) : ℤ)) from rfl,
      BC.padDirichletEdge_const _ _ _ _ _ _ (Or.inr rfl)]
    simp only [Except.bind_ok, Except.pure_eq_ok]
    rw [show (-1 : ℤ) = -((1 : ℕ) : ℤ) from rfl, BC.trim_lower _ 1 _ (by simp)]
    refine ⟨_, rfl, ?_, rfl, by simp, fun i hi => ?_⟩
    · simp only [Function.update_self, Function.update_idem]
      rw [show u.array.shape ax - 1 + 0 + 2 - 1 = u.array.shape ax by omega, Function.update_eq_self]
    · have hi' := hi ax
      simp only [GridVariable.above, ht2, hnp', if_false, hoff, hhalf]
      by_cases hlt : i ax + 2 < u.array.shape ax
      · rw [if_pos hlt, padData_interior _ _ _ _ _ (by simp; omega) (by simp; omega)]
        simp
      · rw [if_neg hlt, BC.padData_const_hi _ _ _ _ _ _ (by simp; omega)]

/-- What a one-cell shift downwards of a supported variable returns. -/
theorem shift_below {u : GridVariable d K} (hu : u.Supported) (ax : Fin d) :
    ∃ r, u.shift (-1) ax = .ok r ∧ r.shape = u.array.shape ∧ r.grid = u.array.grid ∧
      r.offset = Function.update u.array.offset ax (u.array.offset ax - 1) ∧
      ∀ i, InR u.array.shape i → r.data i = u.below ax i := by
  obtain ⟨hs, hN, hcase⟩ := hu ax
  have hn : 0 < u.array.shape ax := by omega
  have e1 : (-1 : ℤ) = -((1 : ℕ) : ℤ) := rfl
  have e2 : - -((1 : ℕ) : ℤ) = ((1 : ℕ) : ℤ) := by simp
  rcases hcase with hper | ⟨ht, -, hoff⟩ | ⟨ht, hoff⟩
  · refine ⟨_, BC.shift_periodic u.bc u.array (-1) ax .extend hper hs hN, rfl, rfl, by simp [sub_eq_add_neg],
      fun i hi => ?_⟩
    simp [GridVariable.below, hper]
  · have hnp : (u.bc.types ax).1 ≠ .periodic := by rcases ht with h | h <;> rw [h] <;> decide
    have hpad := BC.pad1_lower u.bc u.array ax 1 .extend (by omega) hnp (by rw [hoff]; norm_num)
    unfold GridVariable.shift BC.shift
    rw [e1, e2, hpad]
    rcases ht with ht | ht
    · simp only [BC.padByType, ht, hoff, BC.fract_half, if_true]
      rw [show (((1 : ℕ) : ℤ), (0 : ℤ)) = (((1 : ℕ) : ℤ), ((0 : ℕ) : ℤ)) from rfl,
        BC.padDirichletCenter_small _ _ _ _ _ _ (by omega), BC.padDirichletCenter_mirror _ _ _ _ _ hn]
      simp only [Except.map, Except.bind_ok]
      rw [BC.trim_upper _ 1 _ (by simp)]
      refine ⟨_, rfl, by simp, rfl, by simp, fun i hi => ?_⟩
      have hi' := hi ax
      have hnp' : ¬ (BCType.dirichlet = BCType.periodic) := by decide
      simp only [GridVariable.below, ht, hnp', if_false, hoff, if_true]
      by_cases hlt : 0 < i ax
      · rw [if_pos hlt, padData_interior _ _ _ _ _ (by simp; omega) (by simp; omega),
          padData_interior _ _ _ _ _ (by simp; omega) (by simp; omega)]
        simp only [Nat.cast_one]
        ring
      · rw [if_neg hlt, BC.padData_const_lo _ _ _ _ _ _ (by simp; omega)]
        simp only [padData, padIdxData]
        rw [BC.symIdx_neg _ _ (by simp; omega) (by simp; omega)]
        have e : (-1 - (i ax - ((1 : ℕ) : ℤ))) = i ax := by push_cast; omega
        rw [e, update_get]
    · simp only [BC.padByType, ht, hoff, BC.fract_half, if_true]
      rw [show (((1 : ℕ) : ℤ), (0 : ℤ)) = (((1 : ℕ) : ℤ), ((0 : ℕ) : ℤ)) from rfl,
        BC.padNeumann_closed _ _ _ _ _ _ _ _ hn (by omega)]
      simp only [Except.map, Except.bind_ok]
      rw [BC.trim_upper _ 1 _ (by simp)]
      refine ⟨_, rfl, by simp, rfl, by simp, fun i hi => ?_⟩
      have hi' := hi ax
      have hnp' : ¬ (BCType.neumann = BCType.periodic) := by decide
      have hnp'' : ¬ (BCType.neumann = BCType.dirichlet) := by decide
      simp only [GridVariable.below, ht, hnp', if_false, hoff, if_true, hnp'']
      by_cases hlt : 0 < i ax
      · rw [if_pos hlt, padData_interior _ _ _ _ _ (by simp; omega) (by simp; omega),
          padData_interior _ _ _ _ _ (by simp; omega) (by simp; omega),
          padData_interior _ _ _ _ _ (by simp; omega) (by simp; omega)]
        simp only [Nat.cast_one]
        ring
      · rw [if_neg hlt, BC.padData_const_lo _ _ _ _ _ _ (by simp; omega),
          BC.padData_const_lo _ _ _ _ _ _ (by simp; omega)]
        simp only [padData, padIdxData]
        rw [BC.symIdx_neg _ _ (by simp; omega) (by simp; omega)]
        have e : (-1 - (i ax - ((1 : ℕ) : ℤ))) = i ax := by push_cast; omega
        rw [e, update_get]
        norm_num
  · have ht1 : (u.bc.types ax).1 = .dirichlet := by rw [ht]
    have hnp' : ¬ (BCType.dirichlet = BCType.periodic) := by decide
    have hfr : Int.fract (1 : ℚ) = 0 := by simp
    have hhalf : ¬ ((1 : ℚ) = 1 / 2) := by norm_num
    have hh : ¬ ((0 : ℚ) = 1 / 2) := by norm_num
    have hpad := BC.pad1_lower u.bc u.array ax 1 .extend (by omega) (by rw [ht1]; decide) (by rw [hoff]; norm_num)
    unfold GridVariable.shift BC.shift
    rw [e1, e2, hpad]
    simp only [BC.padByType, ht1, hoff, hfr, hh, if_false, if_true]
    rw [show (((1 : ℕ) : ℤ), (0 : ℤ)) = (((1 : ℕ) : ℤ), ((0 : ℕ) : ℤ)) from rfl,
      BC.padDirichletEdge_const _ _ _ _ _ _ (Or.inl (by omega))]
    simp only [Except.map, Except.bind_ok]
    rw [BC.trim_upper _ 1 _ (by simp)]
    refine ⟨_, rfl, by simp, rfl, by simp, fun i hi => ?_⟩
    have hi' := hi ax
    simp only [GridVariable.below, ht1, hnp', if_false, hoff, hhalf]
    by_cases hlt : 0 < i ax
    · rw [if_pos hlt, padData_interior _ _ _ _ _ (by simp; omega) (by simp; omega)]
      simp
    · rw [if_neg hlt, BC.padData_const_lo _ _ _ _ _ _ (by simp; omega)]

end JaxCfd

namespace JaxCfd
variable {d : ℕ} {K : Type} [Field K] [HasNan K]

/-- What a shift by zero of a supported cell-centred variable returns: the variable. -/
theorem shift_zero_center {u : GridVariable d K} (hu : u.Supported) (ax : Fin d)
    (hc : u.bc.types ax = (.periodic, .periodic) ∨ u.array.offset ax = 1 / 2) :
    ∃ r, u.shift 0 ax = .ok r ∧ r.shape = u.array.shape ∧ r.grid = u.array.grid ∧
      r.offset = u.array.offset ∧ ∀ i, InR u.array.shape i → r.data i = u.array.data i := by
  obtain ⟨hs, hN, hcase⟩ := hu ax
  have hn : 0 < u.array.shape ax := by omega
  by_cases hper : u.bc.types ax = (.periodic, .periodic)
  · refine ⟨_, BC.shift_periodic u.bc u.array 0 ax .extend hper hs hN, rfl, rfl, by simp, fun i hi => ?_⟩
    simp [rollIdx_zero hi]
  · have hoff : u.array.offset ax = 1 / 2 := by rcases hc with h | h; exact absurd h hper; exact h
    have ht : (u.bc.types ax).2 = .dirichlet ∨ (u.bc.types ax).2 = .neumann := by
      rcases hcase with h | ⟨-, h, -⟩ | ⟨h, -⟩
      · exact absurd h hper
      · exact h
      · exact Or.inl (by rw [h])
    have hnp : (u.bc.types ax).2 ≠ .periodic := by rcases ht with h | h <;> rw [h] <;> decide
    have hpad := BC.pad1_upper u.bc u.array ax 0 .extend hnp (by rw [hoff, hs]; linarith)
    unfold GridVariable.shift BC.shift
    rw [show (0 : ℤ) = ((0 : ℕ) : ℤ) from rfl, hpad]
    rcases ht with ht | ht
    · simp only [BC.padByType, ht, hoff, BC.fract_half, if_true]
      rw [show ((0 : ℤ), ((0 : ℕ) : ℤ)) = (((0 : ℕ) : ℤ), ((0 : ℕ) : ℤ)) from rfl,
        BC.padDirichletCenter_small _ _ _ _ _ _ (by omega), BC.padDirichletCenter_mirror _ _ _ _ _ hn]
      simp only [Except.map, Except.bind_ok]
      rw [BC.trim_lower _ 0 _ (by simp)]
      refine ⟨_, rfl, by simp, rfl, by simp, fun i hi => ?_⟩
      have hi' := hi ax
      dsimp only
      rw [padData_interior _ _ _ _ _ (by simp; omega) (by simp; omega),
          padData_interior _ _ _ _ _ (by simp; omega) (by simp; omega)]
      simp only [Nat.cast_zero, sub_zero, add_zero, update_get]
      ring
    · simp only [BC.padByType, ht, hoff, BC.fract_half, if_true]
      rw [show ((0 : ℤ), ((0 : ℕ) : ℤ)) = (((0 : ℕ) : ℤ), ((0 : ℕ) : ℤ)) from rfl,
        BC.padNeumann_closed _ _ _ _ _ _ _ _ hn (by omega)]
      simp only [Except.map, Except.bind_ok]
      rw [BC.trim_lower _ 0 _ (by simp)]
      refine ⟨_, rfl, by simp, rfl, by simp, fun i hi => ?_⟩
      have hi' := hi ax
      dsimp only
      rw [padData_interior _ _ _ _ _ (by simp; omega) (by simp; omega),
          padData_interior _ _ _ _ _ (by simp; omega) (by simp; omega),
          padData_interior _ _ _ _ _ (by simp; omega) (by simp; omega)]
      simp only [Nat.cast_zero, sub_zero, add_zero, update_get]
      ring

end JaxCfd
