import Verif.Props.Convergence
import Verif.Props.AccuracyWalls
import Verif.Props.AccuracyExamples

/-!
# C74: convergence of explicit diffusion between walls
-/

namespace JaxCfd
variable {d : ℕ} [HasNan ℝ]

/-- The share of a Neumann wall in the rate at which the error grows. -/
noncomputable def neumannShare (t : BCType) (M3 h : ℝ) : ℝ := if t = .neumann then M3 * h / 24 else 0

omit [HasNan ℝ] in
theorem neumannShare_nonneg (t : BCType) {M3 h : ℝ} (h3 : 0 ≤ M3) (hh : 0 ≤ h) : 0 ≤ neumannShare t M3 h := by
  unfold neumannShare
  split_ifs
  · positivity
  · exact le_rfl

section
variable {u : GridVariable d ℝ} {f : (Fin d → ℝ) → ℝ}

/-- How the error enters the difference of the values above a cell: the neighbour's error, or minus the cell's own error at a Dirichlet wall. -/
theorem above_error (hu : u.Supported) (hg : u.array.grid.Valid) (a : Fin d) {M2 M3 X : ℝ} (hM2 : 0 ≤ M2) (hM3 : 0 ≤ M3) (hX : 0 ≤ X)
    (hE : ∀ j : Idx d, InR u.array.shape j → (∀ b, j b < u.interior b) → |u.array.data j - (sampled u f).array.data j| ≤ X) {i : Idx d} (hi : InR u.array.shape i) (hin : ∀ b, i b < u.interior b) :
    ∃ w : ℝ, 0 ≤ w ∧ w ≤ 1 ∧ (w ≠ 0 → (u.bc.types a).2 = .dirichlet ∧ i a + 1 = u.array.shape a) ∧
      |u.above a i - (sampled u f).above a i + w * (u.array.data i - (sampled u f).array.data i)| ≤ (1 - w) * X ∧
      u.upperError a M2 M3 i ≤ w * (M2 / 4) + neumannShare (u.bc.types a).2 M3 (u.array.grid.step a) := by
  have hstep := hg.step_pos a
  have hns := neumannShare_nonneg (u.bc.types a).2 hM3 hstep.le
  have hia := hi a
  have hsa := (hu a).1
  have e0 : (sampled u f).bc = u.bc := rfl
  have e1 : (sampled u f).array.offset = u.array.offset := rfl
  have e2 : (sampled u f).array.shape = u.array.shape := rfl
  have e3 : (sampled u f).array.grid = u.array.grid := rfl
  have hupd : ∀ x : ℤ, 0 ≤ x → x < u.array.shape a → x < u.interior a →
      |u.array.data (Function.update i a x) - (sampled u f).array.data (Function.update i a x)| ≤ X := fun x h0 h1 h2 =>
    hE _ (hi.update a h0 h1) fun b => by
      by_cases hb : b = a
      · subst hb; rwa [Function.update_self]
      · rw [Function.update_of_ne hb]; exact hin b
  rcases (hu a).2.2 with hper | ⟨t1, t2, ho⟩ | ⟨t, ho⟩
  · have hint : u.interior a = u.array.shape a := by unfold GridVariable.interior; rw [if_neg fun h => by rw [hper] at h; exact absurd h.1 (by decide)]
    have hr := rollIdx_inR hi a 1
    refine ⟨0, le_rfl, zero_le_one, fun h => absurd rfl h, ?_, ?_⟩
    · unfold GridVariable.above
      rw [e0, e2, hper, if_pos rfl, if_pos rfl, zero_mul, add_zero, sub_zero, one_mul]
      refine hE _ hr fun b => ?_
      by_cases hb : b = a
      · subst hb; rw [hint]; exact (hr b).2
      · unfold rollIdx; rw [Function.update_of_ne hb]; exact hin b
    · have : u.upperError a M2 M3 i = 0 := by
        unfold GridVariable.upperError
        rw [hper]
        exact ite_self _
      rw [this, zero_mul, zero_add]
      exact hns
  · have hint : u.interior a = u.array.shape a := by unfold GridVariable.interior; rw [if_neg fun h => by rw [ho] at h; norm_num at h]
    have hnp : (u.bc.types a).2 ≠ .periodic := by rcases t2 with e | e <;> rw [e] <;> decide
    unfold GridVariable.above
    rw [e0, e1, e2, e3, if_neg hnp, if_pos ho, if_neg hnp, if_pos ho]
    by_cases hl : i a + 1 < u.array.shape a
    · refine ⟨0, le_rfl, zero_le_one, fun h => absurd rfl h, ?_, ?_⟩
      · rw [if_pos hl, if_pos hl, zero_mul, add_zero, sub_zero, one_mul]
        exact hupd _ (by omega) hl (by omega)
      · have : u.upperError a M2 M3 i = 0 := if_neg fun h => by omega
        rw [this, zero_mul, zero_add]
        exact hns
    · have hlast : i a + 1 = u.array.shape a := by omega
      have hU : u.upperError a M2 M3 i = (u.bc.types a).2.wallError M2 M3 (u.array.grid.step a) := if_pos ⟨hlast, ho⟩
      rw [if_neg hl, if_neg hl, hU]
      rcases t2 with e | e
      · refine ⟨1, zero_le_one, le_rfl, fun _ => ⟨e, hlast⟩, ?_, ?_⟩
        · rw [if_pos e, if_pos e, sub_self, zero_mul]
          refine (le_of_eq ?_ : _ ≤ (0 : ℝ))
          rw [abs_eq_zero]
          ring
        · rw [e, one_mul]
          exact le_add_of_nonneg_right (by rw [e] at hns; exact hns)
      · have hne : (u.bc.types a).2 ≠ .dirichlet := by rw [e]; decide
        refine ⟨0, le_rfl, zero_le_one, fun h => absurd rfl h, ?_, ?_⟩
        · rw [if_neg hne, if_neg hne, zero_mul, add_zero, sub_zero, one_mul]
          refine (le_of_eq (congrArg abs ?_)).trans (hE i hi hin)
          ring
        · rw [e, zero_mul, zero_add, neumannShare, if_pos rfl]
          exact le_rfl
  · have hint : u.interior a = u.array.shape a - 1 := by unfold GridVariable.interior; rw [if_pos ⟨t, ho⟩]
    have hina := hin a
    have nd : ¬ ((BCType.dirichlet, BCType.dirichlet).2 = BCType.periodic) := by decide
    have no : ¬ ((1 : ℚ) = 1 / 2) := by norm_num
    refine ⟨0, le_rfl, zero_le_one, fun h => absurd rfl h, ?_, ?_⟩
    · unfold GridVariable.above
      rw [e0, e1, e2, t, ho, if_neg nd, if_neg no, if_neg nd, if_neg no, zero_mul, add_zero, sub_zero, one_mul]
      by_cases hl : i a + 2 < u.array.shape a
      · rw [if_pos hl, if_pos hl]
        exact hupd _ (by omega) (by omega) (by omega)
      · rw [if_neg hl, if_neg hl, sub_self, abs_zero]
        exact hX
    · have : u.upperError a M2 M3 i = 0 := if_neg fun h => by rw [ho] at h; norm_num at h
      rw [this, zero_mul, zero_add]
      exact hns

/-- The same below a cell. -/
theorem below_error (hu : u.Supported) (hg : u.array.grid.Valid) (a : Fin d) {M2 M3 X : ℝ} (hM2 : 0 ≤ M2) (hM3 : 0 ≤ M3) (hX : 0 ≤ X)
    (hE : ∀ j : Idx d, InR u.array.shape j → (∀ b, j b < u.interior b) → |u.array.data j - (sampled u f).array.data j| ≤ X) {i : Idx d} (hi : InR u.array.shape i) (hin : ∀ b, i b < u.interior b) :
    ∃ w : ℝ, 0 ≤ w ∧ w ≤ 1 ∧ (w ≠ 0 → (u.bc.types a).1 = .dirichlet ∧ i a = 0) ∧
      |u.below a i - (sampled u f).below a i + w * (u.array.data i - (sampled u f).array.data i)| ≤ (1 - w) * X ∧
      u.lowerError a M2 M3 i ≤ w * (M2 / 4) + neumannShare (u.bc.types a).1 M3 (u.array.grid.step a) := by
  have hstep := hg.step_pos a
  have hns := neumannShare_nonneg (u.bc.types a).1 hM3 hstep.le
  have hia := hi a
  have e0 : (sampled u f).bc = u.bc := rfl
  have e1 : (sampled u f).array.offset = u.array.offset := rfl
  have e2 : (sampled u f).array.shape = u.array.shape := rfl
  have e3 : (sampled u f).array.grid = u.array.grid := rfl
  have hupd : ∀ x : ℤ, 0 ≤ x → x < u.array.shape a → x < u.interior a →
      |u.array.data (Function.update i a x) - (sampled u f).array.data (Function.update i a x)| ≤ X := fun x h0 h1 h2 =>
    hE _ (hi.update a h0 h1) fun b => by
      by_cases hb : b = a
      · subst hb; rwa [Function.update_self]
      · rw [Function.update_of_ne hb]; exact hin b
  rcases (hu a).2.2 with hper | ⟨t1, t2, ho⟩ | ⟨t, ho⟩
  · have hint : u.interior a = u.array.shape a := by unfold GridVariable.interior; rw [if_neg fun h => by rw [hper] at h; exact absurd h.1 (by decide)]
    have hr := rollIdx_inR hi a (-1)
    refine ⟨0, le_rfl, zero_le_one, fun h => absurd rfl h, ?_, ?_⟩
    · unfold GridVariable.below
      rw [e0, e2, hper, if_pos rfl, if_pos rfl, zero_mul, add_zero, sub_zero, one_mul]
      refine hE _ hr fun b => ?_
      by_cases hb : b = a
      · subst hb; rw [hint]; exact (hr b).2
      · unfold rollIdx; rw [Function.update_of_ne hb]; exact hin b
    · have : u.lowerError a M2 M3 i = 0 := by
        unfold GridVariable.lowerError
        rw [hper]
        exact ite_self _
      rw [this, zero_mul, zero_add]
      exact hns
  · have hnp : (u.bc.types a).1 ≠ .periodic := by rcases t1 with e | e <;> rw [e] <;> decide
    unfold GridVariable.below
    rw [e0, e1, e3, if_neg hnp, if_neg hnp]
    by_cases hl : 0 < i a
    · refine ⟨0, le_rfl, zero_le_one, fun h => absurd rfl h, ?_, ?_⟩
      · rw [if_pos hl, if_pos hl, zero_mul, add_zero, sub_zero, one_mul]
        exact hupd _ (by omega) (by omega) (by have := hin a; omega)
      · have : u.lowerError a M2 M3 i = 0 := if_neg fun h => by omega
        rw [this, zero_mul, zero_add]
        exact hns
    · have h0 : i a = 0 := by omega
      have hU : u.lowerError a M2 M3 i = (u.bc.types a).1.wallError M2 M3 (u.array.grid.step a) := if_pos ⟨h0, ho⟩
      rw [if_neg hl, if_neg hl, if_pos ho, if_pos ho, hU]
      rcases t1 with e | e
      · refine ⟨1, zero_le_one, le_rfl, fun _ => ⟨e, h0⟩, ?_, ?_⟩
        · rw [if_pos e, if_pos e, sub_self, zero_mul]
          refine (le_of_eq ?_ : _ ≤ (0 : ℝ))
          rw [abs_eq_zero]
          ring
        · rw [e, one_mul]
          exact le_add_of_nonneg_right (by rw [e] at hns; exact hns)
      · have hne : (u.bc.types a).1 ≠ .dirichlet := by rw [e]; decide
        refine ⟨0, le_rfl, zero_le_one, fun h => absurd rfl h, ?_, ?_⟩
        · rw [if_neg hne, if_neg hne, zero_mul, add_zero, sub_zero, one_mul]
          refine (le_of_eq (congrArg abs ?_)).trans (hE i hi hin)
          ring
        · rw [e, zero_mul, zero_add, neumannShare, if_pos rfl]
          exact le_rfl
  · refine ⟨0, le_rfl, zero_le_one, fun h => absurd rfl h, ?_, ?_⟩
    · unfold GridVariable.below
      have nd : ¬ ((BCType.dirichlet, BCType.dirichlet).1 = BCType.periodic) := by decide
      rw [e0, e1, t, if_neg nd, if_neg nd, zero_mul, add_zero, sub_zero, one_mul]
      by_cases hl : 0 < i a
      · rw [if_pos hl, if_pos hl]
        exact hupd _ (by omega) (by omega) (by have := hin a; omega)
      · rw [if_neg hl, if_neg hl, if_neg (by rw [ho]; norm_num), if_neg (by rw [ho]; norm_num), sub_self, abs_zero]
        exact hX
    · have : u.lowerError a M2 M3 i = 0 := if_neg fun h => by rw [ho] at h; norm_num at h
      rw [this, zero_mul, zero_add]
      exact hns

/-- The explicit diffusion step between walls: the errors of the Laplacian at Dirichlet walls are absorbed by the damping of the error there. -/
theorem wall_diffusion_step (hu : u.Supported) (hg : u.array.grid.Valid) (hs2 : ∀ a, 2 ≤ u.array.shape a) (κ : ℝ) (hκ : 0 ≤ κ) (hc : 3 * κ * ∑ a, 1 / u.array.grid.step a ^ 2 ≤ 1) {M2 M3 : Fin d → ℝ}
    (hM2 : ∀ a, 0 ≤ M2 a) (hM3 : ∀ a, 0 ≤ M3 a) {X : ℝ} (hX : 0 ≤ X)
    (hXM : ∀ a, (u.bc.types a).1 = .dirichlet ∨ (u.bc.types a).2 = .dirichlet → M2 a * u.array.grid.step a ^ 2 / 8 ≤ X)
    (hE : ∀ j : Idx d, InR u.array.shape j → (∀ b, j b < u.interior b) → |u.array.data j - (sampled u f).array.data j| ≤ X) {i : Idx d} (hi : InR u.array.shape i) (hin : ∀ b, i b < u.interior b) :
    |u.array.data i - (sampled u f).array.data i + κ * ((∑ a, (u.above a i + u.below a i - 2 * u.array.data i) / u.array.grid.step a ^ 2) -
        ∑ a, ((sampled u f).above a i + (sampled u f).below a i - 2 * (sampled u f).array.data i) / u.array.grid.step a ^ 2)| +
      κ * ∑ a, u.wallError a (M2 a) (M3 a) i ≤
      X + κ * ∑ a, (neumannShare (u.bc.types a).1 (M3 a) (u.array.grid.step a) + neumannShare (u.bc.types a).2 (M3 a) (u.array.grid.step a)) := by
  choose p hp0 hp1 hpd hpe hpu using fun a => above_error (f := f) hu hg a (hM2 a) (hM3 a) hX hE hi hin
  choose m hm0 hm1 hmd hme hmu using fun a => below_error (f := f) hu hg a (hM2 a) (hM3 a) hX hE hi hin
  set e := u.array.data i - (sampled u f).array.data i with he
  have hst : ∀ a, 0 < u.array.grid.step a ^ 2 := fun a => pow_pos (hg.step_pos a) 2
  have hpm : ∀ a, p a + m a ≤ 1 := fun a => by
    by_cases h : p a = 0
    · rw [h, zero_add]; exact hm1 a
    · by_cases h' : m a = 0
      · rw [h', add_zero]; exact hp1 a
      · have := (hpd a h).2
        have := (hmd a h').2
        have := hs2 a
        omega
  have hcoef : 0 ≤ 1 - κ * ∑ a, (2 + p a + m a) / u.array.grid.step a ^ 2 := by
    have : κ * ∑ a, (2 + p a + m a) / u.array.grid.step a ^ 2 ≤ 3 * κ * ∑ a, 1 / u.array.grid.step a ^ 2 := by
      rw [mul_comm 3 κ, mul_assoc]
      refine mul_le_mul_of_nonneg_left ?_ hκ
      rw [Finset.mul_sum]
      refine Finset.sum_le_sum fun a _ => ?_
      rw [mul_one_div]
      exact div_le_div_of_nonneg_right (by linarith [hpm a]) (hst a).le
    linarith
  have hid : e + κ * ((∑ a, (u.above a i + u.below a i - 2 * u.array.data i) / u.array.grid.step a ^ 2) -
        ∑ a, ((sampled u f).above a i + (sampled u f).below a i - 2 * (sampled u f).array.data i) / u.array.grid.step a ^ 2) =
      (1 - κ * ∑ a, (2 + p a + m a) / u.array.grid.step a ^ 2) * e +
        κ * ∑ a, ((u.above a i - (sampled u f).above a i + p a * e) + (u.below a i - (sampled u f).below a i + m a * e)) / u.array.grid.step a ^ 2 := by
    have hsum : (∑ a, (u.above a i + u.below a i - 2 * u.array.data i) / u.array.grid.step a ^ 2) -
        ∑ a, ((sampled u f).above a i + (sampled u f).below a i - 2 * (sampled u f).array.data i) / u.array.grid.step a ^ 2 =
        (∑ a, ((u.above a i - (sampled u f).above a i + p a * e) + (u.below a i - (sampled u f).below a i + m a * e)) / u.array.grid.step a ^ 2) -
          (∑ a, (2 + p a + m a) / u.array.grid.step a ^ 2) * e := by
      rw [Finset.sum_mul, ← Finset.sum_sub_distrib, ← Finset.sum_sub_distrib]
      refine Finset.sum_congr rfl fun a _ => ?_
      rw [he]
      ring
    rw [hsum]
    ring
  rw [hid]
  have hei : |e| ≤ X := hE i hi hin
  have h1 : |(1 - κ * ∑ a, (2 + p a + m a) / u.array.grid.step a ^ 2) * e| ≤ (1 - κ * ∑ a, (2 + p a + m a) / u.array.grid.step a ^ 2) * X := by
    rw [abs_mul, abs_of_nonneg hcoef]
    exact mul_le_mul_of_nonneg_left hei hcoef
  have h2 : |κ * ∑ a, ((u.above a i - (sampled u f).above a i + p a * e) + (u.below a i - (sampled u f).below a i + m a * e)) / u.array.grid.step a ^ 2| ≤
      κ * ∑ a, ((1 - p a) * X + (1 - m a) * X) / u.array.grid.step a ^ 2 := by
    rw [abs_mul, abs_of_nonneg hκ]
    refine mul_le_mul_of_nonneg_left ((Finset.abs_sum_le_sum_abs _ _).trans (Finset.sum_le_sum fun a _ => ?_)) hκ
    rw [abs_div, abs_of_pos (hst a)]
    exact div_le_div_of_nonneg_right ((abs_add_le _ _).trans (add_le_add (hpe a) (hme a))) (hst a).le
  have h3 : κ * ∑ a, u.wallError a (M2 a) (M3 a) i ≤ κ * ∑ a, (2 * (p a + m a) * X / u.array.grid.step a ^ 2 +
      (neumannShare (u.bc.types a).1 (M3 a) (u.array.grid.step a) + neumannShare (u.bc.types a).2 (M3 a) (u.array.grid.step a))) := by
    refine mul_le_mul_of_nonneg_left (Finset.sum_le_sum fun a _ => ?_) hκ
    have hw : u.wallError a (M2 a) (M3 a) i = u.lowerError a (M2 a) (M3 a) i + u.upperError a (M2 a) (M3 a) i := rfl
    have hq : (p a + m a) * (M2 a / 4) ≤ 2 * (p a + m a) * X / u.array.grid.step a ^ 2 := by
      rw [le_div_iff₀ (hst a)]
      by_cases h : p a + m a = 0
      · rw [h]; simp
      · have hdir : (u.bc.types a).1 = .dirichlet ∨ (u.bc.types a).2 = .dirichlet := by
          by_cases h' : p a = 0
          · exact Or.inl (hmd a fun h'' => h (by rw [h', h'', add_zero])).1
          · exact Or.inr (hpd a h').1
        have := mul_le_mul_of_nonneg_left (hXM a hdir) (add_nonneg (hp0 a) (hm0 a))
        linarith
    rw [hw]
    linarith [hpu a, hmu a]
  have h4 : (1 - κ * ∑ a, (2 + p a + m a) / u.array.grid.step a ^ 2) * X + κ * ∑ a, ((1 - p a) * X + (1 - m a) * X) / u.array.grid.step a ^ 2 +
      κ * ∑ a, 2 * (p a + m a) * X / u.array.grid.step a ^ 2 = X := by
    have : ∑ a, ((1 - p a) * X + (1 - m a) * X) / u.array.grid.step a ^ 2 + ∑ a, 2 * (p a + m a) * X / u.array.grid.step a ^ 2 =
        (∑ a, (2 + p a + m a) / u.array.grid.step a ^ 2) * X := by
      rw [Finset.sum_mul, ← Finset.sum_add_distrib]
      refine Finset.sum_congr rfl fun a _ => ?_
      ring
    linear_combination κ * this
  rw [Finset.sum_add_distrib, mul_add] at h3
  have h5 := abs_add_le ((1 - κ * ∑ a, (2 + p a + m a) / u.array.grid.step a ^ 2) * e)
    (κ * ∑ a, ((u.above a i - (sampled u f).above a i + p a * e) + (u.below a i - (sampled u f).below a i + m a * e)) / u.array.grid.step a ^ 2)
  linarith

end

omit [HasNan ℝ] in
theorem EulerStep.supported {u w : GridVariable d ℝ} {r : GridArray d ℝ} {dt : ℝ} (h : EulerStep u r dt w) (hu : u.Supported) : w.Supported := fun a => by
  rw [h.1, h.2.1, h.2.2.1, h.2.2.2.1]
  exact hu a

/-- **C74** Explicit diffusion converges between walls, to second order where the walls carry Dirichlet conditions, although the error of the Laplacian next to such a wall does not vanish (`C73_dirichlet_wall_defect`).
On a grid of at least two cells per axis, as long as `3 ν dt Σ 1/h² ≤ 1`, the error inside the domain after `n` steps is at most the larger of the initial error and `M₂ h² / 8`, plus `n dt` times
`T dt / 2 + ν Σ M₄ h² / 12` and a share `ν M₃ h / 24` for every Neumann wall. -/
theorem C74_wall_diffusion (c : ℕ → GridVariable d ℝ) (hc : (c 0).Supported) (g : Grid d ℝ) (hgr : (c 0).array.grid = g) (hg : g.Valid) (hs2 : ∀ a, 2 ≤ g.shape a) (nu dt : ℝ) (hnu : 0 ≤ nu) (hdt : 0 ≤ dt)
    (hst : 3 * (nu * dt) * ∑ a, 1 / g.step a ^ 2 ≤ 1) (hrun : ∀ n, ∃ r, diffuse (c n) nu = .ok r ∧ EulerStep (c n) r dt (c (n + 1)))
    (C : ℝ → (Fin d → ℝ) → ℝ) (T : ℝ) (M2 M3 M4 : Fin d → ℝ) (hCt : SmoothInTime C T) (hCb : ∀ t, 0 ≤ t → (c 0).bc.Obeys g (C t))
    (h2 : ∀ t, 0 ≤ t → ∀ a, SmoothAlong 2 a (M2 a) (C t)) (h3 : ∀ t, 0 ≤ t → ∀ a, SmoothAlong 3 a (M3 a) (C t)) (h4 : ∀ t, 0 ≤ t → ∀ a, SmoothAlong 4 a (M4 a) (C t))
    (heat : ∀ t, 0 ≤ t → ∀ x, deriv (fun s => C s x) t = nu * ∑ a, partialDeriv 2 a (C t) x)
    (ε : ℝ) (hε : 0 ≤ ε) (hini : ∀ i : Idx d, InR g.shape i → (∀ a, i a < (c 0).interior a) → |(c 0).array.data i - C 0 (g.position (c 0).array.offset i)| ≤ ε)
    (hεM : ∀ a, ((c 0).bc.types a).1 = .dirichlet ∨ ((c 0).bc.types a).2 = .dirichlet → M2 a * g.step a ^ 2 / 8 ≤ ε) (n : ℕ) :
    ∀ i : Idx d, InR g.shape i → (∀ a, i a < (c 0).interior a) → |(c n).array.data i - C (n * dt) (g.position (c 0).array.offset i)| ≤
      ε + n * dt * (T * dt / 2 + nu * ∑ a, (M4 a * g.step a ^ 2 / 12 + ((if ((c 0).bc.types a).1 = .neumann then M3 a * g.step a / 24 else 0) +
        if ((c 0).bc.types a).2 = .neumann then M3 a * g.step a / 24 else 0))) := by
  have hlay : ∀ n, (c n).Supported ∧ (c n).bc = (c 0).bc ∧ (c n).array.grid = g ∧ (c n).array.shape = (c 0).array.shape ∧ (c n).array.offset = (c 0).array.offset := fun n => by
    induction n with
    | zero => exact ⟨hc, rfl, hgr, rfl, rfl⟩
    | succ n ih =>
      obtain ⟨r, -, hr⟩ := hrun n
      exact ⟨hr.supported ih.1, hr.1.trans ih.2.1, hr.2.1.trans ih.2.2.1, hr.2.2.1.trans ih.2.2.2.1, hr.2.2.2.1.trans ih.2.2.2.2⟩
  have hsh : (c 0).array.shape = g.shape := by funext a; rw [(hc a).1, hgr]
  set x0 : Fin d → ℝ := fun _ => 0
  have hT : 0 ≤ T := (abs_nonneg _).trans (hCt.2 x0 0 le_rfl)
  have hM2 : ∀ a, 0 ≤ M2 a := fun a => (abs_nonneg _).trans ((h2 0 le_rfl a).2 x0)
  have hM3 : ∀ a, 0 ≤ M3 a := fun a => (abs_nonneg _).trans ((h3 0 le_rfl a).2 x0)
  have hM4 : ∀ a, 0 ≤ M4 a := fun a => (abs_nonneg _).trans ((h4 0 le_rfl a).2 x0)
  set N : Fin d → ℝ := fun a => neumannShare ((c 0).bc.types a).1 (M3 a) (g.step a) + neumannShare ((c 0).bc.types a).2 (M3 a) (g.step a) with hN
  set R := T * dt / 2 + nu * ∑ a, (M4 a * g.step a ^ 2 / 12 + N a) with hR
  have hR0 : 0 ≤ R := by
    refine add_nonneg (by positivity) (mul_nonneg hnu (Finset.sum_nonneg fun a _ => ?_))
    have hstp := (hg.step_pos a).le
    have := hM4 a
    exact add_nonneg (by positivity) (add_nonneg (neumannShare_nonneg _ (hM3 a) hstp) (neumannShare_nonneg _ (hM3 a) hstp))
  suffices h : ∀ i : Idx d, InR g.shape i → (∀ a, i a < (c 0).interior a) → |(c n).array.data i - C (n * dt) (g.position (c 0).array.offset i)| ≤ ε + n * dt * R from h
  induction n with
  | zero => simpa using hini
  | succ n ih =>
    intro i hi hin
    obtain ⟨r, hr, hw⟩ := hrun n
    obtain ⟨hsup, hbc, hgn, hshn, hon⟩ := hlay n
    have ht : 0 ≤ n * dt := by positivity
    set t : ℝ := n * dt with htd
    set s := sampled (c n) (C t) with hsd
    have hint : ∀ a, (c n).interior a = (c 0).interior a := fun a => by unfold GridVariable.interior; rw [hbc, hshn, hon]
    have hss : s.Supported := hsup
    obtain ⟨l, hl, -, -, -, hlb⟩ := C73_wall_laplacian hss (by show (c n).array.grid.Valid; rw [hgn]; exact hg)
      (by show BC.Obeys (c n).bc (c n).array.grid _; rw [hgn, hbc]; exact hCb t ht) (sampled_samples _ _) M2 M3 M4 (h2 t ht) (h3 t ht) (h4 t ht)
    obtain ⟨l', hl', hl's, -, -, hld⟩ := laplacian_supported' hss
    obtain rfl : l = l' := Except.ok.inj (hl.symm.trans hl')
    obtain ⟨k, hk, hks, -, -, hkd⟩ := laplacian_supported' hsup
    have hic : InR (c n).array.shape i := by rw [hshn, hsh]; exact hi
    have hic' : InR s.array.shape i := hic
    have hinc : ∀ a, i a < (c n).interior a := fun a => by rw [hint]; exact hin a
    have hrd : r.data i = nu * k.data i := by
      unfold diffuse at hr
      rw [hk] at hr
      obtain rfl := Except.ok.inj hr
      rfl
    have hX : 0 ≤ ε + t * R := by positivity
    have hEj : ∀ j : Idx d, InR (c n).array.shape j → (∀ b, j b < (c n).interior b) → |(c n).array.data j - s.array.data j| ≤ ε + t * R := fun j hj hjn => by
      have hs' : s.array.data j = C t (g.position (c 0).array.offset j) := by
        show C t ((c n).array.grid.position (c n).array.offset j) = _
        rw [hgn, hon]
      rw [hs']
      exact ih j (by rw [← hsh, ← hshn]; exact hj) fun b => by rw [← hint]; exact hjn b
    have hstep := wall_diffusion_step (f := C t) hsup (by rw [hgn]; exact hg) (fun a => by rw [hshn, hsh]; exact hs2 a) (nu * dt) (by positivity) (by rw [hgn]; exact hst) hM2 hM3 hX
      (fun a ha => by rw [hbc] at ha; rw [hgn]; exact (hεM a ha).trans (le_add_of_nonneg_right (by positivity))) hEj hic hinc
    rw [← hkd i hic] at hstep
    have hle : ∑ a, (s.above a i + s.below a i - 2 * s.array.data i) / (c n).array.grid.step a ^ 2 = l.data i := (hld i hic').symm
    rw [hle] at hstep
    have hlb' := hlb i hic' hinc
    have hsp : s.array.data i = C t (g.position (c 0).array.offset i) := by
      show C t ((c n).array.grid.position (c n).array.offset i) = _
      rw [hgn, hon]
    have epos : s.array.grid.position s.array.offset i = g.position (c 0).array.offset i := by
      show (c n).array.grid.position (c n).array.offset i = _
      rw [hgn, hon]
    have estp : s.array.grid = g := hgn
    have ewall : ∀ a, s.wallError a (M2 a) (M3 a) i = (c n).wallError a (M2 a) (M3 a) i := fun _ => rfl
    rw [epos, estp, Finset.sum_add_distrib] at hlb'
    simp only [ewall] at hlb'
    rw [hgn, hbc, hsp] at hstep
    set x := g.position (c 0).array.offset i
    have hh := heat t ht x
    have htime := time_bound hCt x ht (add_nonneg ht hdt)
    rw [hh] at htime
    have hwd := hw.2.2.2.2 i hic
    have et : ((n + 1 : ℕ) : ℝ) * dt = t + dt := by rw [htd]; push_cast; ring
    rw [et, hwd, hrd]
    set S := ∑ a, partialDeriv 2 a (C t) x
    set W := ∑ a, (c n).wallError a (M2 a) (M3 a) i
    set Q := ∑ a, M4 a * g.step a ^ 2 / 12
    set e := (c n).array.data i - C t x with hed
    have hκ : 0 ≤ nu * dt := by positivity
    have e1 : (c n).array.data i + dt * (nu * k.data i) - C (t + dt) x =
        (e + nu * dt * (k.data i - l.data i)) + nu * dt * (l.data i - S) - (C (t + dt) x - (C t x + dt * (nu * S))) := by rw [hed]; ring
    have e2 : |nu * dt * (l.data i - S)| ≤ nu * dt * (Q + W) := by rw [abs_mul, abs_of_nonneg hκ]; exact mul_le_mul_of_nonneg_left hlb' hκ
    have eR : R = T * dt / 2 + nu * (Q + ∑ a, N a) := by rw [hR, Finset.sum_add_distrib]
    rw [e1]
    have h5 := abs_sub (e + nu * dt * (k.data i - l.data i) + nu * dt * (l.data i - S)) (C (t + dt) x - (C t x + dt * (nu * S)))
    have h6 := abs_add_le (e + nu * dt * (k.data i - l.data i)) (nu * dt * (l.data i - S))
    have hN' : ∑ a, (neumannShare ((c 0).bc.types a).1 (M3 a) (g.step a) + neumannShare ((c 0).bc.types a).2 (M3 a) (g.step a)) = ∑ a, N a := rfl
    rw [hN'] at hstep
    have e3 : ε + (t + dt) * R = (ε + t * R + nu * dt * ∑ a, N a) + nu * dt * Q + T * dt ^ 2 / 2 := by rw [eR]; ring
    rw [e3]
    linarith

open Fixtures Real in
/-- C74 for the decaying wave `exp (-ν t) sin x` between two walls of temperature 0, for every resolution: the error of explicit diffusion at time `m dt` is at most
`h² / 8 + m dt (ν² dt / 2 + ν h² / 12)` for `h = 2π/n`. -/
example (n : ℕ) (hn : 2 ≤ n) (nu dt : ℝ) (hnu : 0 ≤ nu) (hdt : 0 ≤ dt) (hst : 3 * (nu * dt) * (1 / (2 * π / n) ^ 2) ≤ 1) (m : ℕ) :
    ∃ c : ℕ → GridVariable 1 ℝ, (∀ i, (c 0).array.data i = sin (((i 0 : ℝ) + 1 / 2) * (2 * π / n))) ∧ (∀ a, (c 0).bc.types a = (.dirichlet, .dirichlet)) ∧
      (∀ k, ∃ r, diffuse (c k) nu = .ok r ∧ EulerStep (c k) r dt (c (k + 1))) ∧
      ∀ i : Idx 1, 0 ≤ i 0 → i 0 < n → |(c m).array.data i - exp (-nu * (m * dt)) * sin (((i 0 : ℝ) + 1 / 2) * (2 * π / n))| ≤
        (2 * π / n) ^ 2 / 8 + m * dt * (nu ^ 2 * dt / 2 + nu * ((2 * π / n) ^ 2 / 12)) := by
  set c0 : GridVariable 1 ℝ := ⟨⟨⟨fun _ => n, fun i => Fixtures.wave 1 0 ((torus 1 n).position (fun _ => 1 / 2) i)⟩, fun _ => 1 / 2, torus 1 n⟩,
    ⟨.homogeneous, fun _ => (.dirichlet, .dirichlet), fun _ => (some 0, some 0)⟩⟩ with hc0
  have hpos : ∀ i : Idx 1, (torus 1 n).position (fun _ => 1 / 2) i 0 = ((i 0 : ℝ) + 1 / 2) * (2 * π / n) := fun i => by
    simp [torus, Grid.position, Grid.step]
  have e2 : ∀ a : Fin 1, (torus 1 n).step a = 2 * π / n := fun a => by
    show (2 * π - 0) / (n : ℝ) = _
    rw [sub_zero]
  have hsup : c0.Supported := fun a => ⟨rfl, by show 0 < n; omega, Or.inr (Or.inl ⟨Or.inl rfl, Or.inl rfl, rfl⟩)⟩
  set c : ℕ → GridVariable 1 ℝ := fun k => (eulerOf (fun u => diffuse u nu) dt)^[k] c0 with hcd
  have hlay : ∀ k, (c k).Supported := fun k => by
    obtain ⟨h1, h2, h3, h4⟩ := eulerOf_layout (fun u => diffuse u nu) dt c0 k
    intro a
    rw [hcd]
    dsimp only
    rw [h1, h2, h3, h4]
    exact hsup a
  have hrun : ∀ k, ∃ r, diffuse (c k) nu = .ok r ∧ EulerStep (c k) r dt (c (k + 1)) := fun k => by
    obtain ⟨l, hl, -⟩ := laplacian_supported' (hlay k)
    have hd : diffuse (c k) nu = .ok (gmap (fun x => nu * x) l) := by
      unfold diffuse
      rw [hl, Except.bind_ok]
      rfl
    refine ⟨_, hd, ?_⟩
    have := eulerOf_step (dt := dt) (rhs := fun u => diffuse u nu) (u := c k) hd
    have e : c (k + 1) = eulerOf (fun u => diffuse u nu) dt (c k) := by
      rw [hcd]
      dsimp only
      rw [Function.iterate_succ_apply']
    rw [e]
    exact this
  refine ⟨c, fun i => ?_, fun _ => rfl, hrun, fun i h0 h1 => ?_⟩
  · show Fixtures.wave 1 0 _ = _
    unfold Fixtures.wave
    rw [Fin.sum_univ_one, hpos, one_mul, add_zero]
  · have hle : ∀ t : ℝ, 0 ≤ t → |exp (-((1 : ℕ) * nu) * t)| ≤ 1 := fun t ht => by
      rw [abs_of_pos (exp_pos _)]
      exact exp_le_one_iff.2 (by have : 0 ≤ (1 : ℕ) * nu * t := by positivity
                                 linarith)
    have hsm : ∀ k t, 0 ≤ t → ∀ a : Fin 1, SmoothAlong k a 1 (heatWave nu t) := fun k t ht a => by
      have hs := wave_smooth k (exp (-((1 : ℕ) * nu) * t)) 0 a
      exact ⟨hs.1, fun x => (hs.2 x).trans (hle t ht)⟩
    have hob : ∀ t, 0 ≤ t → (c 0).bc.Obeys (torus 1 n) (heatWave nu t) := fun t _ b x => by
      obtain rfl : b = 0 := Subsingleton.elim _ _
      have np : ¬ (((BCType.dirichlet, BCType.dirichlet) : BCType × BCType) = (.periodic, .periodic)) := by decide
      have nn : ¬ (BCType.dirichlet = BCType.neumann) := by decide
      rw [show (c 0).bc.types 0 = (.dirichlet, .dirichlet) from rfl]
      refine ⟨fun h => absurd h np, fun _ => ?_, fun _ => ?_, fun h => absurd h nn, fun h => absurd h nn⟩
      · simp [heatWave, Fixtures.wave, torus, hcd, hc0, BC.constantValues]
      · simp [heatWave, Fixtures.wave, torus, hcd, hc0, BC.constantValues]
    have := C74_wall_diffusion c hsup (torus 1 n) rfl (torus_valid (by omega)) (fun _ => hn) nu dt hnu hdt (by rw [Fin.sum_univ_one, e2]; exact hst) hrun (heatWave nu) (((1 : ℕ) * nu) ^ 2)
      (fun _ => 1) (fun _ => 1) (fun _ => 1) (heatWave_smooth hnu) hob (hsm 2) (hsm 3) (hsm 4) (fun t _ x => heatWave_heat nu t x) ((2 * π / n) ^ 2 / 8) (by positivity)
      (fun i _ _ => by
        show |Fixtures.wave 1 0 ((torus 1 n).position (fun _ => 1 / 2) i) - Fixtures.wave (exp (-((1 : ℕ) * nu) * 0)) 0 ((torus 1 n).position (fun _ => 1 / 2) i)| ≤ _
        rw [mul_zero, exp_zero, sub_self, abs_zero]
        positivity)
      (fun a _ => by rw [e2, one_mul]) m i (fun a => by obtain rfl : a = 0 := Subsingleton.elim _ _; exact ⟨h0, h1⟩)
      (fun a => by
        obtain rfl : a = 0 := Subsingleton.elim _ _
        unfold GridVariable.interior
        rw [if_neg fun h => absurd h.2 (by show ¬ ((1 / 2 : ℚ) = 1); norm_num)]
        exact h1)
    have ht : (c 0).bc.types 0 = (.dirichlet, .dirichlet) := rfl
    have nn : ¬ (BCType.dirichlet = BCType.neumann) := by decide
    rw [Fin.sum_univ_one, e2, ht, if_neg nn] at this
    have ew : heatWave nu (m * dt) ((torus 1 n).position (c 0).array.offset i) = exp (-nu * (m * dt)) * sin (((i 0 : ℝ) + 1 / 2) * (2 * π / n)) := by
      show Fixtures.wave _ 0 ((torus 1 n).position (fun _ => 1 / 2) i) = _
      unfold Fixtures.wave
      rw [Fin.sum_univ_one, hpos, add_zero]
      push_cast
      rw [one_mul]
    rw [ew] at this
    refine this.trans (le_of_eq ?_)
    push_cast
    ring

end JaxCfd
