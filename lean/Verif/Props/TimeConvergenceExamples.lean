import Verif.Props.RK4Convergence
import Verif.Props.ImexOrder
import Mathlib.Analysis.SpecialFunctions.ExpDeriv

/-!
# C75: cases that meet the hypotheses
-/

namespace JaxCfd.Fixtures
open Real

/-- Decay at rate `r`. -/
noncomputable def decay (r t : ℝ) : ℝ := exp (-r * t)

theorem decay_solves (r : ℝ) : SolvesODE (fun x : ℝ => -r * x) (decay r) := fun t _ => by
  have := ((hasDerivAt_id t).const_mul (-r)).exp
  simp only [id, mul_one] at this
  show HasDerivAt (fun t => exp (-r * t)) (-r * exp (-r * t)) t
  rwa [mul_comm] at this

theorem decay_smooth {r : ℝ} (hr : 0 ≤ r) (n : ℕ) : SmoothPath n (r ^ n) (decay r) := by
  refine ⟨contDiff_exp.comp (contDiff_const.mul contDiff_id), fun t ht => ?_⟩
  unfold decay
  rw [iteratedDeriv_exp_const_mul]
  rw [norm_mul, norm_pow, norm_neg, norm_of_nonneg hr, norm_of_nonneg (exp_pos _).le]
  exact mul_le_of_le_one_right (by positivity) (exp_le_one_iff.2 (by have := mul_nonneg hr ht; linarith))

theorem decay_lipschitz (r R : ℝ) (hr : 0 ≤ r) (y : ℝ → ℝ) : LipschitzNear (fun x : ℝ => -r * x) y R r := fun t _ x z _ _ => by
  rw [← mul_sub, norm_mul, norm_neg, norm_of_nonneg hr]

/-- Forward Euler for `y' = -y`: the run `(1 - dt)^n` converges to `exp (-t)`. -/
example (dt : ℝ) (hdt : 0 ≤ dt) (n : ℕ) : |(1 - dt) ^ n - exp (-(n * dt))| ≤ exp (1 * (n * dt)) * (0 + n * dt * (1 ^ 2 * dt / 2)) := by
  have := C75_forward_euler (V := ℝ) (F := fun x => -1 * x) (P := LinearMap.id) (y := decay 1) (L := 1) (R := exp (1 * (n * dt)) * (0 + n * dt * (1 ^ 2 * dt / 2))) (dt := dt) (fun _ => rfl)
    (decay_solves 1) _ (decay_smooth zero_le_one 2) zero_le_one (decay_lipschitz 1 _ zero_le_one _) hdt (fun n => (1 - dt) ^ n) rfl (fun n => by
      rw [C38_forward_euler]
      show Except.ok ((1 - dt) ^ n + dt * (-1 * (1 - dt) ^ n)) = _
      congr 1
      rw [pow_succ]
      ring) 0 (by simp [decay]) n le_rfl
  rw [norm_eq_abs] at this
  unfold decay at this
  rwa [neg_one_mul] at this

/-- The constant solution `1` of `y' = 1 - y²`, a right hand side that is smooth near the solution but not globally Lipschitz. -/
theorem logistic_solves : SolvesODE (fun x : ℝ => 1 - x ^ 2) fun _ => 1 := fun t _ => by
  have := hasDerivAt_const t (1 : ℝ)
  convert this using 1
  norm_num

theorem logistic_smooth_path (n : ℕ) (hn : 1 ≤ n) : SmoothPath n 0 fun _ : ℝ => (1 : ℝ) :=
  ⟨contDiff_const, fun t _ => by
    obtain ⟨m, rfl⟩ := Nat.exists_eq_add_of_le' hn
    rw [iteratedDeriv_succ']
    simp⟩

theorem logistic_fderiv (x : ℝ) : HasFDerivAt (fun x : ℝ => 1 - x ^ 2) (ContinuousLinearMap.toSpanSingleton ℝ (-(2 * x))) x := by
  have h : HasDerivAt (fun x : ℝ => 1 - x ^ 2) (-(2 * x)) x := by
    have := (hasDerivAt_pow 2 x).const_sub 1
    simpa using this
  exact h.hasFDerivAt

theorem logistic_near : SmoothNear (fun x : ℝ => 1 - x ^ 2) (fun _ => 1) 1 4 2 := fun t _ x hx => by
  rw [norm_eq_abs, abs_le] at hx
  refine ⟨(logistic_fderiv x).differentiableAt, ?_, fun z _ => ?_⟩
  · rw [(logistic_fderiv x).fderiv, ContinuousLinearMap.norm_toSpanSingleton, norm_eq_abs, abs_le]
    constructor <;> linarith [hx.1, hx.2]
  · rw [(logistic_fderiv x).fderiv, (logistic_fderiv z).fderiv]
    have : ContinuousLinearMap.toSpanSingleton ℝ (-(2 * x)) - ContinuousLinearMap.toSpanSingleton ℝ (-(2 * z)) = ContinuousLinearMap.toSpanSingleton ℝ (-(2 * (x - z))) := by
      ext
      simp
      ring
    rw [this, ContinuousLinearMap.norm_toSpanSingleton, norm_neg, norm_mul]
    norm_num

/-- The classical method for `y' = 1 - y²` near the fixed point: the error is bounded by `exp (4 t) (ε + t C dt⁴)` while this is at most 1/4. -/
example : ∃ C δ : ℝ, 0 ≤ C ∧ 0 < δ ∧ ∀ dt, 0 ≤ dt → dt ≤ δ → ∀ u : ℕ → ℝ,
    (∀ n, classicRK4 (succeeds fun x : ℝ => 1 - x ^ 2) (succeeds (LinearMap.id : ℝ →ₗ[ℝ] ℝ)) dt (u n) = .ok (u (n + 1))) →
      ∀ ε, ‖u 0 - 1‖ ≤ ε → ∀ n : ℕ, exp (4 * (n * dt)) * (ε + n * dt * (C * dt ^ 4)) ≤ 1 / 4 → ‖u n - 1‖ ≤ exp (4 * (n * dt)) * (ε + n * dt * (C * dt ^ 4)) := by
  obtain ⟨C, δ, h1, h2, h3⟩ := C75_classic_rk4 (V := ℝ) (F := fun x => 1 - x ^ 2) (P := LinearMap.id) (y := fun _ => 1) (fun _ => rfl) logistic_solves
    (fun k hk _ => ⟨0, logistic_smooth_path k hk⟩) one_pos (by norm_num : (0 : ℝ) ≤ 2) logistic_near
  exact ⟨C, δ, h1, h2, fun dt h4 h5 u h6 => h3 dt h4 h5 u rfl h6⟩

/-- Damping at the rate `μ`. -/
noncomputable def damping (μ : ℝ) : ℝ →ₗ[ℝ] ℝ := LinearMap.mulLeft ℝ (-μ)

/-- Its implicit solver. -/
noncomputable def dampingInv (μ : ℝ) (x h : ℝ) : ℝ := x / (1 + h * μ)

theorem damping_dissipative {μ : ℝ} (hμ : 0 ≤ μ) : Dissipative (damping μ) := fun x => by
  have := mul_nonneg hμ (sq_nonneg x)
  simp only [damping, LinearMap.mulLeft_apply, RCLike.inner_apply, conj_trivial]
  linarith

theorem damping_solved {μ h : ℝ} (hμ : 0 ≤ μ) (hh : 0 ≤ h) : Spec.SolvesImplicit (damping μ) (dampingInv μ) h := fun x => by
  have : 0 < 1 + h * μ := by positivity
  simp only [damping, dampingInv, LinearMap.mulLeft_apply, smul_eq_mul]
  field_simp
  ring

theorem damped_solves (μ : ℝ) : SolvesODE (fun x : ℝ => -1 * x + damping μ x) (decay (1 + μ)) := fun t ht => by
  have := decay_solves (1 + μ) t ht
  simp only [damping, LinearMap.mulLeft_apply]
  convert this using 1
  ring

/-- Forward/backward Euler for `y' = -y - μ y` with any stiffness `μ ≥ 0`. -/
example (μ : ℝ) (hμ : 0 ≤ μ) (dt : ℝ) (hdt : 0 ≤ dt) (u : ℕ → ℝ) (h0 : u 0 = 1) (hrun : ∀ n, u (n + 1) = backwardForwardEuler (fun x => -1 * x) (dampingInv μ) dt (u n)) (n : ℕ) :
    |u n - exp (-(1 + μ) * (n * dt))| ≤ exp (1 * (n * dt)) * (0 + n * dt * (((1 + μ) ^ 2 / 2 + 1 * (1 + μ) ^ 1) * dt)) := by
  have := C75_backward_forward_euler (V := ℝ) (F := fun x => -1 * x) (L := 1)
    (R := exp (1 * (n * dt)) * (0 + n * dt * (((1 + μ) ^ 2 / 2 + 1 * (1 + μ) ^ 1) * dt)) + (1 + μ) ^ 1 * dt) (damping_dissipative hμ) (damping_solved hμ hdt)
    (damped_solves μ) _ _ (decay_smooth (by positivity) 1) (decay_smooth (by positivity) 2) zero_le_one (decay_lipschitz 1 _ zero_le_one _) hdt u hrun 0 (by simp [decay, h0]) n
    (le_add_of_nonneg_right (by positivity)) (le_add_of_nonneg_left (by positivity))
  rw [norm_eq_abs] at this
  exact this

/-- Crank-Nicolson for `y' = -y - μ y` with any stiffness `μ ≥ 0`. -/
example (μ : ℝ) (hμ : 0 ≤ μ) (dt : ℝ) (hdt : 0 ≤ dt) (u : ℕ → ℝ) (h0 : u 0 = 1)
    (hrun : ∀ n, u (n + 1) = crankNicolsonRK2 (fun x => -1 * x) (damping μ) (dampingInv μ) dt (u n)) (n : ℕ) :
    |u n - exp (-(1 + μ) * (n * dt))| ≤
      exp (1 * (n * dt)) * (0 + n * dt * ((1 ^ 2 * (1 + μ) ^ 1 / 4 + 1 * (1 + μ) ^ 3 * dt / 12 + (1 + μ) ^ 3 / 6) * dt ^ 2)) := by
  have := C75_crank_nicolson_rk2 (V := ℝ) (F := fun x => -1 * x) (L := 1)
    (R := (1 + 1 * dt) * (exp (1 * (n * dt)) * (0 + n * dt * ((1 ^ 2 * (1 + μ) ^ 1 / 4 + 1 * (1 + μ) ^ 3 * dt / 12 + (1 + μ) ^ 3 / 6) * dt ^ 2))) +
      (1 * (1 + μ) ^ 1 / 2 + (1 + μ) ^ 3 * dt / 6) * dt ^ 2 + (1 + μ) ^ 1 * dt) (damping_dissipative hμ) (damping_solved hμ (by positivity))
    (damped_solves μ) _ _ (decay_smooth (by positivity) 1) (decay_smooth (by positivity) 3) zero_le_one (decay_lipschitz 1 _ zero_le_one _) hdt u hrun 0 (by simp [decay, h0]) n
    (le_add_of_nonneg_right (by positivity)) (le_add_of_nonneg_left (by positivity))
  rw [norm_eq_abs] at this
  exact this

/-- Damping as a bounded operator. -/
noncomputable def dampingL (μ : ℝ) : ℝ →L[ℝ] ℝ := (-μ) • ContinuousLinearMap.id ℝ ℝ

/-- The semi-implicit scheme for `y' = -y - μ y`. -/
example (μ : ℝ) (hμ : 0 ≤ μ) : ∃ C Λ δ : ℝ, 0 ≤ C ∧ 0 ≤ Λ ∧ 0 < δ ∧ ∀ dt, 0 ≤ dt → dt ≤ δ → ∀ u : ℕ → ℝ, u 0 = 1 →
    (∀ n, imexSIL3 (fun x => -1 * x) (dampingL μ) (dampingInv μ) dt (u n) = .ok (u (n + 1))) →
      ∀ n : ℕ, exp (Λ * (n * dt)) * (0 + n * dt * (C * dt ^ 2)) ≤ 1 / 4 → ‖u n - exp (-(1 + μ) * (n * dt))‖ ≤ exp (Λ * (n * dt)) * (0 + n * dt * (C * dt ^ 2)) := by
  have hG : ∀ h, 0 ≤ h → Spec.SolvesImplicit (dampingL μ) (dampingInv μ) h := fun h hh x => by simpa [dampingL, damping] using damping_solved hμ hh x
  obtain ⟨C, Λ, δ, h1, h2, h3, h4⟩ := C75_imex_rk_sil3 (V := ℝ) (F := fun x => -1 * x) (G := dampingL μ) (y := decay (1 + μ)) (L := 1)
    (by simpa [dampingL, damping] using damped_solves μ) (fun k _ _ => ⟨_, decay_smooth (by positivity) k⟩) one_pos zero_le_one (decay_lipschitz 1 _ zero_le_one _)
  exact ⟨C, Λ, δ, h1, h2, h3, fun dt hdt hle u hu hrun => h4 dt hdt hle _ (hG _ (by positivity)) (hG _ (by positivity)) (hG _ (by positivity)) u hrun 0 (by simp [decay, hu])⟩

/-- The low-storage scheme for `y' = -y - μ y`. -/
example (μ : ℝ) (hμ : 0 ≤ μ) : ∃ C Λ δ : ℝ, 0 ≤ C ∧ 0 ≤ Λ ∧ 0 < δ ∧ ∀ dt, 0 ≤ dt → dt ≤ δ → ∀ u : ℕ → ℝ, u 0 = 1 →
    (∀ n, crankNicolsonRK3 (fun x => -1 * x) (dampingL μ) (dampingInv μ) dt (u n) = .ok (u (n + 1))) →
      ∀ n : ℕ, exp (Λ * (n * dt)) * (0 + n * dt * (C * dt ^ 2)) ≤ 1 / 4 → ‖u n - exp (-(1 + μ) * (n * dt))‖ ≤ exp (Λ * (n * dt)) * (0 + n * dt * (C * dt ^ 2)) := by
  have hG : ∀ h, 0 ≤ h → Spec.SolvesImplicit (dampingL μ) (dampingInv μ) h := fun h hh x => by simpa [dampingL, damping] using damping_solved hμ hh x
  obtain ⟨C, Λ, δ, h1, h2, h3, h4⟩ := C75_crank_nicolson_rk3 (V := ℝ) (F := fun x => -1 * x) (G := dampingL μ) (y := decay (1 + μ)) (L := 1)
    (by simpa [dampingL, damping] using damped_solves μ) (fun k _ _ => ⟨_, decay_smooth (by positivity) k⟩) one_pos zero_le_one (decay_lipschitz 1 _ zero_le_one _)
  exact ⟨C, Λ, δ, h1, h2, h3, fun dt hdt hle u hu hrun => h4 dt hdt hle _ (hG _ (by positivity)) (hG _ (by positivity)) (hG _ (by positivity)) u hrun 0 (by simp [decay, hu])⟩

end JaxCfd.Fixtures
