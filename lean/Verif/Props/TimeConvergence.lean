import Verif.Lemmas.TaylorVector
import Verif.Props.TimeStepping
import Mathlib.Analysis.Complex.Exponential

/-!
# C75: convergence of the explicit time steppers
-/

namespace JaxCfd
variable {V : Type} [NormedAddCommGroup V] [NormedSpace ℝ V]

/-- A function that cannot fail. -/
def succeeds (F : V → V) : V → Except Err V := fun v => .ok (F v)

section
variable {F : V → V} {P : V →ₗ[ℝ] V} {dt : ℝ} {u w : V}

theorem project_step (hP : IsProjection P) (hu : P u = u) (c : ℝ) (k : V) : P (u + c • k) = u + c • P k ∧ P (P (u + c • k)) = P (u + c • k) := ⟨by rw [map_add, map_smul, hu], hP _⟩

theorem forwardEuler_total (hP : IsProjection P) (hu : P u = u) (h : forwardEuler (succeeds F) (succeeds P) dt u = .ok w) : w = u + dt • P (F u) ∧ P w = w := by
  rw [C38_forward_euler] at h
  obtain rfl := Except.ok.inj h
  exact ⟨(project_step hP hu dt _).1, hP _⟩

theorem midpoint_total (hP : IsProjection P) (hu : P u = u) (h : midpointRK2 (succeeds F) (succeeds P) dt u = .ok w) :
    w = u + dt • P (F (u + (dt / 2) • P (F u))) ∧ P w = w := by
  rw [C38_midpoint] at h
  obtain rfl := Except.ok.inj h
  refine ⟨?_, hP _⟩
  show P (u + dt • F (P (u + (dt / 2) • F u))) = _
  rw [(project_step hP hu dt _).1, (project_step hP hu _ _).1]

theorem heun_total (hP : IsProjection P) (hu : P u = u) (h : heunRK2 (succeeds F) (succeeds P) dt u = .ok w) :
    w = u + (dt / 2) • (P (F u) + P (F (u + dt • P (F u)))) ∧ P w = w := by
  rw [C38_heun] at h
  obtain rfl := Except.ok.inj h
  refine ⟨?_, hP _⟩
  show P (u + dt • ((1 / 2 : ℝ) • F u + (1 / 2 : ℝ) • F (P (u + dt • F u)))) = _
  rw [(project_step hP hu dt _).1, (project_step hP hu dt (F u)).1, map_add, map_smul, map_smul]
  module

end

section
variable {F : V → V} {P : V →ₗ[ℝ] V} {y : ℝ → V} {R L dt : ℝ}

theorem SolvesODE.deriv_eq {f : V → V} (h : SolvesODE f y) {t : ℝ} (ht : 0 ≤ t) : deriv y t = f (y t) := (h t ht).deriv

theorem exp_two_le {x : ℝ} (hx : 0 ≤ x) : 1 + x + x ^ 2 / 2 ≤ Real.exp x := Real.quadratic_le_exp_of_nonneg hx

/-- **C75** Forward Euler (with projection) converges to first order to any twice differentiable solution of `y' = P (F y)`, as long as the bound stays within the
neighbourhood of the solution in which the right hand side is Lipschitz. -/
theorem C75_forward_euler (hP : IsProjection P) (hy : SolvesODE (fun x => P (F x)) y) (T : ℝ) (hT : SmoothPath 2 T y) (hL : 0 ≤ L) (hF : LipschitzNear (fun x => P (F x)) y R L)
    (hdt : 0 ≤ dt) (u : ℕ → V) (hu0 : P (u 0) = u 0) (hrun : ∀ n, forwardEuler (succeeds F) (succeeds P) dt (u n) = .ok (u (n + 1))) (ε : ℝ) (hε : ‖u 0 - y 0‖ ≤ ε) (n : ℕ)
    (hR : Real.exp (L * (n * dt)) * (ε + n * dt * (T * dt / 2)) ≤ R) :
    ‖u n - y (n * dt)‖ ≤ Real.exp (L * (n * dt)) * (ε + n * dt * (T * dt / 2)) := by
  have hfix : ∀ n, P (u n) = u n := fun n => by
    induction n with
    | zero => exact hu0
    | succ n ih => exact (forwardEuler_total hP ih (hrun n)).2
  have hT0 := hT.nonneg
  refine accumulate (e := fun n => ‖u n - y (n * dt)‖) hL hdt (by positivity) (fun n => norm_nonneg _) (by simpa using hε) (fun n hn => ?_) n hR
  have ht : 0 ≤ (n : ℝ) * dt := by positivity
  have et : ((n + 1 : ℕ) : ℝ) * dt = n * dt + dt := by push_cast; ring
  have h1 := euler_rule hT ht (add_nonneg ht hdt)
  rw [hy.deriv_eq ht] at h1
  have hR0 : 0 ≤ R := (norm_nonneg _).trans hn
  have h2 := hF _ ht (u n) (y (n * dt)) hn (by rw [sub_self, norm_zero]; exact hR0)
  rw [et, (forwardEuler_total hP (hfix n) (hrun n)).1]
  have e : u n + dt • P (F (u n)) - y (n * dt + dt) =
      (u n - y (n * dt)) + dt • (P (F (u n)) - P (F (y (n * dt)))) - (y (n * dt + dt) - (y (n * dt) + dt • P (F (y (n * dt))))) := by module
  rw [e]
  have h3 : ‖dt • (P (F (u n)) - P (F (y (n * dt))))‖ ≤ dt * (L * ‖u n - y (n * dt)‖) := by
    rw [norm_smul, Real.norm_of_nonneg hdt]; exact mul_le_mul_of_nonneg_left h2 hdt
  have h4 := Real.add_one_le_exp (L * dt)
  have h5 := mul_le_mul_of_nonneg_right h4 (norm_nonneg (u n - y (n * dt)))
  refine (norm_sub_le _ _).trans ((add_le_add ((norm_add_le _ _).trans (add_le_add_right h3 _)) h1).trans ?_)
  linarith

/-- **C75** The midpoint rule converges to second order. -/
theorem C75_midpoint_rk2 (hP : IsProjection P) (hy : SolvesODE (fun x => P (F x)) y) (T₂ T₃ : ℝ) (hT₂ : SmoothPath 2 T₂ y) (hT₃ : SmoothPath 3 T₃ y) (hL : 0 ≤ L)
    (hF : LipschitzNear (fun x => P (F x)) y R L) (hdt : 0 ≤ dt) (u : ℕ → V) (hu0 : P (u 0) = u 0) (hrun : ∀ n, midpointRK2 (succeeds F) (succeeds P) dt (u n) = .ok (u (n + 1)))
    (ε : ℝ) (hε : ‖u 0 - y 0‖ ≤ ε) (n : ℕ) (hR : (1 + L * dt) * (Real.exp (L * (n * dt)) * (ε + n * dt * ((T₃ / 24 + L * T₂ / 8) * dt ^ 2))) + T₂ * dt ^ 2 / 2 ≤ R) :
    ‖u n - y (n * dt)‖ ≤ Real.exp (L * (n * dt)) * (ε + n * dt * ((T₃ / 24 + L * T₂ / 8) * dt ^ 2)) := by
  have hfix : ∀ n, P (u n) = u n := fun n => by
    induction n with
    | zero => exact hu0
    | succ n ih => exact (midpoint_total hP ih (hrun n)).2
  have hT20 := hT₂.nonneg
  have hT30 := hT₃.nonneg
  refine accumulate (e := fun n => ‖u n - y (n * dt)‖) (ρ := (R - T₂ * dt ^ 2 / 2) / (1 + L * dt)) hL hdt (by positivity) (fun n => norm_nonneg _) (by simpa using hε) (fun n hn => ?_) n
    ((le_div_iff₀ (by positivity)).2 (by linarith))
  have hn' := (le_div_iff₀ (by positivity)).1 hn
  have ht : 0 ≤ (n : ℝ) * dt := by positivity
  have htm : 0 ≤ (n : ℝ) * dt + dt / 2 := by positivity
  have et : ((n + 1 : ℕ) : ℝ) * dt = n * dt + dt := by push_cast; ring
  set E := ‖u n - y (n * dt)‖ with hE
  have hE0 : 0 ≤ E := norm_nonneg _
  have hLd : 0 ≤ L * dt * E := by positivity
  have hTd : 0 ≤ T₂ * dt ^ 2 := by positivity
  have hER : E ≤ R := by nlinarith
  have hR0 : 0 ≤ R := hE0.trans hER
  have h1 := midpoint_rule hT₃ ht hdt
  rw [hy.deriv_eq htm] at h1
  have h2 := euler_rule hT₂ (t := n * dt) (h := dt / 2) ht htm
  rw [hy.deriv_eq ht] at h2
  have h3 := hF _ ht (u n) (y (n * dt)) hER (by rw [sub_self, norm_zero]; exact hR0)
  have h4 : ‖u n + (dt / 2) • P (F (u n)) - y (n * dt + dt / 2)‖ ≤ (1 + L * dt / 2) * E + T₂ * dt ^ 2 / 8 := by
    have e : u n + (dt / 2) • P (F (u n)) - y (n * dt + dt / 2) =
      (u n - y (n * dt)) + (dt / 2) • (P (F (u n)) - P (F (y (n * dt)))) - (y (n * dt + dt / 2) - (y (n * dt) + (dt / 2) • P (F (y (n * dt))))) := by module
    rw [e]
    have h3' : ‖(dt / 2) • (P (F (u n)) - P (F (y (n * dt))))‖ ≤ dt / 2 * (L * E) := by
      rw [norm_smul, Real.norm_of_nonneg (by positivity)]; exact mul_le_mul_of_nonneg_left h3 (by positivity)
    refine (norm_sub_le _ _).trans ((add_le_add ((norm_add_le _ _).trans (add_le_add_right h3' _)) h2).trans ?_)
    rw [← hE]
    linarith
  have h5 := hF _ htm _ (y (n * dt + dt / 2)) (h4.trans (by nlinarith)) (by rw [sub_self, norm_zero]; exact hR0)
  rw [et, (midpoint_total hP (hfix n) (hrun n)).1]
  have e : u n + dt • P (F (u n + (dt / 2) • P (F (u n)))) - y (n * dt + dt) =
      (u n - y (n * dt)) + dt • (P (F (u n + (dt / 2) • P (F (u n)))) - P (F (y (n * dt + dt / 2)))) -
        (y (n * dt + dt) - (y (n * dt) + dt • P (F (y (n * dt + dt / 2))))) := by module
  rw [e]
  have h6 : ‖dt • (P (F (u n + (dt / 2) • P (F (u n)))) - P (F (y (n * dt + dt / 2))))‖ ≤ dt * (L * ((1 + L * dt / 2) * E + T₂ * dt ^ 2 / 8)) := by
    rw [norm_smul, Real.norm_of_nonneg hdt]
    exact mul_le_mul_of_nonneg_left (h5.trans (mul_le_mul_of_nonneg_left h4 hL)) hdt
  have h7 := mul_le_mul_of_nonneg_right (exp_two_le (by positivity : 0 ≤ L * dt)) hE0
  refine (norm_sub_le _ _).trans ((add_le_add ((norm_add_le _ _).trans (add_le_add_right h6 _)) h1).trans ?_)
  rw [← hE]
  linarith

/-- **C75** Heun's method converges to second order. -/
theorem C75_heun_rk2 (hP : IsProjection P) (hy : SolvesODE (fun x => P (F x)) y) (T₂ T₃ : ℝ) (hT₂ : SmoothPath 2 T₂ y) (hT₃ : SmoothPath 3 T₃ y) (hL : 0 ≤ L)
    (hF : LipschitzNear (fun x => P (F x)) y R L) (hdt : 0 ≤ dt) (u : ℕ → V) (hu0 : P (u 0) = u 0) (hrun : ∀ n, heunRK2 (succeeds F) (succeeds P) dt (u n) = .ok (u (n + 1)))
    (ε : ℝ) (hε : ‖u 0 - y 0‖ ≤ ε) (n : ℕ) (hR : (1 + L * dt) * (Real.exp (L * (n * dt)) * (ε + n * dt * ((T₃ / 6 + L * T₂ / 4) * dt ^ 2))) + T₂ * dt ^ 2 / 2 ≤ R) :
    ‖u n - y (n * dt)‖ ≤ Real.exp (L * (n * dt)) * (ε + n * dt * ((T₃ / 6 + L * T₂ / 4) * dt ^ 2)) := by
  have hfix : ∀ n, P (u n) = u n := fun n => by
    induction n with
    | zero => exact hu0
    | succ n ih => exact (heun_total hP ih (hrun n)).2
  have hT20 := hT₂.nonneg
  have hT30 := hT₃.nonneg
  refine accumulate (e := fun n => ‖u n - y (n * dt)‖) (ρ := (R - T₂ * dt ^ 2 / 2) / (1 + L * dt)) hL hdt (by positivity) (fun n => norm_nonneg _) (by simpa using hε) (fun n hn => ?_) n
    ((le_div_iff₀ (by positivity)).2 (by linarith))
  have hn' := (le_div_iff₀ (by positivity)).1 hn
  have ht : 0 ≤ (n : ℝ) * dt := by positivity
  have htm : 0 ≤ (n : ℝ) * dt + dt := by positivity
  have et : ((n + 1 : ℕ) : ℝ) * dt = n * dt + dt := by push_cast; ring
  set E := ‖u n - y (n * dt)‖ with hE
  have hE0 : 0 ≤ E := norm_nonneg _
  have hLd : 0 ≤ L * dt * E := by positivity
  have hTd : 0 ≤ T₂ * dt ^ 2 := by positivity
  have hER : E ≤ R := by nlinarith
  have hR0 : 0 ≤ R := hE0.trans hER
  have h1 := trapezoid_rule hT₃ ht hdt
  rw [hy.deriv_eq ht, hy.deriv_eq htm] at h1
  have h2 := euler_rule hT₂ ht htm
  rw [hy.deriv_eq ht] at h2
  have h3 := hF _ ht (u n) (y (n * dt)) hER (by rw [sub_self, norm_zero]; exact hR0)
  have h4 : ‖u n + dt • P (F (u n)) - y (n * dt + dt)‖ ≤ (1 + L * dt) * E + T₂ * dt ^ 2 / 2 := by
    have e : u n + dt • P (F (u n)) - y (n * dt + dt) =
      (u n - y (n * dt)) + dt • (P (F (u n)) - P (F (y (n * dt)))) - (y (n * dt + dt) - (y (n * dt) + dt • P (F (y (n * dt))))) := by module
    rw [e]
    have h3' : ‖dt • (P (F (u n)) - P (F (y (n * dt))))‖ ≤ dt * (L * E) := by
      rw [norm_smul, Real.norm_of_nonneg (by positivity)]; exact mul_le_mul_of_nonneg_left h3 (by positivity)
    refine (norm_sub_le _ _).trans ((add_le_add ((norm_add_le _ _).trans (add_le_add_right h3' _)) h2).trans ?_)
    rw [← hE]
    linarith
  have h5 := hF _ htm _ (y (n * dt + dt)) (h4.trans (by nlinarith)) (by rw [sub_self, norm_zero]; exact hR0)
  rw [et, (heun_total hP (hfix n) (hrun n)).1]
  have e : u n + (dt / 2) • (P (F (u n)) + P (F (u n + dt • P (F (u n))))) - y (n * dt + dt) =
      (u n - y (n * dt)) + (dt / 2) • ((P (F (u n)) - P (F (y (n * dt)))) + (P (F (u n + dt • P (F (u n)))) - P (F (y (n * dt + dt))))) -
        (y (n * dt + dt) - (y (n * dt) + (dt / 2) • (P (F (y (n * dt))) + P (F (y (n * dt + dt)))))) := by module
  rw [e]
  have h6 : ‖(dt / 2) • ((P (F (u n)) - P (F (y (n * dt)))) + (P (F (u n + dt • P (F (u n)))) - P (F (y (n * dt + dt)))))‖ ≤
      dt / 2 * (L * E + L * ((1 + L * dt) * E + T₂ * dt ^ 2 / 2)) := by
    rw [norm_smul, Real.norm_of_nonneg (by positivity)]
    exact mul_le_mul_of_nonneg_left ((norm_add_le _ _).trans (add_le_add h3 (h5.trans (mul_le_mul_of_nonneg_left h4 hL)))) (by positivity)
  have h7 := mul_le_mul_of_nonneg_right (exp_two_le (by positivity : 0 ≤ L * dt)) hE0
  refine (norm_sub_le _ _).trans ((add_le_add ((norm_add_le _ _).trans (add_le_add_right h6 _)) h1).trans ?_)
  rw [← hE]
  linarith

end
end JaxCfd
