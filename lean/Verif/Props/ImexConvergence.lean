import Verif.Props.TimeConvergence
import Verif.Props.Imex

/-!
# C75: convergence of implicit-explicit schemes, uniformly in the stiffness of the implicit terms
-/

namespace JaxCfd
variable {V : Type} [NormedAddCommGroup V] [InnerProductSpace ℝ V]

theorem Dissipative.contraction {G : V →ₗ[ℝ] V} (hG : Dissipative G) {h : ℝ} (hh : 0 ≤ h) {w s : V} (e : w - h • G w = s) : ‖w‖ ≤ ‖s‖ := by
  have h1 : ‖s‖ ^ 2 = ‖w‖ ^ 2 - 2 * (h * Inner.inner ℝ (G w) w) + ‖h • G w‖ ^ 2 := by
    rw [← e, norm_sub_sq_real, real_inner_smul_right, real_inner_comm]
  have h2 := mul_nonneg hh (neg_nonneg.2 (hG w))
  have h3 := sq_nonneg ‖h • G w‖
  exact abs_le_of_sq_le_sq' (by linarith) (norm_nonneg _) |>.2

theorem Dissipative.cayley {G : V →ₗ[ℝ] V} (hG : Dissipative G) {h : ℝ} (hh : 0 ≤ h) {w v : V} (e : w - h • G w = v + h • G v) : ‖w‖ ≤ ‖v‖ := by
  have e1 : w - v = h • G (w + v) := by
    rw [map_add, smul_add]
    linear_combination (norm := module) e
  have h1 : Inner.inner ℝ (w - v) (w + v) = ‖w‖ ^ 2 - ‖v‖ ^ 2 := by
    rw [inner_sub_left, inner_add_right, inner_add_right, real_inner_self_eq_norm_sq, real_inner_self_eq_norm_sq, real_inner_comm v w]
    ring
  rw [e1, real_inner_smul_left] at h1
  have h2 := mul_nonneg hh (neg_nonneg.2 (hG (w + v)))
  exact abs_le_of_sq_le_sq' (by linarith) (norm_nonneg _) |>.2

/-- Crank-Nicolson with a source: the solution of `w - h G w = v + h G v + s` is bounded by `‖v‖ + ‖s‖`. -/
theorem Dissipative.forced {G : V →ₗ[ℝ] V} (hG : Dissipative G) {Ginv : V → ℝ → V} {h : ℝ} (hinv : Spec.SolvesImplicit G Ginv h) (hh : 0 ≤ h) {w v s : V}
    (e : w - h • G w = v + h • G v + s) : ‖w‖ ≤ ‖v‖ + ‖s‖ := by
  have h1 := hG.contraction hh (hinv s)
  have h2 : ‖w - Ginv s h‖ ≤ ‖v‖ := hG.cayley hh (by
    have := hinv s
    rw [map_sub, smul_sub]
    linear_combination (norm := module) e - this)
  have := norm_add_le (w - Ginv s h) (Ginv s h)
  rw [sub_add_cancel] at this
  linarith

section
variable {F : V → V} {G : V →ₗ[ℝ] V} {Ginv : V → ℝ → V} {y : ℝ → V} {R L dt : ℝ}

/-- **C75** `backward_forward_euler` converges to first order, with constants that do not depend on the implicit operator: `G` may be arbitrarily stiff. -/
theorem C75_backward_forward_euler (hG : Dissipative G) (hinv : Spec.SolvesImplicit G Ginv dt) (hy : SolvesODE (fun x => F x + G x) y) (T₁ T₂ : ℝ) (hT₁ : SmoothPath 1 T₁ y)
    (hT₂ : SmoothPath 2 T₂ y) (hL : 0 ≤ L) (hF : LipschitzNear F y R L) (hdt : 0 ≤ dt) (u : ℕ → V) (hrun : ∀ n, u (n + 1) = backwardForwardEuler F Ginv dt (u n)) (ε : ℝ)
    (hε : ‖u 0 - y 0‖ ≤ ε) (n : ℕ) (hR : Real.exp (L * (n * dt)) * (ε + n * dt * ((T₂ / 2 + L * T₁) * dt)) ≤ R) (hR1 : T₁ * dt ≤ R) :
    ‖u n - y (n * dt)‖ ≤ Real.exp (L * (n * dt)) * (ε + n * dt * ((T₂ / 2 + L * T₁) * dt)) := by
  have h10 := hT₁.nonneg
  have h20 := hT₂.nonneg
  refine accumulate (e := fun n => ‖u n - y (n * dt)‖) hL hdt (by positivity) (fun n => norm_nonneg _) (by simpa using hε) (fun n hn => ?_) n hR
  have ht : 0 ≤ (n : ℝ) * dt := by positivity
  have ht1 : 0 ≤ (n : ℝ) * dt + dt := by positivity
  have et : ((n + 1 : ℕ) : ℝ) * dt = n * dt + dt := by push_cast; ring
  have hR0 : 0 ≤ R := (norm_nonneg _).trans hn
  rw [et]
  have h1 := euler_rule hT₂ (t := n * dt + dt) (h := -dt) ht1 (by linarith)
  rw [show (n : ℝ) * dt + dt + -dt = n * dt by ring, hy.deriv_eq ht1, neg_sq] at h1
  have h2 := constant_rule hT₁ ht (h := dt) ht1
  rw [abs_of_nonneg hdt] at h2
  have h3 := hF _ ht (u n) (y (n * dt)) hn (by rw [sub_self, norm_zero]; exact hR0)
  have h4 := hF _ ht (y (n * dt + dt)) (y (n * dt)) (h2.trans hR1) (by rw [sub_self, norm_zero]; exact hR0)
  have hstep := C39_backward_forward_euler F G Ginv dt hinv (u n)
  rw [← hrun n] at hstep
  have key : (u (n + 1) - y (n * dt + dt)) - dt • G (u (n + 1) - y (n * dt + dt)) =
      (u n - y (n * dt)) + dt • (F (u n) - F (y (n * dt))) - dt • (F (y (n * dt + dt)) - F (y (n * dt))) +
        (y (n * dt) - (y (n * dt + dt) + (-dt) • (F (y (n * dt + dt)) + G (y (n * dt + dt))))) := by
    rw [map_sub]
    linear_combination (norm := module) hstep
  refine (hG.contraction hdt key).trans ((norm_add_le _ _).trans ((add_le_add ((norm_sub_le _ _).trans (add_le_add (norm_add_le _ _) le_rfl)) h1).trans ?_))
  rw [norm_smul, norm_smul, Real.norm_of_nonneg hdt]
  have h5 := mul_le_mul_of_nonneg_left h3 hdt
  have h6 := mul_le_mul_of_nonneg_left (h4.trans (mul_le_mul_of_nonneg_left h2 hL)) hdt
  have h7 := mul_le_mul_of_nonneg_right (Real.add_one_le_exp (L * dt)) (norm_nonneg (u n - y (n * dt)))
  linarith

/-- **C75** `crank_nicolson_rk2` converges to second order, with constants that do not depend on the implicit operator. -/
theorem C75_crank_nicolson_rk2 (hG : Dissipative G) (hinv : Spec.SolvesImplicit G Ginv (dt / 2)) (hy : SolvesODE (fun x => F x + G x) y) (T₁ T₃ : ℝ) (hT₁ : SmoothPath 1 T₁ y)
    (hT₃ : SmoothPath 3 T₃ y) (hL : 0 ≤ L) (hF : LipschitzNear F y R L) (hdt : 0 ≤ dt) (u : ℕ → V) (hrun : ∀ n, u (n + 1) = crankNicolsonRK2 F G Ginv dt (u n)) (ε : ℝ)
    (hε : ‖u 0 - y 0‖ ≤ ε) (n : ℕ)
    (hR : (1 + L * dt) * (Real.exp (L * (n * dt)) * (ε + n * dt * ((L ^ 2 * T₁ / 4 + L * T₃ * dt / 12 + T₃ / 6) * dt ^ 2))) + (L * T₁ / 2 + T₃ * dt / 6) * dt ^ 2 ≤ R)
    (hR1 : T₁ * dt ≤ R) :
    ‖u n - y (n * dt)‖ ≤ Real.exp (L * (n * dt)) * (ε + n * dt * ((L ^ 2 * T₁ / 4 + L * T₃ * dt / 12 + T₃ / 6) * dt ^ 2)) := by
  have h10 := hT₁.nonneg
  have h30 := hT₃.nonneg
  have hdt2 : 0 ≤ dt / 2 := by positivity
  refine accumulate (e := fun n => ‖u n - y (n * dt)‖) (ρ := (R - (L * T₁ / 2 + T₃ * dt / 6) * dt ^ 2) / (1 + L * dt)) hL hdt (by positivity) (fun n => norm_nonneg _)
    (by simpa using hε) (fun n hn => ?_) n ((le_div_iff₀ (by positivity)).2 (by linarith))
  have hn' := (le_div_iff₀ (by positivity)).1 hn
  have ht : 0 ≤ (n : ℝ) * dt := by positivity
  have ht1 : 0 ≤ (n : ℝ) * dt + dt := by positivity
  have et : ((n + 1 : ℕ) : ℝ) * dt = n * dt + dt := by push_cast; ring
  set E := ‖u n - y (n * dt)‖ with hE
  have hE0 : 0 ≤ E := norm_nonneg _
  have hLd : 0 ≤ L * dt * E := by positivity
  have hq : 0 ≤ (L * T₁ / 2 + T₃ * dt / 6) * dt ^ 2 := by positivity
  have hER : E ≤ R := by nlinarith
  have hR0 : 0 ≤ R := hE0.trans hER
  rw [et]
  set z := y (n * dt) with hz
  set z1 := y (n * dt + dt) with hz1
  have h1 := trapezoid_rule hT₃ ht hdt
  rw [hy.deriv_eq ht, hy.deriv_eq ht1, ← hz, ← hz1] at h1
  have h2 := constant_rule hT₁ ht (h := dt) ht1
  rw [abs_of_nonneg hdt, ← hz, ← hz1] at h2
  have h3 := hF _ ht (u n) z hER (by rw [sub_self, norm_zero]; exact hR0)
  have h4 := hF _ ht z1 z (h2.trans hR1) (by rw [← hz, sub_self, norm_zero]; exact hR0)
  obtain ⟨u1, hu1, hstep⟩ := C39_crank_nicolson_rk2 F G Ginv dt hinv (u n)
  rw [← hrun n] at hstep
  have k1 : (u1 - z1) - (dt / 2) • G (u1 - z1) = (u n - z) + (dt / 2) • G (u n - z) +
      (dt • (F (u n) - F z) - (dt / 2) • (F z1 - F z) - (z1 - (z + (dt / 2) • ((F z + G z) + (F z1 + G z1))))) := by
    rw [map_sub, map_sub]
    linear_combination (norm := module) hu1
  have d1 : ‖u1 - z1‖ ≤ (1 + L * dt) * E + (L * T₁ / 2 + T₃ * dt / 6) * dt ^ 2 := by
    refine (hG.forced hinv hdt2 k1).trans ((add_le_add le_rfl ((norm_sub_le _ _).trans (add_le_add (norm_sub_le _ _) h1))).trans ?_)
    rw [norm_smul, norm_smul, Real.norm_of_nonneg hdt, Real.norm_of_nonneg hdt2]
    have h5 := mul_le_mul_of_nonneg_left h3 hdt
    have h6 := mul_le_mul_of_nonneg_left (h4.trans (mul_le_mul_of_nonneg_left h2 hL)) hdt2
    rw [← hE] at h5 ⊢
    linarith
  have h7 := hF _ ht1 u1 z1 (d1.trans (by linarith)) (by rw [← hz1, sub_self, norm_zero]; exact hR0)
  have k2 : (u (n + 1) - z1) - (dt / 2) • G (u (n + 1) - z1) = (u n - z) + (dt / 2) • G (u n - z) +
      ((dt / 2) • ((F (u n) - F z) + (F u1 - F z1)) - (z1 - (z + (dt / 2) • ((F z + G z) + (F z1 + G z1))))) := by
    rw [map_sub, map_sub]
    linear_combination (norm := module) hstep
  refine (hG.forced hinv hdt2 k2).trans ((add_le_add le_rfl ((norm_sub_le _ _).trans (add_le_add le_rfl h1))).trans ?_)
  rw [norm_smul, Real.norm_of_nonneg hdt2]
  have h8 := mul_le_mul_of_nonneg_left ((norm_add_le _ _).trans (add_le_add h3 (h7.trans (mul_le_mul_of_nonneg_left d1 hL)))) hdt2
  have h9 := mul_le_mul_of_nonneg_right (exp_two_le (by positivity : 0 ≤ L * dt)) hE0
  rw [← hE] at h8 ⊢
  linarith

end
end JaxCfd
