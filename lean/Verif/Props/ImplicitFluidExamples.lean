import Verif.Props.ImplicitConvergence
import Verif.Props.FluidExamples

/-!
# C76: the hypotheses for implicit diffusion are met by the decaying wave on a uniform stream, for every resolution
-/

namespace JaxCfd
open Real

namespace Fixtures
variable {d : ℕ}

theorem exp_decay_lipschitz {c t t' : ℝ} (hc : 0 ≤ c) (ht : 0 ≤ t) (ht' : 0 ≤ t') : |exp (-c * t') - exp (-c * t)| ≤ c * |t' - t| := by
  have key : ∀ {x y : ℝ}, 0 ≤ x → x ≤ y → |exp (-c * y) - exp (-c * x)| ≤ c * |y - x| := fun {x y} hx hxy => by
    have h1 : exp (-c * y) ≤ exp (-c * x) := exp_le_exp.2 (by nlinarith)
    rw [abs_of_nonpos (by linarith), abs_of_nonneg (by linarith)]
    have h2 : exp (-c * y) = exp (-c * x) * exp (-c * (y - x)) := by rw [← exp_add]; congr 1; ring
    have h3 := add_one_le_exp (-c * (y - x))
    have h4 : exp (-c * x) ≤ 1 := exp_le_one_iff.2 (by nlinarith)
    have h5 : 0 ≤ c * (y - x) := mul_nonneg hc (by linarith)
    have h6 := mul_le_mul_of_nonneg_left h3 (exp_pos (-c * x)).le
    have h7 := mul_le_mul_of_nonneg_right h4 h5
    rw [h2]
    linarith
  rcases le_total t t' with h | h
  · exact key ht h
  · have := key ht' h
    rw [abs_sub_comm, abs_sub_comm t'] 
    exact this

theorem stream_curvature (c α : Fin d → ℝ) {nu ε : ℝ} (hnu : 0 ≤ nu) (hα : ∀ a, |α a| ≤ ε) : SteadyCurvature (stream c α nu) (ε * (d * nu)) := fun t t' ht ht' a b x => by
  have hd0 : (0 : ℝ) ≤ d * nu := by positivity
  have e : ∀ s, partialDeriv 2 b (stream c α nu s a) x = -(α a * sin (∑ b, x b + 0)) * exp (-(d * nu) * s) := fun s => by
    rw [stream_partialDeriv two_ne_zero]
    unfold heatWave
    rw [wave_two]
    unfold wave
    ring
  rw [e, e, ← mul_sub, abs_mul, abs_neg, abs_mul]
  have h1 : |α a| * |sin (∑ b, x b + 0)| ≤ ε := (mul_le_of_le_one_right (abs_nonneg _) (abs_sin_le_one _)).trans (hα a)
  rw [mul_assoc ε]
  exact mul_le_mul h1 (exp_decay_lipschitz hd0 ht ht') (abs_nonneg _) ((abs_nonneg _).trans (hα a))

/-- The error bound is proportional to the amplitude of the wave. -/
theorem implicit_bound_small {diag nu ε η dt t : ℝ} (hdiag : 0 ≤ diag) (hnu : 0 ≤ nu) (hε : 0 ≤ ε) (hε1 : ε ≤ 1) (hdt : 0 ≤ dt) (ht : 0 ≤ t) :
    implicitErrorBound d diag nu 3 ε ε ε ε ε (ε * (d * nu) ^ 2) (ε * (d * nu)) 0 η dt t 0 ≤ ε * implicitErrorBound d diag nu 3 1 1 1 1 1 ((d * nu) ^ 2) (d * nu) 0 η dt t 0 := by
  have e1 : implicitErrorBound d diag nu 3 ε ε ε ε ε (ε * (d * nu) ^ 2) (ε * (d * nu)) 0 η dt t 0 = ε * (exp (d * ε * t) * (t * ((2 * √d * 3 + d * ε * diag) * (d * η ^ 2 / 24) +
      √d * (((d * nu) ^ 2 + 2 * (nu * (d * (d * nu)))) * dt / 2 + (d * (5 / 24 * 3 + 3 / 8 * ε + (ε + 3) / 8) + nu * (d * 3 / 12)) * η ^ 2))) + diag * (d * η ^ 2 / 24)) := by
    unfold implicitErrorBound fluidErrorBound spatialConstant
    ring
  have e2 : implicitErrorBound d diag nu 3 1 1 1 1 1 ((d * nu) ^ 2) (d * nu) 0 η dt t 0 = exp (d * 1 * t) * (t * ((2 * √d * 3 + d * 1 * diag) * (d * η ^ 2 / 24) +
      √d * (((d * nu) ^ 2 + 2 * (nu * (d * (d * nu)))) * dt / 2 + (d * (5 / 24 * 3 + 3 / 8 * 1 + (1 + 3) / 8) + nu * (d * 3 / 12)) * η ^ 2))) + diag * (d * η ^ 2 / 24) := by
    unfold implicitErrorBound fluidErrorBound spatialConstant
    ring
  rw [e1, e2]
  gcongr

variable [HasNan ℝ]

/-- C76 for a wave on a stream in two dimensions, for every resolution of at least three cells, every number of steps and every time step with `18 dt ≤ 2 ν`, however fine the grid: with the conjugate
gradient pressure solver (zero tolerances) and the default diffusion solver the run exists, and for a wave of sufficiently small amplitude it stays within the error bound. -/
example (N : ℕ) (hN : 3 ≤ N) (tpu : Bool) (eigh : EighFn ℝ) (heigh : ∀ m, m.Symmetric → IsEigh m (eigh m)) (nu dt : ℝ) (hnu : 0 ≤ nu) (hdt : 0 ≤ dt) (hc : dt * (2 * 3 ^ 2) ≤ 2 * nu) (n : ℕ) :
    ∃ ε > 0, ∃ w : ℕ → Fin 2 → GridVariable 2 ℝ, w 0 = samplesOn (torus 2 N) (stream ![1, -1] ![ε, -ε] nu 0) ∧
      (∀ k, implicitDiffusionNavierStokes 1 nu dt (fun v q0 bc => pressureCG ⟨0, 0, none⟩ v q0 (some bc)) (fun u nu dt => diffusionFastDiag tpu eigh u nu dt none) (some convectLinear) none (w k) =
        .ok (w (k + 1))) ∧
      ∀ k ≤ n, rmsError (torus 2 N) (w k) (stream ![1, -1] ![ε, -ε] nu (k * dt)) ≤
        implicitErrorBound 2 (torus 2 N).diagonal nu 3 ε ε ε ε ε (ε * (2 * nu) ^ 2) (ε * (2 * nu)) 0 (2 * π / N) dt (k * dt) 0 := by
  have hN0 : 0 < N := by omega
  set X := √(∏ a, (torus 2 N).shape a : ℕ) * implicitErrorBound 2 (torus 2 N).diagonal nu 3 1 1 1 1 1 (((2 : ℕ) * nu) ^ 2) ((2 : ℕ) * nu) 0 (2 * π / N) dt (n * dt) 0 with hX
  have hdiag : 0 ≤ (torus 2 N).diagonal := sqrt_nonneg _
  have hX0 : 0 ≤ X := by
    rw [hX]
    unfold implicitErrorBound fluidErrorBound spatialConstant
    positivity
  set ε := 1 / (1 + X) with hε
  have hε0 : 0 < ε := by positivity
  have hε1 : ε ≤ 1 := by
    rw [hε, div_le_one (by positivity)]
    linarith
  have hεX : ε * X ≤ 1 := by
    rw [hε, div_mul_eq_mul_div, one_mul, div_le_one (by positivity)]
    linarith
  have hs := C69_exact_solver two_ne_zero (torus 2 N) (fun _ => hN0) none (fun m hm => by simp at hm)
  have hds := C56_default_diffusion two_ne_zero (torus 2 N) (fun _ => hN) (fun _ => by show (0 : ℝ) < 2 * π; positivity) tpu eigh heigh
  obtain ⟨w, hw0, hw⟩ := C76_implicit_run_exists two_ne_zero (torus 2 N) (torus_valid hN0) _ hs _ hds 1 nu dt (mul_nonneg hnu hdt) none (fun _ _ => 0) (fun _ _ => rfl)
    (samplesOn (torus 2 N) (stream ![1, -1] ![ε, -ε] nu 0)) (samplesOn_field _ _)
  have e0 : rmsEnergyError (torus 2 N) nu dt (w 0) (stream ![1, -1] ![ε, -ε] nu 0) = 0 := by
    rw [hw0, rmsEnergyError_eq (samplesOn_field _ _)]
    simp [enorm, gn, n2, l2, dGrad]
  have hα : ∑ a, (![ε, -ε] : Fin 2 → ℝ) a = 0 := by simp
  have sol := stream_solution ![1, -1] ![ε, -ε] 1 (1 * nu) (by simp) hα
  rw [div_one, one_mul] at sol
  have hαε : ∀ a, |(![ε, -ε] : Fin 2 → ℝ) a| ≤ ε := fun a => by fin_cases a <;> simp [abs_of_pos hε0]
  have sm := stream_flow N ![1, -1] ![ε, -ε] hnu (fun a => by fin_cases a <;> simp) hαε
  have key := C76_implicit_a_priori two_ne_zero (torus 2 N) (torus_valid hN0) _ hs _ hds 1 nu dt one_pos hnu hdt none (fun _ _ => 0) (fun _ _ => rfl) _ _ (by rw [one_mul]; exact sol) (1 + ε) 3
    ε ε ε ε ε _ _ 0 (2 * π / N) sm (stream_curvature _ _ hnu hαε) (fun a => (torus_step N a).le) (by linarith) (by exact_mod_cast hc) w (by rw [hw0]; exact samplesOn_field _ _)
    (by rw [hw0]; exact stream_divergence two_ne_zero hN0 _ _ _ _ hα) n (by
      rw [e0, div_one]
      have h1 := implicit_bound_small (d := 2) (η := 2 * π / N) hdiag hnu hε0.le hε1 hdt (mul_nonneg (Nat.cast_nonneg n) hdt)
      have h2 := mul_le_mul_of_nonneg_left h1 (sqrt_nonneg ((∏ a, (torus 2 N).shape a : ℕ) : ℝ))
      refine h2.trans ?_
      rw [mul_left_comm, ← hX]
      linarith) (fun k _ => hw k)
  refine ⟨ε, hε0, w, hw0, hw, fun k hk => ?_⟩
  have := (key k hk).2
  rw [e0, div_one] at this
  exact_mod_cast this

end Fixtures
end JaxCfd
