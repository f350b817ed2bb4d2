import Verif.Props.FluidConvergence
import Verif.Props.AccuracyExamples
import Verif.Props.ConjugateGradient
import Verif.Props.AccuracyVanLeer

/-!
# C76: the hypotheses are met by a decaying wave on a uniform stream, in every dimension and for every resolution
-/

namespace JaxCfd
open Real

namespace Fixtures
variable {d : ℕ}

/-- A uniform stream `c` with a transverse wave of amplitude `α`. -/
noncomputable def stream (c α : Fin d → ℝ) (nu t : ℝ) (a : Fin d) (x : Fin d → ℝ) : ℝ := c a + α a * heatWave nu t x

theorem stream_slice (c α : Fin d → ℝ) (nu t : ℝ) (a b : Fin d) (x : Fin d → ℝ) :
    (fun s => stream c α nu t b (Function.update x a s)) = fun s => c b + (fun s => α b * heatWave nu t (Function.update x a s)) s := rfl

theorem stream_partialDeriv {n : ℕ} (hn : n ≠ 0) (c α : Fin d → ℝ) (nu t : ℝ) (a b : Fin d) (x : Fin d → ℝ) :
    partialDeriv n a (stream c α nu t b) x = α b * partialDeriv n a (heatWave nu t) x := by
  unfold partialDeriv
  rw [stream_slice, iteratedDeriv_const_add (Nat.pos_of_ne_zero hn)]
  exact iteratedDeriv_const_mul_field (α b) fun s => heatWave nu t (Function.update x a s)

theorem heatWave_bounded {nu t : ℝ} (hnu : 0 ≤ nu) (ht : 0 ≤ t) (n : ℕ) (a : Fin d) : SmoothAlong n a 1 (heatWave (d := d) nu t) := by
  have hs := wave_smooth n (exp (-(d * nu) * t)) 0 a
  refine ⟨hs.1, fun x => (hs.2 x).trans ?_⟩
  rw [abs_of_pos (exp_pos _)]
  exact exp_le_one_iff.2 (by have : 0 ≤ d * nu * t := by positivity
                             linarith)

theorem stream_smooth {n : ℕ} (hn : n ≠ 0) (c α : Fin d → ℝ) {nu t ε : ℝ} (hnu : 0 ≤ nu) (ht : 0 ≤ t) (hα : ∀ a, |α a| ≤ ε) (a b : Fin d) : SmoothAlong n a ε (stream c α nu t b) := by
  have hs := heatWave_bounded hnu ht n a
  refine ⟨fun x => contDiff_const.add (contDiff_const.mul (hs.1 x)), fun x => ?_⟩
  rw [stream_partialDeriv hn, abs_mul]
  exact (mul_le_of_le_one_right (abs_nonneg _) (hs.2 x)).trans (hα b)

theorem heatWave_speed {nu t : ℝ} (hnu : 0 ≤ nu) (ht : 0 ≤ t) (x : Fin d → ℝ) : |heatWave nu t x| ≤ 1 := by
  unfold heatWave wave
  rw [abs_mul, abs_of_pos (exp_pos _)]
  exact mul_le_one₀ (exp_le_one_iff.2 (by have : 0 ≤ d * nu * t := by positivity
                                          linarith)) (abs_nonneg _) (abs_sin_le_one _)

theorem stream_mixed (c α : Fin d → ℝ) {nu t ε : ℝ} (hnu : 0 ≤ nu) (ht : 0 ≤ t) (hα : ∀ a, |α a| ≤ ε) (a b : Fin d) : SmoothAlong 2 a ε (partialDeriv 1 b (stream c α nu t b)) := by
  have e : partialDeriv 1 b (stream c α nu t b) = wave (α b * exp (-(d * nu) * t)) (π / 2) := by
    funext x
    rw [stream_partialDeriv one_ne_zero]
    unfold heatWave
    rw [wave_one]
    unfold wave
    rw [add_zero, sin_add_pi_div_two, mul_assoc]
  rw [e]
  have hs := wave_smooth 2 (α b * exp (-(d * nu) * t)) (π / 2) a
  refine ⟨hs.1, fun x => (hs.2 x).trans ?_⟩
  rw [abs_mul, abs_of_pos (exp_pos _)]
  exact (mul_le_of_le_one_right (abs_nonneg _) (exp_le_one_iff.2 (by have : 0 ≤ d * nu * t := by positivity
                                                                     linarith))).trans (hα b)

theorem stream_flow (N : ℕ) (c α : Fin d → ℝ) {nu ε : ℝ} (hnu : 0 ≤ nu) (hc : ∀ a, |c a| ≤ 1) (hα : ∀ a, |α a| ≤ ε) :
    SmoothFlow (torus d N) (stream c α nu) (fun _ _ => 0) (1 + ε) ε ε ε ε ε (ε * (d * nu) ^ 2) 0 where
  periodic t _ a x b := by
    unfold stream
    rw [wave_periodic N _ _ x b |> fun h => (show heatWave nu t _ = heatWave nu t x from h)]
  pressure_periodic _ _ _ _ := rfl
  bounds t ht := ⟨fun b x => by
      unfold stream
      refine (abs_add_le _ _).trans (add_le_add (hc b) ?_)
      rw [abs_mul]
      exact (mul_le_of_le_one_right (abs_nonneg _) (heatWave_speed hnu ht x)).trans (hα b),
    fun a b => stream_smooth one_ne_zero c α hnu ht hα a b, fun a b => stream_smooth two_ne_zero c α hnu ht hα a b, fun a b => stream_smooth three_ne_zero c α hnu ht hα a b,
    fun a b => stream_mixed c α hnu ht hα a b⟩
  fourth t ht a b := stream_smooth four_ne_zero c α hnu ht hα a b
  time a := by
    have h := heatWave_smooth (d := d) hnu
    refine ⟨fun x => contDiff_const.add (contDiff_const.mul (h.1 x)), fun x t ht => ?_⟩
    show |iteratedDeriv 2 (fun t => c a + (fun t => α a * heatWave nu t x) t) t| ≤ _
    rw [iteratedDeriv_const_add two_pos, iteratedDeriv_const_mul_field, abs_mul]
    exact mul_le_mul (hα a) (h.2 x t ht) (abs_nonneg _) ((abs_nonneg _).trans (hα a))
  pressure _ _ _ := ⟨fun _ => contDiff_const, fun _ => by unfold partialDeriv; simp⟩

theorem stream_solution (c α : Fin d → ℝ) (density viscosity : ℝ) (hc : ∑ a, c a = 0) (hα : ∑ a, α a = 0) :
    NavierStokesSolution density viscosity (fun _ _ => 0) (stream c α (viscosity / density)) (fun _ _ => 0) where
  momentum t _ i x := by
    set nu := viscosity / density with hnu
    have hd : ∀ a, HasDerivAt (fun s => heatWave nu t (Function.update x a s)) (exp (-(d * nu) * t) * cos (∑ b, x b + 0)) (x a) := fun a => by
      have h := ((wave_smooth 1 (exp (-(d * nu) * t)) 0 a).1 x).differentiable (by norm_num : (1 : WithTop ℕ∞) ≠ 0) (x a)
      have e := wave_one (exp (-(d * nu) * t)) 0 x a
      unfold partialDeriv at e
      rw [iteratedDeriv_one] at e
      rw [← e]
      exact h.hasDerivAt
    have hconv : ∀ a, partialDeriv 1 a (fun x => stream c α nu t i x * stream c α nu t a x) x =
        α i * (exp (-(d * nu) * t) * cos (∑ b, x b + 0)) * (c a + α a * heatWave nu t x) + stream c α nu t i x * (α a * (exp (-(d * nu) * t) * cos (∑ b, x b + 0))) := fun a => by
      have h := (((hd a).const_mul (α i)).const_add (c i)).mul (((hd a).const_mul (α a)).const_add (c a))
      rw [Function.update_eq_self] at h
      unfold partialDeriv
      rw [iteratedDeriv_one]
      exact h.deriv
    have e0 : ∑ a, partialDeriv 1 a (fun x => stream c α nu t i x * stream c α nu t a x) x = 0 := by
      simp only [hconv, Finset.sum_add_distrib, ← Finset.mul_sum, ← Finset.sum_mul, hc, hα]
      ring
    have e1 : deriv (fun s => stream c α nu s i x) t = α i * deriv (fun s => heatWave nu s x) t := by
      unfold stream
      rw [deriv_const_add, deriv_const_mul_field]
    rw [e0, e1, heatWave_heat]
    simp only [stream_partialDeriv two_ne_zero, ← Finset.mul_sum]
    have e2 : partialDeriv 1 i (fun _ : Fin d → ℝ => (0 : ℝ)) x = 0 := by unfold partialDeriv; simp
    rw [e2]
    ring
  incompressible t _ x := by
    simp only [stream_partialDeriv one_ne_zero]
    unfold heatWave
    simp only [wave_one, ← Finset.sum_mul, hα, zero_mul]

variable [HasNan ℝ]

omit [HasNan ℝ] in
theorem torus_step (N : ℕ) (a : Fin d) : (torus d N).step a = 2 * π / N := by
  show (2 * π - 0) / (N : ℝ) = _
  rw [sub_zero]

/-- The samples of the stream are divergence-free on the grid as well. -/
theorem stream_divergence (hd : d ≠ 0) {N : ℕ} (hN : 0 < N) (c α : Fin d → ℝ) (nu t : ℝ) (hα : ∑ a, α a = 0) : DivergenceFree (torus d N) (samplesOn (torus d N) (stream c α nu t)) := by
  refine ⟨_, (samplesOn_field _ _).divergence hd fun _ => hN, fun i hi => ?_⟩
  have hp : ∀ a, PeriodicOn (torus d N) (stream c α nu t a) := fun a x b => by
    unfold stream
    rw [wave_periodic N _ _ x b |> fun h => (show heatWave nu t _ = heatWave nu t x from h)]
  have hsum : ∀ a, ∑ b, (torus d N).position (fun b => if b = a then 1 else 1 / 2) i b = ∑ b, (torus d N).position (fun _ => 1 / 2) i b + 1 / 2 * (2 * π / N) := fun a => by
    have : ∀ b, (torus d N).position (fun b => if b = a then 1 else 1 / 2) i b = (torus d N).position (fun _ => 1 / 2) i b + if b = a then 1 / 2 * (2 * π / N) else 0 := fun b => by
      unfold Grid.position
      rw [torus_step]
      beta_reduce
      rcases eq_or_ne b a with h | h
      · rw [if_pos h, if_pos h]; push_cast; ring
      · rw [if_neg h, if_neg h]; push_cast; ring
    simp only [this, Finset.sum_add_distrib, Finset.sum_ite_eq', Finset.mem_univ, if_true]
  have hval : ∀ a, (fieldData (samplesOn (torus d N) (stream c α nu t)) a i - fieldData (samplesOn (torus d N) (stream c α nu t)) a (rollIdx (torus d N).shape a (-1) i)) / (torus d N).step a =
      α a * ((exp (-(d * nu) * t) * sin (∑ b, (torus d N).position (fun _ => 1 / 2) i b + 1 / 2 * (2 * π / N)) -
        exp (-(d * nu) * t) * sin (∑ b, (torus d N).position (fun _ => 1 / 2) i b - 1 / 2 * (2 * π / N))) / (2 * π / N)) := fun a => by
    show (stream c α nu t a ((torus d N).position (fun b => if b = a then 1 else 1 / 2) i) -
      stream c α nu t a ((torus d N).position (fun b => if b = a then 1 else 1 / 2) (rollIdx (torus d N).shape a (-1) i))) / _ = _
    rw [sample_roll (torus_valid hN) (hp a) rfl, torus_step]
    unfold stream heatWave wave
    rw [Finset.sum_update_of_mem (Finset.mem_univ a), hsum]
    have e : (torus d N).position (fun b => if b = a then 1 else 1 / 2) i a + ((-1 : ℤ) : ℝ) * (2 * π / N) +
        ∑ b ∈ Finset.univ \ {a}, (torus d N).position (fun b => if b = a then 1 else 1 / 2) i b = ∑ b, (torus d N).position (fun _ => 1 / 2) i b - 1 / 2 * (2 * π / N) := by
      rw [Finset.sdiff_singleton_eq_erase, add_right_comm, Finset.add_sum_erase _ _ (Finset.mem_univ a), hsum]
      push_cast
      ring
    rw [e, add_zero, add_zero]
    ring
  show (∑ a : Fin d, _ : ℝ) = 0
  refine (Finset.sum_congr rfl fun a _ => hval a).trans ?_
  rw [← Finset.sum_mul, hα, zero_mul]

omit [HasNan ℝ] in
/-- The error bound is proportional to the amplitude of the wave. -/
theorem bound_small {diag nu ε η dt t : ℝ} (hdiag : 0 ≤ diag) (hnu : 0 ≤ nu) (hε : 0 ≤ ε) (hε1 : ε ≤ 1) (hdt : 0 ≤ dt) (ht : 0 ≤ t) :
    fluidErrorBound d diag nu 3 ε ε ε ε ε (ε * (d * nu) ^ 2) (0 / 1) η dt t 0 ≤ ε * fluidErrorBound d diag nu 3 1 1 1 1 1 ((d * nu) ^ 2) 0 η dt t 0 := by
  have e1 : fluidErrorBound d diag nu 3 ε ε ε ε ε (ε * (d * nu) ^ 2) (0 / 1) η dt t 0 = ε * (exp (d * ε * t) * (t * ((2 * √d * 3 + d * ε * diag) * (d * η ^ 2 / 24) +
      √d * ((d * nu) ^ 2 * dt / 2 + (d * (5 / 24 * 3 + 3 / 8 * ε + (ε + 3) / 8) + nu * (d / 12)) * η ^ 2))) + diag * (d * η ^ 2 / 24)) := by
    unfold fluidErrorBound spatialConstant
    ring
  have e2 : fluidErrorBound d diag nu 3 1 1 1 1 1 ((d * nu) ^ 2) 0 η dt t 0 = exp (d * 1 * t) * (t * ((2 * √d * 3 + d * 1 * diag) * (d * η ^ 2 / 24) +
      √d * ((d * nu) ^ 2 * dt / 2 + (d * (5 / 24 * 3 + 3 / 8 * 1 + (1 + 3) / 8) + nu * (d / 12)) * η ^ 2))) + diag * (d * η ^ 2 / 24) := by
    unfold fluidErrorBound spatialConstant
    ring
  rw [e1, e2]
  gcongr

/-- C76 for a wave on a stream in two dimensions, for every resolution and every number of steps: with the conjugate gradient solver and zero tolerances the run exists, and for a wave of sufficiently
small amplitude it stays within the error bound. -/
example (N : ℕ) (hN : 0 < N) (nu dt : ℝ) (hnu : 0 ≤ nu) (hdt : 0 ≤ dt) (hc : dt * (4 * nu ^ 2 * ∑ _a : Fin 2, 1 / (2 * π / N) ^ 2 + 2 * 3 ^ 2) ≤ nu) (n : ℕ) :
    ∃ ε > 0, ∃ w : ℕ → Fin 2 → GridVariable 2 ℝ, w 0 = samplesOn (torus 2 N) (stream ![1, -1] ![ε, -ε] nu 0) ∧
      (∀ k, semiImplicitNavierStokes 1 (some nu) dt (fun v q0 bc => pressureCG ⟨0, 0, none⟩ v q0 (some bc)) (some convectLinear) diffuse none forwardEuler (w k) = .ok (w (k + 1))) ∧
      ∀ k ≤ n, rmsError (torus 2 N) (w k) (stream ![1, -1] ![ε, -ε] nu (k * dt)) ≤
        fluidErrorBound 2 (torus 2 N).diagonal nu 3 ε ε ε ε ε (ε * (2 * nu) ^ 2) 0 (2 * π / N) dt (k * dt) 0 := by
  set X := √(∏ a, (torus 2 N).shape a : ℕ) * fluidErrorBound 2 (torus 2 N).diagonal nu 3 1 1 1 1 1 (((2 : ℕ) * nu) ^ 2) 0 (2 * π / N) dt (n * dt) 0 with hX
  have hdiag : 0 ≤ (torus 2 N).diagonal := sqrt_nonneg _
  have hX0 : 0 ≤ X := by
    rw [hX]
    unfold fluidErrorBound spatialConstant
    positivity
  set ε := 1 / (1 + X) with hε
  have hε0 : 0 < ε := by positivity
  have hε1 : ε ≤ 1 := by
    rw [hε, div_le_one (by positivity)]
    linarith
  have hεX : ε * X ≤ 1 := by
    rw [hε, div_mul_eq_mul_div, one_mul, div_le_one (by positivity)]
    linarith
  have hs := C69_exact_solver two_ne_zero (torus 2 N) (fun _ => hN) none (fun m hm => by simp at hm)
  obtain ⟨w, hw0, hw⟩ := C76_run_exists two_ne_zero (torus 2 N) (torus_valid hN) _ hs 1 nu dt one_ne_zero none (fun _ _ => 0) (fun _ _ => rfl)
    (samplesOn (torus 2 N) (stream ![1, -1] ![ε, -ε] nu 0)) (samplesOn_field _ _)
  have e0 : rmsError (torus 2 N) (w 0) (stream ![1, -1] ![ε, -ε] nu 0) = 0 := by
    rw [hw0, rmsError_eq (samplesOn_field _ _)]
    simp [n2, l2]
  have hα : ∑ a, (![ε, -ε] : Fin 2 → ℝ) a = 0 := by simp
  have sol := stream_solution ![1, -1] ![ε, -ε] 1 nu (by simp) hα
  rw [div_one] at sol
  have sm := stream_flow N ![1, -1] ![ε, -ε] hnu (fun a => by fin_cases a <;> simp) (ε := ε) (fun a => by fin_cases a <;> simp [abs_of_pos hε0])
  have key := C76_navier_stokes_a_priori two_ne_zero (torus 2 N) (torus_valid hN) _ hs 1 nu dt one_pos hnu hdt none (fun _ _ => 0) (fun _ _ => rfl) _ _ sol (1 + ε) 3 ε ε ε ε ε _ 0 (2 * π / N) sm
    (fun a => (torus_step N a).le) (by linarith) (by simp only [torus_step, div_one]; exact_mod_cast hc) w (by rw [hw0]; exact samplesOn_field _ _)
    (by rw [hw0]; exact stream_divergence two_ne_zero hN _ _ _ _ hα) n (by
      rw [e0, div_one]
      have h1 := bound_small (d := 2) (η := 2 * π / N) hdiag hnu hε0.le hε1 hdt (mul_nonneg (Nat.cast_nonneg n) hdt)
      have h2 := mul_le_mul_of_nonneg_left h1 (sqrt_nonneg ((∏ a, (torus 2 N).shape a : ℕ) : ℝ))
      refine h2.trans ?_
      rw [mul_left_comm, ← hX]
      linarith) (fun k _ => hw k)
  refine ⟨ε, hε0, w, hw0, hw, fun k hk => ?_⟩
  have := (key k hk).2
  rw [e0, div_one, div_one] at this
  exact_mod_cast this

/-- C73 for the convection of the stream, in every dimension and for every resolution. -/
example (hd : d ≠ 0) (N : ℕ) (hN : 0 < N) (c α : Fin d → ℝ) (ε : ℝ) (hc : ∀ a, |c a| ≤ 1) (hα : ∀ a, |α a| ≤ ε) :
    ∃ R, convectLinear (samplesOn (torus d N) (stream c α 0 0)) = .ok R ∧ ∀ i, (R i).Approximates (fun x => -∑ a, partialDeriv 1 a (fun x => stream c α 0 0 i x * stream c α 0 0 a x) x)
      (∑ _a : Fin d, ((5 / 24 * ((1 + ε) * ε) + 3 / 8 * (ε * ε)) * (2 * π / N) ^ 2 + (ε * ε + (1 + ε) * ε) / 8 * (2 * π / N) ^ 2)) := by
  have sm := stream_flow N c α le_rfl hc hα
  obtain ⟨R, hR, h⟩ := C73_convect_linear hd (torus d N) (torus_valid hN) (samplesOn (torus d N) (stream c α 0 0)) (samplesOn_field _ _) (stream c α 0 0) (sm.periodic 0 le_rfl) (fun _ _ _ => rfl)
    (1 + ε) ε ε ε ε (sm.bounds 0 le_rfl)
  refine ⟨R, hR, fun i => ?_⟩
  have := (h i).2.2.2
  simp only [torus_step] at this
  exact this

/-- C73 for the default convection of the stream, in every dimension, for every resolution and every time step within the CFL condition. -/
example (hd : d ≠ 0) (N : ℕ) (hN : 0 < N) (c α : Fin d → ℝ) (ε dt : ℝ) (hc : ∀ a, |c a| ≤ 1) (hα : ∀ a, |α a| ≤ ε) (hdt : 0 ≤ dt) (hcfl : dt * (1 + ε) ≤ 2 * π / N) :
    ∃ R, defaultConvect dt (samplesOn (torus d N) (stream c α 0 0)) = .ok R ∧ ∀ i, (R i).Approximates (fun x => -∑ a, partialDeriv 1 a (fun x => stream c α 0 0 i x * stream c α 0 0 a x) x)
      (∑ _a : Fin d, ((9 / 2 * ((1 + ε) * ε) + 3 / 2 * ε ^ 2) * (2 * π / N) + (5 / 24 * ((1 + ε) * ε) + 3 / 8 * (ε * ε)) * (2 * π / N) ^ 2 + (ε * ε + (1 + ε) * ε) / 8 * (2 * π / N) ^ 2)) := by
  have sm := stream_flow N c α le_rfl hc hα
  obtain ⟨R, hR, h⟩ := C73_default_convect hd (torus d N) (torus_valid hN) (samplesOn (torus d N) (stream c α 0 0)) (samplesOn_field _ _) (stream c α 0 0) (sm.periodic 0 le_rfl) (fun _ _ _ => rfl)
    (1 + ε) ε ε ε ε (sm.bounds 0 le_rfl) dt hdt (fun a => by rw [torus_step]; exact hcfl)
  refine ⟨R, hR, fun i => ?_⟩
  have := (h i).2.2.2
  simp only [torus_step] at this
  exact this

/-- C73 for the van Leer scheme: the travelling wave in a uniform wind. -/
example (hd : d ≠ 0) (n : ℕ) (hn : 0 < n) (w : Fin d → ℝ) (dt t : ℝ) (hdt : 0 ≤ dt) (hcfl : ∀ a, dt * |w a| ≤ 2 * π / n) :
    ∃ r, advectVanLeerUsingLimiters (waveVariable d n 1 (-((∑ a, w a) * t)) fun _ => 1 / 2) (wind d n w) dt = .ok r ∧
      r.Approximates (fun x => deriv (fun s => transportWave w s x) t) (∑ a, ((9 / 2 * (|w a| * |1|) + 3 / 2 * (0 * |1|)) * (2 * π / n) + (|w a| / 24 + (|w a| * |1| + 0 * |1|) / 8) * (2 * π / n) ^ 2)) := by
  have hc := waveVariable_periodic hn 1 (-((∑ a, w a) * t)) fun _ : Fin d => (1 / 2 : ℚ)
  obtain ⟨r, hr, -, -, -, h⟩ := C73_advect_van_leer hd hc (torus_valid hn) (v := wind d n w) (C := transportWave w t) (V := fun a _ => w a)
    (fun a => ⟨⟨fun _ => rfl, fun _ => ⟨rfl, hn⟩⟩, rfl, rfl, rfl, rfl⟩) (wave_periodic n _ _) (fun a _ _ => rfl) (fun _ _ => rfl) (fun _ _ _ => rfl) _ _ _ _ _ _ (transportWave_bounds w t) dt hdt
    (fun a => by rw [show (waveVariable d n 1 (-((∑ a, w a) * t)) fun _ : Fin d => (1 / 2 : ℚ)).array.grid.step a = 2 * π / n from torus_step n a]; exact hcfl a)
  refine ⟨r, hr, ?_⟩
  rw [show (fun x => deriv (fun s => transportWave w s x) t) = fun x => -∑ a, partialDeriv 1 a (fun y => w a * transportWave w t y) x from funext fun x => transportWave_transport w t x]
  have e2 : ∀ a, (waveVariable d n 1 (-((∑ a, w a) * t)) fun _ : Fin d => (1 / 2 : ℚ)).array.grid.step a = 2 * π / n := fun a => torus_step n a
  simp only [e2] at h
  exact h

/-- C76 for the projection: the samples of the stream plus the gradient of a wave. -/
example (hd : d ≠ 0) (N : ℕ) (hN : 0 < N) (c α : Fin d → ℝ) (ε : ℝ) (hα : ∀ a, |α a| ≤ ε) (h0 : ∑ a, α a = 0) :
    ∃ p, projection (samplesOn (torus d N) fun a x => stream c α 0 0 a x + partialDeriv 1 a (wave 1 0) x) (fun v q0 bc => pressureCG ⟨0, 0, none⟩ v q0 (some bc)) = .ok p ∧
      rmsError (torus d N) p (stream c α 0 0) ≤ √d * (0 + |1| * (2 * π / N) ^ 2 / 24) + (torus d N).diagonal * ∑ _a : Fin d, ε * (2 * π / N) ^ 2 / 24 := by
  have hs := C69_exact_solver hd (torus d N) (fun _ => hN) none (fun m hm => by simp at hm)
  obtain ⟨p, hp, -, -, h⟩ := C76_projection hd (torus d N) (torus_valid hN) _ hs (samplesOn (torus d N) fun a x => stream c α 0 0 a x + partialDeriv 1 a (wave 1 0) x) (samplesOn_field _ _)
    (stream c α 0 0) (wave 1 0) (fun a x b => by
      unfold stream
      rw [wave_periodic N _ _ x b |> fun h => (show heatWave 0 0 _ = heatWave 0 0 x from h)]) (wave_periodic N 1 0) (fun _ => ε)
    (fun a => stream_smooth three_ne_zero c α le_rfl le_rfl hα a a) |1| (2 * π / N) (fun a => wave_smooth 3 1 0 a) (fun a => (torus_step N a).le) (fun x => by
      simp only [stream_partialDeriv one_ne_zero]
      unfold heatWave
      simp only [wave_one, ← Finset.sum_mul, h0, zero_mul]) 0 (fun a i _ => by
      show |_ - _| ≤ (0 : ℝ)
      exact (abs_eq_zero.2 (sub_eq_zero.2 rfl)).le)
  refine ⟨p, hp, ?_⟩
  simp only [torus_step] at h
  exact h

end Fixtures
end JaxCfd
