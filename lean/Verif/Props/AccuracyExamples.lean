import Verif.Props.ConvergenceSemiLagrangian
import Verif.Props.ConvergenceImplicit
import Mathlib.Analysis.SpecialFunctions.Trigonometric.Deriv
import Mathlib.Analysis.SpecialFunctions.ExpDeriv

/-!
# C73, C74: the hypotheses are met by a wave on the torus, in every dimension and for every resolution
-/

namespace JaxCfd
open Real

theorem abs_iteratedDeriv_sin_le (n : ℕ) (t : ℝ) : |iteratedDeriv n sin t| ≤ 1 := by
  rcases Nat.even_or_odd' n with ⟨k, rfl | rfl⟩
  · rw [iteratedDeriv_even_sin]
    simp [abs_mul, abs_sin_le_one]
  · rw [iteratedDeriv_odd_sin]
    simp [abs_mul, abs_cos_le_one]

namespace Fixtures
variable {d : ℕ}

/-- The torus of side `2π` with `n` cells along every axis. -/
noncomputable def torus (d n : ℕ) : Grid d ℝ := ⟨fun _ => n, fun _ => (0, 2 * π)⟩

/-- A plane wave along the diagonal. -/
noncomputable def wave (A φ : ℝ) (x : Fin d → ℝ) : ℝ := A * sin (∑ a, x a + φ)

theorem torus_valid {n : ℕ} (hn : 0 < n) : (torus d n).Valid := fun _ => ⟨hn, by show (0 : ℝ) < 2 * π; positivity⟩

theorem wave_slice (A φ : ℝ) (x : Fin d → ℝ) (a : Fin d) : (fun t => wave A φ (Function.update x a t)) = fun t => A * (fun s => sin (s + (∑ b ∈ Finset.univ \ {a}, x b + φ))) t := by
  funext t
  unfold wave
  rw [Finset.sum_update_of_mem (Finset.mem_univ a)]
  beta_reduce
  rw [add_assoc]

theorem wave_iterated (n : ℕ) (A φ : ℝ) (x : Fin d → ℝ) (a : Fin d) : partialDeriv n a (wave A φ) x = A * iteratedDeriv n sin (∑ a, x a + φ) := by
  unfold partialDeriv
  rw [wave_slice, iteratedDeriv_const_mul_field, iteratedDeriv_comp_add_const]
  congr 2
  rw [← Finset.sum_erase_add _ _ (Finset.mem_univ a), Finset.sdiff_singleton_eq_erase]
  ring

theorem wave_smooth (n : ℕ) (A φ : ℝ) (a : Fin d) : SmoothAlong n a |A| (wave A φ) := by
  refine ⟨fun x => ?_, fun x => ?_⟩
  · rw [wave_slice]
    exact contDiff_const.mul (contDiff_sin.comp (contDiff_id.add contDiff_const))
  · rw [wave_iterated, abs_mul]
    exact mul_le_of_le_one_right (abs_nonneg _) (abs_iteratedDeriv_sin_le _ _)

theorem wave_periodic (n : ℕ) (A φ : ℝ) : PeriodicOn (torus d n) (wave A φ) := fun x a => by
  unfold wave
  congr 1
  rw [Finset.sum_update_of_mem (Finset.mem_univ a), ← Finset.sum_erase_add Finset.univ x (Finset.mem_univ a), Finset.sdiff_singleton_eq_erase, ← sin_add_two_pi (_ + x a + φ)]
  congr 1
  show x a + (2 * π - 0) + _ + φ = _
  ring

theorem wave_one (A φ : ℝ) (x : Fin d → ℝ) (a : Fin d) : partialDeriv 1 a (wave A φ) x = A * cos (∑ a, x a + φ) := by
  rw [wave_iterated, iteratedDeriv_one, Real.deriv_sin]

theorem wave_two (A φ : ℝ) (x : Fin d → ℝ) (a : Fin d) : partialDeriv 2 a (wave A φ) x = -wave A φ x := by
  rw [wave_iterated, show (2 : ℕ) = 2 * 1 from rfl, iteratedDeriv_even_sin]
  unfold wave
  simp

/-- The wave sampled at the cell centres of the torus. -/
noncomputable def waveVariable (d n : ℕ) (A φ : ℝ) (o : Fin d → ℚ) : GridVariable d ℝ :=
  ⟨⟨⟨fun _ => n, fun i => wave A φ ((torus d n).position o i)⟩, o, torus d n⟩, periodicBC d⟩

theorem waveVariable_periodic {n : ℕ} (hn : 0 < n) (A φ : ℝ) (o : Fin d → ℚ) : (waveVariable d n A φ o).Periodic :=
  ⟨fun _ => rfl, fun _ => ⟨rfl, hn⟩⟩

variable [HasNan ℝ]

/-- C73 for a wave: on `n` cells per axis the error of the Laplacian is at most `|A| d (2π/n)² / 12`. -/
example (n : ℕ) (hn : 0 < n) (A φ : ℝ) (o : Fin d → ℚ) :
    ∃ r, laplacian (waveVariable d n A φ o) = .ok r ∧ r.Approximates (fun x => -(d * wave A φ x)) (∑ _a : Fin d, |A| * (2 * π / n) ^ 2 / 12) := by
  obtain ⟨r, hr, -, -, -, h⟩ := C73_laplacian (waveVariable_periodic hn A φ o) (torus_valid hn) (wave_periodic n A φ) (fun _ _ => rfl) (fun _ => |A|) (fun a => wave_smooth 4 A φ a)
  refine ⟨r, hr, ?_⟩
  have e : (fun x : Fin d → ℝ => ∑ a, partialDeriv 2 a (wave A φ) x) = fun x => -(d * wave A φ x) := by
    funext x
    simp [wave_two]
  rw [e] at h
  have e2 : ∀ a : Fin d, (torus d n).step a = 2 * π / n := fun a => by
    show (2 * π - 0) / (n : ℝ) = _
    rw [sub_zero]
  have e3 : (waveVariable d n A φ o).array.grid = torus d n := rfl
  simp only [e3, e2] at h
  exact h

/-- The decaying wave solves the heat equation. -/
noncomputable def heatWave (nu : ℝ) (t : ℝ) : (Fin d → ℝ) → ℝ := wave (exp (-(d * nu) * t)) 0

omit [HasNan ℝ] in
theorem heatWave_time (nu : ℝ) (x : Fin d → ℝ) : (fun t => heatWave nu t x) = fun t => (fun s => exp (-(d * nu) * s)) t * sin (∑ a, x a + 0) := rfl

omit [HasNan ℝ] in
theorem heatWave_smooth {nu : ℝ} (hnu : 0 ≤ nu) : SmoothInTime (heatWave (d := d) nu) ((d * nu) ^ 2) := by
  refine ⟨fun x => ?_, fun x t ht => ?_⟩
  · rw [heatWave_time]
    exact (contDiff_exp.comp (contDiff_const.mul contDiff_id)).mul contDiff_const
  · have : (fun t => heatWave nu t x) = fun t => sin (∑ a, x a + 0) * (fun s => exp (-(d * nu) * s)) t := by
      rw [heatWave_time]; funext t; ring
    rw [this, iteratedDeriv_const_mul_field, iteratedDeriv_exp_const_mul]
    have hle : exp (-(d * nu) * t) ≤ 1 := exp_le_one_iff.2 (by have : 0 ≤ d * nu * t := by positivity
                                                               linarith)
    rw [abs_mul, abs_mul, abs_of_pos (exp_pos _), abs_pow, abs_neg, abs_of_nonneg (by positivity : 0 ≤ d * nu)]
    have h1 := abs_sin_le_one (∑ a, x a + 0)
    have h2 : 0 ≤ (d * nu) ^ 2 := by positivity
    calc |sin (∑ a, x a + 0)| * ((d * nu) ^ 2 * exp (-(d * nu) * t)) ≤ 1 * ((d * nu) ^ 2 * 1) := by
          gcongr
      _ = _ := by ring

omit [HasNan ℝ] in
theorem heatWave_heat (nu t : ℝ) (x : Fin d → ℝ) : deriv (fun s => heatWave nu s x) t = nu * ∑ a, partialDeriv 2 a (heatWave nu t) x := by
  have h1 : HasDerivAt (fun s => heatWave nu s x) (exp (-(d * nu) * t) * (-(d * nu) * 1) * sin (∑ a, x a + 0)) t :=
    (((hasDerivAt_id t).const_mul (-(d * nu) : ℝ)).exp).mul_const _
  rw [h1.deriv]
  unfold heatWave
  simp only [wave_two, Finset.sum_const, Finset.card_univ, Fintype.card_fin, nsmul_eq_mul]
  unfold wave
  ring

/-- The variable after one explicit step of diffusion. -/
noncomputable def heatStep (nu dt : ℝ) (u : GridVariable d ℝ) : GridVariable d ℝ :=
  ⟨⟨⟨u.array.shape, fun i => u.array.data i + dt * (nu * (lapP u).data i)⟩, u.array.offset, u.array.grid⟩, u.bc⟩

theorem heatStep_run (nu dt : ℝ) {u : GridVariable d ℝ} (hu : u.Periodic) : ∃ r, diffuse u nu = .ok r ∧ EulerStep u r dt (heatStep nu dt u) := by
  refine ⟨gmap (fun x => nu * x) (lapP u), ?_, rfl, rfl, rfl, rfl, fun i _ => rfl⟩
  unfold diffuse
  rw [laplacian_periodic hu, Except.bind_ok]
  rfl

/-- C74 for the decaying wave, in every dimension and for every resolution: under the stability limit the error of explicit diffusion at time `m dt` is at most
`m dt ((dν)² dt / 2 + ν d (2π/n)² / 12)`. -/
example (n : ℕ) (hn : 0 < n) (nu dt : ℝ) (hnu : 0 ≤ nu) (hdt : 0 ≤ dt) (hst : 2 * (nu * dt) * ∑ _a : Fin d, 1 / (2 * π / n) ^ 2 ≤ 1) (m : ℕ) :
    ((heatStep nu dt)^[m] (waveVariable d n 1 0 fun _ => 1 / 2)).array.Approximates (heatWave nu (m * dt))
      (0 + m * dt * ((d * nu) ^ 2 * dt / 2 + nu * ∑ _a : Fin d, 1 * (2 * π / n) ^ 2 / 12)) := by
  have e2 : ∀ a : Fin d, (torus d n).step a = 2 * π / n := fun a => by
    show (2 * π - 0) / (n : ℝ) = _
    rw [sub_zero]
  have hper : ∀ k, ((heatStep nu dt)^[k] (waveVariable d n 1 0 fun _ => 1 / 2)).Periodic := fun k => by
    induction k with
    | zero => exact waveVariable_periodic hn _ _ _
    | succ k ih => rw [Function.iterate_succ_apply']; exact ih
  have := C74_explicit_diffusion (fun k => (heatStep nu dt)^[k] (waveVariable d n 1 0 fun _ => 1 / 2)) (waveVariable_periodic hn 1 0 _) (torus d n) rfl (torus_valid hn) nu dt hnu hdt
    (by simp only [e2]; exact hst) (fun k => by rw [Function.iterate_succ_apply']; exact heatStep_run nu dt (hper k)) (heatWave nu) ((d * nu) ^ 2) (fun _ => 1)
    (heatWave_smooth hnu) (fun t _ => wave_periodic n _ _)
    (fun t ht a => by
      have hs := wave_smooth 4 (exp (-(d * nu) * t)) 0 a
      refine ⟨hs.1, fun x => (hs.2 x).trans ?_⟩
      rw [abs_of_pos (exp_pos _)]
      exact exp_le_one_iff.2 (by have : 0 ≤ d * nu * t := by positivity
                                 linarith))
    (fun t _ x => heatWave_heat nu t x) 0 (fun i _ => by
      show |wave 1 0 ((torus d n).position (fun _ => 1 / 2) i) - wave (exp (-(d * nu) * 0)) 0 ((torus d n).position (fun _ => 1 / 2) i)| ≤ 0
      rw [mul_zero, exp_zero, sub_self, abs_zero]) m
  simp only [e2] at this
  exact this

/-- A uniform velocity on the faces of the torus. -/
noncomputable def wind (d n : ℕ) (w : Fin d → ℝ) (a : Fin d) : GridVariable d ℝ :=
  ⟨⟨⟨fun _ => n, fun _ => w a⟩, Function.update (fun _ => 1 / 2) a (1 / 2 + 1 / 2), torus d n⟩, periodicBC d⟩

/-- The travelling wave. -/
noncomputable def transportWave (w : Fin d → ℝ) (t : ℝ) : (Fin d → ℝ) → ℝ := wave 1 (-((∑ a, w a) * t))

omit [HasNan ℝ] in
theorem transportWave_time (w : Fin d → ℝ) (x : Fin d → ℝ) : (fun t => transportWave w t x) = fun t => (fun r => sin (∑ a, x a + r)) (-(∑ a, w a) * t) := by
  funext t
  unfold transportWave wave
  rw [one_mul, neg_mul]

omit [HasNan ℝ] in
theorem transportWave_smooth (w : Fin d → ℝ) : SmoothInTime (transportWave w) ((∑ a, w a) ^ 2) := by
  have hs : ∀ x : Fin d → ℝ, ContDiff ℝ (2 : ℕ) fun r : ℝ => sin (∑ a, x a + r) := fun x => contDiff_sin.comp (contDiff_const.add contDiff_id)
  refine ⟨fun x => ?_, fun x t _ => ?_⟩
  · rw [transportWave_time]
    exact (hs x).comp (contDiff_const.mul contDiff_id)
  · rw [transportWave_time, iteratedDeriv_comp_const_mul (hs x), iteratedDeriv_comp_const_add 2 sin]
    beta_reduce
    rw [abs_mul, neg_sq, abs_of_nonneg (sq_nonneg (∑ a, w a))]
    exact mul_le_of_le_one_right (sq_nonneg _) (abs_iteratedDeriv_sin_le 2 _)

omit [HasNan ℝ] in
theorem transportWave_transport (w : Fin d → ℝ) (t : ℝ) (x : Fin d → ℝ) :
    deriv (fun s => transportWave w s x) t = -∑ a, partialDeriv 1 a (fun y => w a * transportWave w t y) x := by
  have h1 : HasDerivAt (fun s => transportWave w s x) (1 * (cos (∑ a, x a + -((∑ a, w a) * t)) * -((∑ a, w a) * 1))) t :=
    ((((hasDerivAt_id t).const_mul (∑ a, w a)).neg.const_add (∑ a, x a)).sin).const_mul 1
  rw [h1.deriv]
  have e : ∀ a, (fun y => w a * transportWave w t y) = wave (w a) (-((∑ a, w a) * t)) := fun a => by
    funext y
    unfold transportWave wave
    ring
  simp only [e, wave_one, ← Finset.sum_mul]
  ring

omit [HasNan ℝ] in
theorem transportWave_bounds (w : Fin d → ℝ) (t : ℝ) :
    FluxBounds (transportWave w t) (fun a _ => w a) (fun a => |w a|) (fun _ => 0) (fun _ => |1|) (fun _ => |1|) (fun _ => |1|) (fun a => |w a|) where
  speed a _ := le_rfl
  shear a := ⟨fun _ => contDiff_const, fun x => by unfold partialDeriv; simp⟩
  first a := wave_smooth 1 1 _ a
  second a := wave_smooth 2 1 _ a
  third a := wave_smooth 3 1 _ a
  flux a := by
    have e : (fun y => w a * transportWave w t y) = wave (w a) (-((∑ a, w a) * t)) := by
      funext y
      unfold transportWave wave
      ring
    rw [e]
    exact wave_smooth 3 _ _ a

/-- One explicit step with a given right hand side. -/
noncomputable def eulerOf (rhs : GridVariable d ℝ → Except Err (GridArray d ℝ)) (dt : ℝ) (u : GridVariable d ℝ) : GridVariable d ℝ :=
  ⟨⟨⟨u.array.shape, fun i => u.array.data i + dt * (match rhs u with | .ok r => r.data i | .error _ => 0)⟩, u.array.offset, u.array.grid⟩, u.bc⟩

omit [HasNan ℝ] in
theorem eulerOf_step {rhs : GridVariable d ℝ → Except Err (GridArray d ℝ)} {dt : ℝ} {u : GridVariable d ℝ} {r : GridArray d ℝ} (h : rhs u = .ok r) : EulerStep u r dt (eulerOf rhs dt u) :=
  ⟨rfl, rfl, rfl, rfl, fun i _ => by unfold eulerOf; rw [h]⟩

omit [HasNan ℝ] in
theorem eulerOf_layout (rhs : GridVariable d ℝ → Except Err (GridArray d ℝ)) (dt : ℝ) (u : GridVariable d ℝ) (k : ℕ) :
    ((eulerOf rhs dt)^[k] u).bc = u.bc ∧ ((eulerOf rhs dt)^[k] u).array.shape = u.array.shape ∧ ((eulerOf rhs dt)^[k] u).array.offset = u.array.offset ∧ ((eulerOf rhs dt)^[k] u).array.grid = u.array.grid := by
  induction k with
  | zero => exact ⟨rfl, rfl, rfl, rfl⟩
  | succ k ih => rw [Function.iterate_succ_apply']; exact ih

/-- C74 for upwind advection of the travelling wave by a uniform wind, in every dimension and for every resolution. -/
example (hd : d ≠ 0) (n : ℕ) (hn : 0 < n) (w : Fin d → ℝ) (dt : ℝ) (hdt : 0 ≤ dt) (hcfl : dt * ∑ a, |w a| / (2 * π / n) ≤ 1) (m : ℕ) :
    ∃ E, E = m * dt * ((∑ a, w a) ^ 2 * dt / 2 + ∑ a, (|w a| / 2 * (2 * π / n) + |w a| / 6 * (2 * π / n) ^ 2)) ∧
    ((eulerOf (fun u => advectUpwind u (wind d n w) dt) dt)^[m] (waveVariable d n 1 0 fun _ => 1 / 2)).array.Approximates (transportWave w (m * dt)) E := by
  refine ⟨_, rfl, ?_⟩
  have e2 : ∀ a : Fin d, (torus d n).step a = 2 * π / n := fun a => by
    show (2 * π - 0) / (n : ℝ) = _
    rw [sub_zero]
  set c0 := waveVariable d n 1 0 fun _ : Fin d => (1 / 2 : ℚ) with hc0
  have hwp : ∀ a, (wind d n w a).Periodic := fun a => ⟨fun _ => rfl, fun _ => ⟨rfl, hn⟩⟩
  have hst : ∀ k, ((eulerOf (fun u => advectUpwind u (wind d n w) dt) dt)^[k] c0).Periodic ∧ StaggeredPeriodic ((eulerOf (fun u => advectUpwind u (wind d n w) dt) dt)^[k] c0) (wind d n w) := fun k => by
    obtain ⟨h1, h2, h3, h4⟩ := eulerOf_layout (fun u => advectUpwind u (wind d n w) dt) dt c0 k
    refine ⟨⟨by rw [h1]; exact fun _ => rfl, by rw [h2, h4]; exact fun _ => ⟨rfl, hn⟩⟩, fun a => ⟨hwp a, rfl, ?_⟩⟩
    unfold FaceVelocity
    rw [h2, h3, h4]
    exact ⟨rfl, rfl, rfl⟩
  have hdiv := divergence_staggered hd (hst 0).2
  have := C74_upwind hd (fun k => (eulerOf (fun u => advectUpwind u (wind d n w) dt) dt)^[k] c0) (hst 0).1 (torus d n) rfl (torus_valid hn) (wind d n w) (hst 0).2 (fun a _ => w a)
    (fun a _ _ => rfl) (fun a i _ => rfl) _ hdiv (fun i _ => by
      show (∑ a : Fin d, (w a - w a) / (torus d n).step a : ℝ) = 0
      exact Finset.sum_eq_zero fun a _ => by rw [sub_self, zero_div]) dt hdt (fun i _ => by
      refine le_trans (le_of_eq ?_) hcfl
      show dt * (∑ a : Fin d, (max (w a) 0 + max (-w a) 0) / (torus d n).step a : ℝ) = _
      congr 1
      refine Finset.sum_congr rfl fun a _ => ?_
      rw [e2]
      congr 1
      rcases le_total 0 (w a) with h | h
      · rw [max_eq_left h, max_eq_right (by linarith), abs_of_nonneg h, add_zero]
      · rw [max_eq_right h, max_eq_left (by linarith), abs_of_nonpos h, zero_add])
    (fun k => by
      obtain ⟨L, U, W, -, -, -, h⟩ := schemes_staggered hd (hst k).1 (hst k).2 dt
      have h1 := h (false, true) _ rfl
      simp only [if_true, Bool.false_eq_true, if_false] at h1
      refine ⟨_, h1, ?_⟩
      beta_reduce
      rw [Function.iterate_succ_apply']
      exact eulerOf_step h1)
    (transportWave w) _ _ _ _ _ _ _ (transportWave_smooth w) (fun t _ => wave_periodic n _ _) (fun t _ => transportWave_bounds w t) (fun t _ x => transportWave_transport w t x) 0
    (fun i _ => by
      show |wave 1 0 ((torus d n).position (fun _ => 1 / 2) i) - wave 1 (-((∑ a, w a) * 0)) ((torus d n).position (fun _ => 1 / 2) i)| ≤ 0
      rw [mul_zero, neg_zero, sub_self, abs_zero]) m
  simp only [e2] at this
  convert this using 1
  rw [zero_add]
  congr 2
  refine Finset.sum_congr rfl fun a _ => ?_
  rw [abs_one]
  ring

/-- C74 for semi-Lagrangian advection: a run exists for every time step and converges. -/
example (n : ℕ) (hn : 0 < n) (w : Fin d → ℝ) (dt : ℝ) : ∃ c : ℕ → GridVariable d ℝ, c 0 = waveVariable d n 1 0 (fun _ => 1 / 2) ∧
    (∀ k, advectSemilagrangian (c k) (wind d n w) dt = .ok (c (k + 1))) ∧
      ∀ k : ℕ, (c k).array.Approximates (fun x => wave 1 0 fun a => x a - k * dt * w a) (0 + k * ∑ _a : Fin d, |1| * (2 * π / n) ^ 2 / 8) := by
  have e2 : ∀ a : Fin d, (torus d n).step a = 2 * π / n := fun a => by
    show (2 * π - 0) / (n : ℝ) = _
    rw [sub_zero]
  have hwp : ∀ a, (wind d n w a).Periodic := fun a => ⟨fun _ => rfl, fun _ => ⟨rfl, hn⟩⟩
  have hrun : ∀ c : GridVariable d ℝ, c.Periodic → c.array.grid = torus d n → ∃ r, advectSemilagrangian c (wind d n w) dt = .ok r ∧ r.Periodic ∧ r.array.grid = torus d n := fun c hc hg => by
    obtain ⟨r, hr⟩ := C32_succeeds c hc (wind d n w) hwp (fun a => by rw [hg]; rfl) (fun a => by rw [hg]; rfl) dt
    obtain ⟨-, h2, h3, h4, -⟩ := C32_departure_point c (wind d n w) dt r hr (fun a => by rw [hg]; exact ((torus_valid hn).step_pos a).ne')
    exact ⟨r, hr, ⟨by rw [h3]; exact hc.1, fun a => ⟨by rw [h4, h2], by rw [h2]; exact (hc.2 a).2⟩⟩, h2.trans hg⟩
  let step : {c : GridVariable d ℝ // c.Periodic ∧ c.array.grid = torus d n} → {c : GridVariable d ℝ // c.Periodic ∧ c.array.grid = torus d n} :=
    fun c => ⟨(hrun c.1 c.2.1 c.2.2).choose, (hrun c.1 c.2.1 c.2.2).choose_spec.2⟩
  let s : ℕ → {c : GridVariable d ℝ // c.Periodic ∧ c.array.grid = torus d n} := fun k => step^[k] ⟨waveVariable d n 1 0 (fun _ => 1 / 2), waveVariable_periodic hn _ _ _, rfl⟩
  have hs : ∀ k, advectSemilagrangian (s k).1 (wind d n w) dt = .ok (s (k + 1)).1 := fun k => by
    show advectSemilagrangian (s k).1 (wind d n w) dt = .ok (step^[k + 1] _).1
    rw [Function.iterate_succ_apply']
    exact (hrun (s k).1 (s k).2.1 (s k).2.2).choose_spec.1
  refine ⟨fun k => (s k).1, rfl, hs, fun k => ?_⟩
  have := C74_semi_lagrangian (fun k => (s k).1) (waveVariable_periodic hn _ _ _) (torus d n) rfl (torus_valid hn) (wind d n w) hwp w (fun _ _ _ => rfl) dt hs (wave 1 0) (wave_periodic n 1 0)
    (fun _ => |1|) (fun a => wave_smooth 2 1 0 a) 0 (fun i _ => by
      show |wave 1 0 ((torus d n).position (fun _ => 1 / 2) i) - wave 1 0 ((torus d n).position (fun _ => 1 / 2) i)| ≤ 0
      rw [sub_self, abs_zero]) k
  simp only [e2] at this
  exact this

end Fixtures
end JaxCfd
