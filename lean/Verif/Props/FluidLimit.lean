import Verif.Props.ImplicitFluidExamples

/-!
# C76: uniform convergence under refinement
-/

namespace JaxCfd
open Filter Topology
variable {d : ℕ} [HasNan ℝ]

omit [HasNan ℝ] in
/-- The error bound up to a fixed time is a multiple of `ε + dt + η²`. -/
theorem fluidErrorBound_linear (d : ℕ) {diag nu U G₁ G₂ G₃ G₄ H T P τ : ℝ} (hdiag : 0 ≤ diag) (hnu : 0 ≤ nu) (hU : 0 ≤ U) (h1 : 0 ≤ G₁) (h2 : 0 ≤ G₂) (h3 : 0 ≤ G₃) (h4 : 0 ≤ G₄) (hH : 0 ≤ H)
    (hT : 0 ≤ T) (hP : 0 ≤ P) (hτ : 0 ≤ τ) : ∃ C, 0 ≤ C ∧ ∀ η dt t ε, 0 ≤ dt → 0 ≤ ε → 0 ≤ t → t ≤ τ →
      fluidErrorBound d diag nu U G₁ G₂ G₃ G₄ H T P η dt t ε ≤ C * (ε + dt + η ^ 2) := by
  set K := spatialConstant d nu U G₁ G₂ G₃ G₄ H P with hK
  have hK0 : 0 ≤ K := by
    rw [hK]
    unfold spatialConstant
    positivity
  set A := (2 * Real.sqrt d * U + d * G₁ * diag) * (d * G₃ / 24) + Real.sqrt d * (T / 2 + K) with hA
  have hA0 : 0 ≤ A := by positivity
  refine ⟨Real.exp (d * G₁ * τ) * (1 + τ * A) + diag * (d * G₃ / 24), by positivity, fun η dt t ε hdt hε ht htτ => ?_⟩
  refine (fluidErrorBound_mono (d := d) (η := η) hdiag hnu hU h1 h2 h3 h4 hH hT hP hdt hε ht htτ).trans ?_
  unfold fluidErrorBound
  rw [← hK]
  have q1 : (2 * Real.sqrt d * U + d * G₁ * diag) * (d * G₃ * η ^ 2 / 24) + Real.sqrt d * (T * dt / 2 + K * η ^ 2) ≤ A * (ε + dt + η ^ 2) := by
    have a1 : 0 ≤ (2 * Real.sqrt d * U + d * G₁ * diag) * (d * G₃ / 24) * (ε + dt) := by positivity
    have a2 : 0 ≤ Real.sqrt d * (T / 2) * (ε + η ^ 2) := by positivity
    have a3 : 0 ≤ Real.sqrt d * K * (ε + dt) := by positivity
    rw [hA]
    linarith
  have q2 : ε ≤ 1 * (ε + dt + η ^ 2) := by nlinarith [sq_nonneg η]
  have q3 := mul_le_mul_of_nonneg_left q1 hτ
  have q4 := mul_le_mul_of_nonneg_left (add_le_add q2 q3) (Real.exp_pos (d * G₁ * τ)).le
  have q5 : 0 ≤ diag * (d * G₃ / 24) * (ε + dt) := by positivity
  linarith

omit [HasNan ℝ] in
theorem sup_le_rms {g : Grid d ℝ} (hpos : ∀ a, 0 < g.shape a) (w : Fin d → GridVariable d ℝ) (V : Fin d → (Fin d → ℝ) → ℝ) (a : Fin d) {i : Idx d} (hi : InR g.shape i) :
    |(w a).array.data i - V a (g.position (w a).array.offset i)| ≤ Real.sqrt (∏ a, g.shape a : ℕ) * rmsError g w V := by
  have hN : (0 : ℝ) < (∏ a, g.shape a : ℕ) := by exact_mod_cast Finset.prod_pos fun a _ => hpos a
  unfold rmsError
  rw [← Real.sqrt_mul hN.le, mul_div_cancel₀ _ hN.ne', ← Real.sqrt_sq_eq_abs]
  refine Real.sqrt_le_sqrt ?_
  exact (Finset.single_le_sum (f := fun i => ((w a).array.data i - V a (g.position (w a).array.offset i)) ^ 2) (fun _ _ => sq_nonneg _) (mem_box.2 hi)).trans
    (Finset.single_le_sum (f := fun a => ∑ i ∈ box g.shape, ((w a).array.data i - V a (g.position (w a).array.offset i)) ^ 2) (fun _ _ => Finset.sum_nonneg fun _ _ => sq_nonneg _)
      (Finset.mem_univ a))

/-- **C76** Uniform convergence with implicit diffusion. Fix a smooth periodic solution and a time `τ`. Refine grids on the same domain so that the initial errors, the time steps and the squared mesh
sizes, multiplied by the square root of the number of cells, tend to zero. Then the computed velocities converge to the solution, uniformly in space and for all times up to `τ`. No bound on the
computed speeds and no relation between `dt` and the viscosity is assumed. -/
theorem C76_implicit_uniform (hd : d ≠ 0) (g : ℕ → Grid d ℝ) (hg : ∀ j, (g j).Valid) (hdom : ∀ j, (g j).domain = (g 0).domain) (solve : ℕ → PressureSolver d ℝ)
    (hex : ∀ j, ExactSolver (g j) (solve j)) (dsolve : ℕ → (Fin d → GridVariable d ℝ) → ℝ → ℝ → Except Err (Fin d → GridVariable d ℝ)) (hds : ∀ j, ExactDiffusion (g j) (dsolve j))
    (density viscosity : ℝ) (hρ : 0 < density) (hnu : 0 < viscosity) (dt η : ℕ → ℝ) (hdt : ∀ j, 0 ≤ dt j) (forcing : ℕ → Option (ForcingFn d)) (F : Fin d → (Fin d → ℝ) → ℝ)
    (hF : ∀ j, SteadyForcing (g j) (forcing j) F) (V : ℝ → Fin d → (Fin d → ℝ) → ℝ) (p : ℝ → (Fin d → ℝ) → ℝ) (sol : NavierStokesSolution density (density * viscosity) F V p)
    (U G₁ G₂ G₃ G₄ H T S P : ℝ) (sm : ∀ j, SmoothFlow (g j) V p U G₁ G₂ G₃ G₄ H T P) (hS : SteadyCurvature V S) (hη : ∀ j a, (g j).step a ≤ η j) (τ : ℝ) (n : ℕ → ℕ) (hn : ∀ j, n j * dt j ≤ τ)
    (w : ℕ → ℕ → Fin d → GridVariable d ℝ) (hw : ∀ j, PeriodicField (g j) (w j 0)) (hw0 : ∀ j, DivergenceFree (g j) (w j 0))
    (hrun : ∀ j, ∀ k < n j, implicitDiffusionNavierStokes density viscosity (dt j) (solve j) (dsolve j) (some convectLinear) (forcing j) (w j k) = .ok (w j (k + 1)))
    (hlim : Tendsto (fun j => Real.sqrt (∏ a, (g j).shape a : ℕ) * (rmsEnergyError (g j) viscosity (dt j) (w j 0) (V 0) + dt j + η j ^ 2)) atTop (𝓝 0)) (δ : ℝ) (hδ : 0 < δ) :
    ∀ᶠ j in atTop, ∀ k ≤ n j, ∀ a i, InR (g j).shape i → |(w j k a).array.data i - V (k * dt j) a ((g j).position (w j k a).array.offset i)| ≤ δ := by
  have hτ : 0 ≤ τ := (mul_nonneg (Nat.cast_nonneg _) (hdt 0)).trans (hn 0)
  set a₀ : Fin d := ⟨0, Nat.pos_of_ne_zero hd⟩ with ha₀
  have hb0 := (sm 0).bounds 0 le_rfl
  have U0 : 0 ≤ U := (abs_nonneg _).trans (hb0.speed a₀ 0)
  have A1 : 0 ≤ G₁ := (abs_nonneg _).trans ((hb0.first a₀ a₀).2 0)
  have A2 : 0 ≤ G₂ := (abs_nonneg _).trans ((hb0.second a₀ a₀).2 0)
  have A3 : 0 ≤ G₃ := (abs_nonneg _).trans ((hb0.third a₀ a₀).2 0)
  have A4 : 0 ≤ G₄ := (abs_nonneg _).trans (((sm 0).fourth 0 le_rfl a₀ a₀).2 0)
  have AH : 0 ≤ H := (abs_nonneg _).trans ((hb0.mixed a₀ a₀).2 0)
  have AP : 0 ≤ P := (abs_nonneg _).trans (((sm 0).pressure 0 le_rfl a₀).2 0)
  have AT : 0 ≤ T := (abs_nonneg _).trans (((sm 0).time a₀).2 0 0 le_rfl)
  have AS : 0 ≤ S := by
    have := (abs_nonneg _).trans (hS 0 1 le_rfl zero_le_one a₀ a₀ 0)
    simpa using this
  obtain ⟨C, hC0, hC⟩ := fluidErrorBound_linear d (diag := (g 0).diagonal) (nu := viscosity) (U := U + 1) (G₁ := G₁) (G₂ := G₂) (G₃ := G₃) (G₄ := 3 * G₄) (H := H) (T := T + 2 * (viscosity * (d * S)))
    (P := P / density) (τ := τ) (Real.sqrt_nonneg _) hnu.le (by linarith) A1 A2 A3 (by linarith) AH (by positivity) (div_nonneg AP hρ.le) hτ
  set e : ℕ → ℝ := fun j => rmsEnergyError (g j) viscosity (dt j) (w j 0) (V 0) with he
  set M : ℕ → ℝ := fun j => Real.sqrt (∏ a, (g j).shape a : ℕ) with hM
  have he0 : ∀ j, 0 ≤ e j := fun j => Real.sqrt_nonneg _
  have hM1 : ∀ j, 1 ≤ M j := fun j => by
    rw [hM, Real.one_le_sqrt]
    exact_mod_cast Nat.succ_le_of_lt (Finset.prod_pos fun a _ => ((hg j) a).1)
  have hdiag : ∀ j, (g j).diagonal = (g 0).diagonal := fun j => by
    unfold Grid.diagonal
    rw [hdom j]
  have hr : 0 < min 1 δ / (C + 1) := div_pos (lt_min one_pos hδ) (by linarith)
  have hr2 : 0 < 2 * viscosity / (d * (U + 1) ^ 2 + 1) := div_pos (by linarith) (by positivity)
  filter_upwards [hlim.eventually (gt_mem_nhds hr), hlim.eventually (gt_mem_nhds hr2)] with j h1 h2
  have h3 : e j + dt j + η j ^ 2 ≤ M j * (e j + dt j + η j ^ 2) := le_mul_of_one_le_left (add_nonneg (add_nonneg (he0 j) (hdt j)) (sq_nonneg _)) (hM1 j)
  have hc : dt j * (d * (U + 1) ^ 2) ≤ 2 * viscosity := by
    have h4 : dt j ≤ 2 * viscosity / (d * (U + 1) ^ 2 + 1) := by
      have := he0 j
      have := sq_nonneg (η j)
      linarith
    rw [le_div_iff₀ (by positivity)] at h4
    have := hdt j
    linarith
  have hb : ∀ k : ℕ, k ≤ n j → M j * implicitErrorBound d (g j).diagonal viscosity (U + 1) G₁ G₂ G₃ G₄ H T S (P / density) (η j) (dt j) (k * dt j) (e j) ≤ min 1 δ := fun k hk => by
    have h5 : (k : ℝ) * dt j ≤ τ := (mul_le_mul_of_nonneg_right (Nat.cast_le.2 hk) (hdt j)).trans (hn j)
    have h6 := hC (η j) (dt j) (k * dt j) (e j) (hdt j) (he0 j) (mul_nonneg (Nat.cast_nonneg _) (hdt j)) h5
    have h7 := mul_le_mul_of_nonneg_left h6 (zero_le_one.trans (hM1 j))
    unfold implicitErrorBound
    rw [hdiag j]
    refine h7.trans ?_
    have h8 : (M j * (e j + dt j + η j ^ 2)) * (C + 1) ≤ min 1 δ := by
      rw [lt_div_iff₀ (by linarith)] at h1
      exact h1.le
    have h9 : 0 ≤ M j * (e j + dt j + η j ^ 2) := mul_nonneg (zero_le_one.trans (hM1 j)) (add_nonneg (add_nonneg (he0 j) (hdt j)) (sq_nonneg _))
    linarith
  have key := C76_implicit_a_priori hd (g j) (hg j) (solve j) (hex j) (dsolve j) (hds j) density viscosity (dt j) hρ hnu.le (hdt j) (forcing j) F (hF j) V p sol U (U + 1) G₁ G₂ G₃ G₄ H T S P (η j)
    (sm j) hS (hη j) (by linarith) hc (w j) (hw j) (hw0 j) (n j) (by have := (hb (n j) le_rfl).trans (min_le_left _ _); linarith) (hrun j)
  intro k hk a i hi
  refine (sup_le_rms (fun a => ((hg j) a).1) (w j k) (V (k * dt j)) a hi).trans ?_
  exact (mul_le_mul_of_nonneg_left (key k hk).2 (zero_le_one.trans (hM1 j))).trans ((hb k hk).trans (min_le_right _ _))

/-- **C76** Uniform convergence of `semi_implicit_navier_stokes` with explicit diffusion, under the restriction of the time step. -/
theorem C76_uniform (hd : d ≠ 0) (g : ℕ → Grid d ℝ) (hg : ∀ j, (g j).Valid) (hdom : ∀ j, (g j).domain = (g 0).domain) (solve : ℕ → PressureSolver d ℝ)
    (hex : ∀ j, ExactSolver (g j) (solve j)) (density viscosity : ℝ) (hρ : 0 < density) (hnu : 0 ≤ viscosity) (dt η : ℕ → ℝ) (hdt : ∀ j, 0 ≤ dt j) (forcing : ℕ → Option (ForcingFn d))
    (F : Fin d → (Fin d → ℝ) → ℝ) (hF : ∀ j, SteadyForcing (g j) (forcing j) F) (V : ℝ → Fin d → (Fin d → ℝ) → ℝ) (p : ℝ → (Fin d → ℝ) → ℝ) (sol : NavierStokesSolution density viscosity F V p)
    (U₀ U G₁ G₂ G₃ G₄ H T P : ℝ) (hUU : U₀ < U) (sm : ∀ j, SmoothFlow (g j) V p U₀ G₁ G₂ G₃ G₄ H T P) (hη : ∀ j a, (g j).step a ≤ η j)
    (hc : ∀ j, dt j * (4 * (viscosity / density) ^ 2 * ∑ a, 1 / (g j).step a ^ 2 + d * U ^ 2) ≤ viscosity / density) (τ : ℝ) (n : ℕ → ℕ) (hn : ∀ j, n j * dt j ≤ τ)
    (w : ℕ → ℕ → Fin d → GridVariable d ℝ) (hw : ∀ j, PeriodicField (g j) (w j 0)) (hw0 : ∀ j, DivergenceFree (g j) (w j 0))
    (hrun : ∀ j, ∀ k < n j, semiImplicitNavierStokes density (some viscosity) (dt j) (solve j) (some convectLinear) diffuse (forcing j) forwardEuler (w j k) = .ok (w j (k + 1)))
    (hlim : Tendsto (fun j => Real.sqrt (∏ a, (g j).shape a : ℕ) * (rmsError (g j) (w j 0) (V 0) + dt j + η j ^ 2)) atTop (𝓝 0)) (δ : ℝ) (hδ : 0 < δ) :
    ∀ᶠ j in atTop, ∀ k ≤ n j, ∀ a i, InR (g j).shape i → |(w j k a).array.data i - V (k * dt j) a ((g j).position (w j k a).array.offset i)| ≤ δ := by
  have hτ : 0 ≤ τ := (mul_nonneg (Nat.cast_nonneg _) (hdt 0)).trans (hn 0)
  set a₀ : Fin d := ⟨0, Nat.pos_of_ne_zero hd⟩ with ha₀
  have hb0 := (sm 0).bounds 0 le_rfl
  have U0 : 0 ≤ U₀ := (abs_nonneg _).trans (hb0.speed a₀ 0)
  have A1 : 0 ≤ G₁ := (abs_nonneg _).trans ((hb0.first a₀ a₀).2 0)
  have A2 : 0 ≤ G₂ := (abs_nonneg _).trans ((hb0.second a₀ a₀).2 0)
  have A3 : 0 ≤ G₃ := (abs_nonneg _).trans ((hb0.third a₀ a₀).2 0)
  have A4 : 0 ≤ G₄ := (abs_nonneg _).trans (((sm 0).fourth 0 le_rfl a₀ a₀).2 0)
  have AH : 0 ≤ H := (abs_nonneg _).trans ((hb0.mixed a₀ a₀).2 0)
  have AP : 0 ≤ P := (abs_nonneg _).trans (((sm 0).pressure 0 le_rfl a₀).2 0)
  have AT : 0 ≤ T := (abs_nonneg _).trans (((sm 0).time a₀).2 0 0 le_rfl)
  obtain ⟨C, hC0, hC⟩ := fluidErrorBound_linear d (diag := (g 0).diagonal) (nu := viscosity / density) (U := U) (G₁ := G₁) (G₂ := G₂) (G₃ := G₃) (G₄ := G₄) (H := H) (T := T)
    (P := P / density) (τ := τ) (Real.sqrt_nonneg _) (div_nonneg hnu hρ.le) (by linarith) A1 A2 A3 A4 AH AT (div_nonneg AP hρ.le) hτ
  set e : ℕ → ℝ := fun j => rmsError (g j) (w j 0) (V 0) with he
  set M : ℕ → ℝ := fun j => Real.sqrt (∏ a, (g j).shape a : ℕ) with hM
  have he0 : ∀ j, 0 ≤ e j := fun j => Real.sqrt_nonneg _
  have hM0 : ∀ j, 0 ≤ M j := fun j => Real.sqrt_nonneg _
  have hdiag : ∀ j, (g j).diagonal = (g 0).diagonal := fun j => by
    unfold Grid.diagonal
    rw [hdom j]
  have hr : 0 < min (U - U₀) δ / (C + 1) := div_pos (lt_min (by linarith) hδ) (by linarith)
  filter_upwards [hlim.eventually (gt_mem_nhds hr)] with j h1
  have hb : ∀ k : ℕ, k ≤ n j → M j * fluidErrorBound d (g j).diagonal (viscosity / density) U G₁ G₂ G₃ G₄ H T (P / density) (η j) (dt j) (k * dt j) (e j) ≤ min (U - U₀) δ := fun k hk => by
    have h5 : (k : ℝ) * dt j ≤ τ := (mul_le_mul_of_nonneg_right (Nat.cast_le.2 hk) (hdt j)).trans (hn j)
    have h6 := hC (η j) (dt j) (k * dt j) (e j) (hdt j) (he0 j) (mul_nonneg (Nat.cast_nonneg _) (hdt j)) h5
    have h7 := mul_le_mul_of_nonneg_left h6 (hM0 j)
    rw [hdiag j]
    refine h7.trans ?_
    have h8 : (M j * (e j + dt j + η j ^ 2)) * (C + 1) ≤ min (U - U₀) δ := by
      rw [lt_div_iff₀ (by linarith)] at h1
      exact h1.le
    have h9 : 0 ≤ M j * (e j + dt j + η j ^ 2) := mul_nonneg (hM0 j) (add_nonneg (add_nonneg (he0 j) (hdt j)) (sq_nonneg _))
    linarith
  have key := C76_navier_stokes_a_priori hd (g j) (hg j) (solve j) (hex j) density viscosity (dt j) hρ hnu (hdt j) (forcing j) F (hF j) V p sol U₀ U G₁ G₂ G₃ G₄ H T P (η j)
    (sm j) (hη j) hUU.le (hc j) (w j) (hw j) (hw0 j) (n j) ((hb (n j) le_rfl).trans (min_le_left _ _)) (hrun j)
  intro k hk a i hi
  refine (sup_le_rms (fun a => ((hg j) a).1) (w j k) (V (k * dt j)) a hi).trans ?_
  exact (mul_le_mul_of_nonneg_left (key k hk).2 (hM0 j)).trans ((hb k hk).trans (min_le_right _ _))

namespace Fixtures
open Real

/-- C76 for a wave of amplitude 1 on a stream in two dimensions: `(j + 3)²` steps up to time `τ` on `(j + 3)²` cells, with the conjugate gradient pressure solver (zero tolerances) and the default
diffusion solver. The runs exist and converge uniformly. -/
example (tpu : Bool) (eigh : EighFn ℝ) (heigh : ∀ m, m.Symmetric → IsEigh m (eigh m)) (nu τ : ℝ) (hnu : 0 < nu) (hτ : 0 ≤ τ) :
    ∃ w : ℕ → ℕ → Fin 2 → GridVariable 2 ℝ, (∀ j, w j 0 = samplesOn (torus 2 (j + 3)) (stream ![1, -1] ![1, -1] nu 0)) ∧
      (∀ j k : ℕ, implicitDiffusionNavierStokes 1 nu (τ / ((j : ℝ) + 3) ^ 2) (fun v q0 bc => pressureCG ⟨0, 0, none⟩ v q0 (some bc)) (fun u nu dt => diffusionFastDiag tpu eigh u nu dt none) (some convectLinear)
        none (w j k) = .ok (w j (k + 1))) ∧
      ∀ δ > 0, ∀ᶠ j : ℕ in atTop, ∀ k ≤ (j + 3) ^ 2, ∀ a i, InR (torus 2 (j + 3)).shape i →
        |(w j k a).array.data i - stream ![1, -1] ![1, -1] nu (k * (τ / ((j : ℝ) + 3) ^ 2)) a ((torus 2 (j + 3)).position (w j k a).array.offset i)| ≤ δ := by
  have hs := fun j => C69_exact_solver two_ne_zero (torus 2 (j + 3)) (fun _ => Nat.succ_pos _) none (fun m hm => by simp at hm)
  have hds := fun j => C56_default_diffusion two_ne_zero (torus 2 (j + 3)) (fun _ => Nat.le_add_left 3 j) (fun _ => by show (0 : ℝ) < 2 * π; positivity) tpu eigh heigh
  have hdt : ∀ j : ℕ, 0 ≤ τ / ((j : ℝ) + 3) ^ 2 := fun j => by positivity
  choose w hw0 hw using fun j => C76_implicit_run_exists two_ne_zero (torus 2 (j + 3)) (torus_valid (Nat.succ_pos _)) _ (hs j) _ (hds j) 1 nu (τ / ((j : ℝ) + 3) ^ 2) (mul_nonneg hnu.le (hdt j)) none
    (fun _ _ => 0) (fun _ _ => rfl) (samplesOn (torus 2 (j + 3)) (stream ![1, -1] ![1, -1] nu 0)) (samplesOn_field _ _)
  refine ⟨w, hw0, hw, fun δ hδ => ?_⟩
  have hα : ∑ a, (![1, -1] : Fin 2 → ℝ) a = 0 := by simp
  have sol := stream_solution ![1, -1] ![1, -1] 1 (1 * nu) hα hα
  rw [div_one, one_mul] at sol
  have hα1 : ∀ a, |(![1, -1] : Fin 2 → ℝ) a| ≤ 1 := fun a => by fin_cases a <;> simp
  have e0 : ∀ j : ℕ, rmsEnergyError (torus 2 (j + 3)) nu (τ / ((j : ℝ) + 3) ^ 2) (w j 0) (stream ![1, -1] ![1, -1] nu 0) = 0 := fun j => by
    rw [hw0, rmsEnergyError_eq (samplesOn_field _ _)]
    simp [enorm, gn, n2, l2, dGrad]
  have eM : ∀ j : ℕ, √(∏ a, (torus 2 (j + 3)).shape a : ℕ) = (j : ℝ) + 3 := fun j => by
    have : (∏ a, (torus 2 (j + 3)).shape a) = (j + 3) * (j + 3) := Fin.prod_univ_two _
    rw [this]
    push_cast
    exact sqrt_mul_self (by positivity)
  refine C76_implicit_uniform two_ne_zero (fun j => torus 2 (j + 3)) (fun j => torus_valid (Nat.succ_pos _)) (fun _ => rfl) _ hs _ hds 1 nu one_pos hnu (fun j => τ / ((j : ℝ) + 3) ^ 2)
    (fun j => 2 * π / (j + 3)) hdt (fun _ => none) (fun _ _ => 0) (fun _ _ _ => rfl) _ _ (by rw [one_mul]; exact sol) (1 + 1) 1 1 1 1 1 _ _ 0 (fun j => stream_flow (j + 3) _ _ hnu.le hα1 hα1)
    (stream_curvature _ _ hnu.le hα1) (fun j a => le_of_eq (by rw [torus_step]; push_cast; rfl)) τ (fun j => (j + 3) ^ 2) (fun j => le_of_eq (by push_cast; field_simp)) w
    (fun j => by rw [hw0]; exact samplesOn_field _ _) (fun j => by rw [hw0]; exact stream_divergence two_ne_zero (Nat.succ_pos _) _ _ _ _ hα) (fun j k _ => hw j k) ?_ δ hδ
  have e1 : (fun j : ℕ => √(∏ a, (torus 2 (j + 3)).shape a : ℕ) * (rmsEnergyError (torus 2 (j + 3)) nu (τ / ((j : ℝ) + 3) ^ 2) (w j 0) (stream ![1, -1] ![1, -1] nu 0) + τ / ((j : ℝ) + 3) ^ 2 +
      (2 * π / ((j : ℝ) + 3)) ^ 2)) = fun j : ℕ => (τ + (2 * π) ^ 2) / ((j + 3 : ℕ) : ℝ) := by
    funext j
    rw [e0, eM]
    have : ((j : ℝ) + 3) ≠ 0 := by positivity
    push_cast
    field_simp
    ring
  rw [e1]
  exact (tendsto_const_div_atTop_nhds_zero_nat _).comp (tendsto_add_atTop_nat 3)

end Fixtures
end JaxCfd
