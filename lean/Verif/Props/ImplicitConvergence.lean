import Verif.Lemmas.ImplicitFluidStep
import Verif.Props.FluidConvergence
import Verif.Props.ImplicitNS

/-!
# C76: convergence of the method with implicit diffusion
-/

namespace JaxCfd
variable {d : ℕ} [HasNan ℝ]

/-- One step of `implicit_diffusion_navier_stokes` with `convect_linear`. -/
theorem implicit_step_closed (hd : d ≠ 0) {g : Grid d ℝ} (hs : ∀ a, 0 < g.shape a) {solve : PressureSolver d ℝ} (hex : ExactSolver g solve)
    {dsolve : (Fin d → GridVariable d ℝ) → ℝ → ℝ → Except Err (Fin d → GridVariable d ℝ)} (hds : ExactDiffusion g dsolve) {density viscosity dt : ℝ} (hc : 0 ≤ viscosity * dt)
    {forcing : Option (ForcingFn d)} {F : Fin d → (Fin d → ℝ) → ℝ} (hF : SteadyForcing g forcing F) {v : Fin d → GridVariable d ℝ} (hv : PeriodicField g v) :
    ∃ w r, implicitDiffusionNavierStokes density viscosity dt solve dsolve (some convectLinear) forcing v = .ok w ∧ PeriodicField g w ∧
      (∀ a i, InR g.shape i → fieldData w a i - dt * viscosity * dLap g.shape g.step (fieldData w a) i = fieldData v a i + dt * (-conv g.shape g.step (fieldData v) (fieldData v) a i +
        F a (g.position (fun b => if b = a then 1 else 1 / 2) i) / density) - dGrad g.shape g.step r a i) ∧ ∀ i, InR g.shape i → dDiv g.shape g.step (fieldData w) i = 0 := by
  have hcv := convectLinear_closed hd hs hv
  set c : Fin d → GridArray d ℝ := fun i => ⟨⟨g.shape, fun x => -∑ a, (lerp ℝ g.shape a (1 / 2) (v i).array.data x * lerp ℝ g.shape i (1 / 2) (v a).array.data x -
      lerp ℝ g.shape a (1 / 2) (v i).array.data (rollIdx g.shape a (-1) x) * lerp ℝ g.shape i (1 / 2) (v a).array.data (rollIdx g.shape a (-1) x)) / g.step a⟩, (v i).array.offset, g⟩ with hcd
  have hcl : ∀ a i, InR g.shape i → (c a).data i = -conv g.shape g.step (fieldData v) (fieldData v) a i := fun a i hi => by
    rw [← conv_lerp _ _ a hi]
    rfl
  -- the explicit part
  have hu : ∃ u : Fin d → GridVariable d ℝ, SameLayout v u ∧ (∀ a i, InR g.shape i → fieldData u a i = fieldData v a i + dt * (-conv g.shape g.step (fieldData v) (fieldData v) a i +
        F a (g.position (fun b => if b = a then 1 else 1 / 2) i) / density)) ∧
      ∀ p w, projection u solve = .ok p → dsolve p viscosity dt = .ok w → implicitDiffusionNavierStokes density viscosity dt solve dsolve (some convectLinear) forcing v = .ok w := by
    cases forcing with
    | none =>
      refine ⟨fun a => ⟨⟨⟨(v a).array.shape, fun i => (v a).array.data i + (c a).data i * dt⟩, (v a).array.offset, (v a).array.grid⟩, (v a).bc⟩, fun a => ⟨rfl, rfl, rfl, rfl⟩,
        fun a i hi => ?_, fun p w hp hw => ((C56_implicit_step density viscosity dt solve dsolve convectLinear (fun _ => .error .value) v w).2).2
          ⟨c, fun a => ⟨⟨⟨(v a).array.shape, fun i => (v a).array.data i + (c a).data i * dt⟩, (v a).array.offset, (v a).array.grid⟩, (v a).bc⟩, p, hcv,
            fun a => ⟨fun x hx => ?_, rfl, fun i => rfl⟩, hp, hw⟩⟩
      · show (v a).array.data i + (c a).data i * dt = _
        rw [hcl a i hi, hF a, zero_div, add_zero, mul_comm]
        rfl
      · simp only [List.mem_cons, List.not_mem_nil, or_false] at hx
        rcases hx with rfl | rfl
        · exact ⟨rfl, rfl, rfl⟩
        · exact ⟨rfl, (hv.1 a).1.symm, (hv.1 a).2.1.symm⟩
    | some f =>
      obtain ⟨Φ, hΦ, hΦl⟩ := hF v hv
      refine ⟨fun a => ⟨⟨⟨(v a).array.shape, fun i => (v a).array.data i + ((c a).data i + (Φ a).data i / density) * dt⟩, (v a).array.offset, (v a).array.grid⟩, (v a).bc⟩,
        fun a => ⟨rfl, rfl, rfl, rfl⟩, fun a i hi => ?_, fun p w hp hw => ((C56_implicit_step density viscosity dt solve dsolve convectLinear f v w).1).2
          ⟨c, Φ, fun a => ⟨⟨⟨(v a).array.shape, fun i => (v a).array.data i + ((c a).data i + (Φ a).data i / density) * dt⟩, (v a).array.offset, (v a).array.grid⟩, (v a).bc⟩, p, hcv, hΦ,
            fun a => ⟨fun x hx => ?_, rfl, fun i => rfl⟩, hp, hw⟩⟩
      · show (v a).array.data i + ((c a).data i + (Φ a).data i / density) * dt = _
        rw [hcl a i hi, (hΦl a).2.2.2 i (by rw [(hΦl a).2.1]; exact hi), (hΦl a).1, (hΦl a).2.2.1, hv.offset a, mul_comm]
        rfl
      · simp only [List.mem_cons, List.not_mem_nil, or_false] at hx
        rcases hx with rfl | rfl | rfl
        · exact ⟨rfl, rfl, rfl⟩
        · exact ⟨rfl, (hv.1 a).1.symm, (hv.1 a).2.1.symm⟩
        · exact ⟨(hΦl a).2.2.1, (hΦl a).1.trans (hv.1 a).1.symm, (hΦl a).2.1.trans (hv.1 a).2.1.symm⟩
  obtain ⟨u, hul, hud, hstep⟩ := hu
  obtain ⟨p, q, hp, hpl, hpf, hpe, hp0⟩ := projection_gradient hd hs hex (hul.periodicField hv)
  obtain ⟨w, hw, hb⟩ := hds p viscosity dt hpf hc
  obtain ⟨h1, h2, -⟩ := implicit_diffusion_invariants hd hs hc hpf hb
  have hwf := h1.periodicField hpf
  have hpd : DivergenceFree g p := ⟨_, hpf.divergence hd hs, fun i hi => hp0 i hi⟩
  refine ⟨w, q, hstep p w hp hw, hwf, fun a i hi => ?_, divergenceFree_dDiv hd hs hwf (h2 hpd)⟩
  have := ((hb a).periodic (hpf.periodic hs a) i (by rw [(hpf.1 a).2.1]; exact hi)).2
  rw [(hpf.1 a).2.1, (hpf.1 a).1] at this
  rw [← hud a i hi, ← hpe a i hi]
  rw [mul_comm dt viscosity]
  exact this

/-- The discrete Laplacian of the samples of a smooth periodic function. -/
theorem samples_laplacian {g : Grid d ℝ} (hg : g.Valid) {V : Fin d → (Fin d → ℝ) → ℝ} (hV : ∀ a, PeriodicOn g (V a)) {G₄ η : ℝ} (h4 : ∀ a b, SmoothAlong 4 a G₄ (V b)) (hη : ∀ a, g.step a ≤ η)
    (a : Fin d) {i : Idx d} (hi : InR g.shape i) :
    |dLap g.shape g.step (fieldData (samplesOn g V) a) i - ∑ b, partialDeriv 2 b (V a) (g.position (fun b => if b = a then 1 else 1 / 2) i)| ≤ d * G₄ / 12 * η ^ 2 := by
  have hv := samplesOn_field g V
  have hpos : ∀ a, 0 < g.shape a := fun a => (hg a).1
  have A4 : 0 ≤ G₄ := (abs_nonneg _).trans ((h4 a a).2 0)
  obtain ⟨r, hr, h1, h2, h3, h4'⟩ := C73_laplacian (hv.periodic hpos a) (by rw [(hv.1 a).1]; exact hg) (by rw [(hv.1 a).1]; exact hV a) (fun _ _ => rfl) (fun _ => G₄) (fun b => h4 b a)
  rw [laplacian_periodic (hv.periodic hpos a)] at hr
  obtain rfl := Except.ok.inj hr
  have d1 := h4' i (by rw [h2, (hv.1 a).2.1]; exact hi)
  rw [h1, h3, (hv.1 a).1, hv.offset a] at d1
  have d2 : (lapP (samplesOn g V a)).data i = dLap g.shape g.step (fieldData (samplesOn g V) a) i := by
    show (∑ b : Fin d, _ : ℝ) = _
    rw [(hv.1 a).1, (hv.1 a).2.1]
    rfl
  rw [← d2]
  refine le_trans d1 ((Finset.sum_le_sum (g := fun _ => G₄ / 12 * η ^ 2) fun b _ => ?_).trans (le_of_eq ?_))
  · have := mul_le_mul_of_nonneg_left (pow_le_pow_left₀ (hg.step_pos b).le (hη b) 2) A4
    linarith
  · rw [Finset.sum_const, Finset.card_univ, Fintype.card_fin, nsmul_eq_mul]
    ring

/-- How well the samples of the exact solution satisfy the discrete equations with implicit diffusion. -/
theorem implicit_truncation (hd : d ≠ 0) {g : Grid d ℝ} (hg : g.Valid) {density viscosity dt : ℝ} (hρ : 0 < density) (hnu : 0 ≤ viscosity) (hdt : 0 ≤ dt) {forcing : Option (ForcingFn d)}
    {F : Fin d → (Fin d → ℝ) → ℝ} (hF : SteadyForcing g forcing F) {V : ℝ → Fin d → (Fin d → ℝ) → ℝ} {p : ℝ → (Fin d → ℝ) → ℝ} (sol : NavierStokesSolution density viscosity F V p)
    {U G₁ G₂ G₃ G₄ H T S P η : ℝ} (sm : SmoothFlow g V p U G₁ G₂ G₃ G₄ H T P) (hS : SteadyCurvature V S) (hη : ∀ a, g.step a ≤ η) {t : ℝ} (ht : 0 ≤ t) (a : Fin d) (i : Idx d)
    (hi : InR g.shape i) :
    |fieldData (samplesOn g (V (t + dt))) a i - dt * (viscosity / density) * dLap g.shape g.step (fieldData (samplesOn g (V (t + dt))) a) i -
      (fieldData (samplesOn g (V t)) a i + dt * (-conv g.shape g.step (fieldData (samplesOn g (V t))) (fieldData (samplesOn g (V t))) a i +
      F a (g.position (fun b => if b = a then 1 else 1 / 2) i) / density - dGrad g.shape g.step (atCentres g fun x => density⁻¹ * p t x) a i))| ≤
      dt * ((T + 2 * (viscosity / density * (d * S))) * dt / 2 + spatialConstant d (viscosity / density) U G₁ G₂ G₃ (3 * G₄) H (P / density) * η ^ 2) := by
  have e1 := fluid_truncation hd hg hρ hnu hdt hF sol sm hη ht a i hi
  have ht' := add_nonneg ht hdt
  have l1 := samples_laplacian hg (sm.periodic t ht) (sm.fourth t ht) hη a hi
  have l2 := samples_laplacian hg (sm.periodic _ ht') (sm.fourth _ ht') hη a hi
  set x := g.position (fun b => if b = a then 1 else 1 / 2) i with hx
  have l3 : |∑ b, partialDeriv 2 b (V (t + dt) a) x - ∑ b, partialDeriv 2 b (V t a) x| ≤ d * (S * dt) := by
    rw [← Finset.sum_sub_distrib]
    refine (Finset.abs_sum_le_sum_abs _ _).trans ((Finset.sum_le_sum (g := fun _ => S * dt) fun b _ => ?_).trans (le_of_eq ?_))
    · have := hS t (t + dt) ht ht' a b x
      rwa [add_sub_cancel_left, abs_of_nonneg hdt] at this
    · rw [Finset.sum_const, Finset.card_univ, Fintype.card_fin, nsmul_eq_mul]
  set A := dLap g.shape g.step (fieldData (samplesOn g (V t)) a) i
  set B := dLap g.shape g.step (fieldData (samplesOn g (V (t + dt))) a) i
  have l4 : |B - A| ≤ d * (S * dt) + d * G₄ / 6 * η ^ 2 := by
    rw [abs_le] at l1 l2 l3 ⊢
    constructor <;> linarith [l1.1, l1.2, l2.1, l2.2, l3.1, l3.2]
  have hn : 0 ≤ dt * (viscosity / density) := mul_nonneg hdt (div_nonneg hnu hρ.le)
  have l5 : |dt * (viscosity / density) * (B - A)| ≤ dt * (viscosity / density) * (d * (S * dt) + d * G₄ / 6 * η ^ 2) := by
    rw [abs_mul, abs_of_nonneg hn]
    exact mul_le_mul_of_nonneg_left l4 hn
  have e : dt * ((T + 2 * (viscosity / density * (d * S))) * dt / 2 + spatialConstant d (viscosity / density) U G₁ G₂ G₃ (3 * G₄) H (P / density) * η ^ 2) =
      dt * (T * dt / 2 + spatialConstant d (viscosity / density) U G₁ G₂ G₃ G₄ H (P / density) * η ^ 2) + dt * (viscosity / density) * (d * (S * dt) + d * G₄ / 6 * η ^ 2) := by
    unfold spatialConstant
    ring
  rw [e]
  rw [abs_le] at e1 l5 ⊢
  constructor <;> linarith [e1.1, e1.2, l5.1, l5.2]

theorem rmsEnergyError_eq {g : Grid d ℝ} {w : Fin d → GridVariable d ℝ} (hw : PeriodicField g w) {nu dt : ℝ} (V : Fin d → (Fin d → ℝ) → ℝ) :
    rmsEnergyError g nu dt w V = enorm g.shape g.step (dt * nu) (fun a i => fieldData w a i - fieldData (samplesOn g V) a i) / Real.sqrt (box g.shape).card := by
  unfold rmsEnergyError enorm
  rw [← Real.sqrt_div' _ (Nat.cast_nonneg _), rmsError_eq hw, div_pow, Real.sq_sqrt (Nat.cast_nonneg _)]
  congr 1
  have : rmsGradientError g w V ^ 2 = gn g.shape g.step (fun a i => fieldData w a i - fieldData (samplesOn g V) a i) ^ 2 / (box g.shape).card := by
    unfold rmsGradientError
    rw [Real.sq_sqrt (by positivity), gn_sq, ← box_card]
    congr 1
    refine Finset.sum_congr rfl fun a _ => ?_
    rw [n2_sq']
    refine Finset.sum_congr rfl fun b _ => Finset.sum_congr rfl fun i _ => ?_
    rw [hw.offset a]
    rfl
  rw [this]
  ring

/-- The recursion of the proof: an error that grows by a factor `1 + dt L` and by `dt K` per step grows at most exponentially. -/
theorem exponential_growth {E : ℕ → ℝ} {dt L K : ℝ} {n : ℕ} (hdt : 0 ≤ dt) (hL : 0 ≤ L) (hK : 0 ≤ K) (hE : ∀ k, 0 ≤ E k) (hrec : ∀ k, k < n → E (k + 1) ≤ (1 + dt * L) * E k + dt * K) :
    ∀ k, k ≤ n → E k ≤ Real.exp (L * (k * dt)) * (E 0 + k * dt * K) := fun k => by
  induction k with
  | zero => intro _; simp
  | succ k ih =>
    intro hk
    have h1 := hrec k hk
    have h2 := ih (by omega)
    have h3 : 1 + dt * L ≤ Real.exp (dt * L) := by
      have := Real.add_one_le_exp (dt * L)
      linarith
    have e1 : Real.exp (L * ((k + 1 : ℕ) * dt)) = Real.exp (dt * L) * Real.exp (L * (k * dt)) := by
      rw [← Real.exp_add]
      congr 1
      push_cast
      ring
    have h4 : 1 ≤ Real.exp (L * ((k + 1 : ℕ) * dt)) := Real.one_le_exp (by positivity)
    have hE0 : 0 ≤ E 0 := hE 0
    have h5 : (1 + dt * L) * E k ≤ Real.exp (dt * L) * (Real.exp (L * (k * dt)) * (E 0 + k * dt * K)) := mul_le_mul h3 h2 (hE k) (Real.exp_pos _).le
    have h6 : dt * K ≤ Real.exp (L * ((k + 1 : ℕ) * dt)) * (dt * K) := le_mul_of_one_le_left (by positivity) h4
    rw [e1] at h6 ⊢
    push_cast
    calc E (k + 1) ≤ _ := h1
      _ ≤ _ := add_le_add h5 h6
      _ = _ := by ring

/-- **C76** The method with implicit diffusion converges to the solution of the incompressible Navier-Stokes equations whose kinematic viscosity is `viscosity` (not `viscosity / density`), without a
restriction of the time step by the diffusion. A run of `implicit_diffusion_navier_stokes` with `convect_linear`, a steady forcing and exact pressure and diffusion solvers starts from a
divergence-free velocity. As long as the computed speeds stay below `U` and `dt d U² ≤ 2 ν`, the root mean square error after `n` steps is at most `implicitErrorBound`: the initial error (of the
velocity and, weighted with `2 dt ν`, of its difference quotients) grows at most like `exp(d G₁ n dt)`, and the rest is first order in `dt` and second order in the mesh size. -/
theorem C76_implicit_diffusion (hd : d ≠ 0) (g : Grid d ℝ) (hg : g.Valid) (solve : PressureSolver d ℝ) (hex : ExactSolver g solve)
    (dsolve : (Fin d → GridVariable d ℝ) → ℝ → ℝ → Except Err (Fin d → GridVariable d ℝ)) (hds : ExactDiffusion g dsolve) (density viscosity dt : ℝ) (hρ : 0 < density) (hnu : 0 ≤ viscosity)
    (hdt : 0 ≤ dt) (forcing : Option (ForcingFn d)) (F : Fin d → (Fin d → ℝ) → ℝ) (hF : SteadyForcing g forcing F) (V : ℝ → Fin d → (Fin d → ℝ) → ℝ) (p : ℝ → (Fin d → ℝ) → ℝ)
    (sol : NavierStokesSolution density (density * viscosity) F V p) (U G₁ G₂ G₃ G₄ H T S P η : ℝ) (sm : SmoothFlow g V p U G₁ G₂ G₃ G₄ H T P) (hS : SteadyCurvature V S)
    (hη : ∀ a, g.step a ≤ η) (hc : dt * (d * U ^ 2) ≤ 2 * viscosity)
    (w : ℕ → Fin d → GridVariable d ℝ) (hw : PeriodicField g (w 0)) (hw0 : DivergenceFree g (w 0)) (n : ℕ)
    (hrun : ∀ k < n, implicitDiffusionNavierStokes density viscosity dt solve dsolve (some convectLinear) forcing (w k) = .ok (w (k + 1)))
    (hspeed : ∀ k < n, ∀ a i, InR g.shape i → |(w k a).array.data i| ≤ U) :
    rmsError g (w n) (V (n * dt)) ≤ implicitErrorBound d g.diagonal viscosity U G₁ G₂ G₃ G₄ H T S (P / density) η dt (n * dt) (rmsEnergyError g viscosity dt (w 0) (V 0)) := by
  unfold implicitErrorBound fluidErrorBound
  have hpos : ∀ a, 0 < g.shape a := fun a => (hg a).1
  have hcn : 0 ≤ dt * viscosity := mul_nonneg hdt hnu
  have hcn' : 0 ≤ viscosity * dt := mul_nonneg hnu hdt
  have hvd : density * viscosity / density = viscosity := mul_div_cancel_left₀ _ hρ.ne'
  -- the run
  have hlay : ∀ k, k ≤ n → PeriodicField g (w k) ∧ (∀ i, InR g.shape i → dDiv g.shape g.step (fieldData (w k)) i = 0) := fun k => by
    induction k with
    | zero => exact fun _ => ⟨hw, divergenceFree_dDiv hd hpos hw hw0⟩
    | succ k ih =>
      intro hk
      obtain ⟨w', r, h1, h2, -, h4⟩ := implicit_step_closed (density := density) hd hpos hex hds hcn' hF (ih (by omega)).1
      rw [hrun k (by omega)] at h1
      obtain rfl := Except.ok.inj h1
      exact ⟨h2, h4⟩
  have hstep : ∀ k, k < n → ∃ r, ∀ a i, InR g.shape i → fieldData (w (k + 1)) a i - dt * viscosity * dLap g.shape g.step (fieldData (w (k + 1)) a) i =
      fieldData (w k) a i + dt * (-conv g.shape g.step (fieldData (w k)) (fieldData (w k)) a i + F a (g.position (fun b => if b = a then 1 else 1 / 2) i) / density) -
        dGrad g.shape g.step r a i := fun k hk => by
    obtain ⟨w', r, h1, -, h3, -⟩ := implicit_step_closed (density := density) hd hpos hex hds hcn' hF (hlay k hk.le).1
    rw [hrun k hk] at h1
    obtain rfl := Except.ok.inj h1
    exact ⟨r, h3⟩
  -- the projections of the exact solution
  have hproj : ∀ k : ℕ, ∃ (vt : Fin d → Idx d → ℝ) (q : Idx d → ℝ), (∀ a i, InR g.shape i → vt a i = fieldData (samplesOn g (V (k * dt))) a i - dGrad g.shape g.step q a i) ∧
      ∀ i, InR g.shape i → dDiv g.shape g.step vt i = 0 := fun k => by
    obtain ⟨vt, q, -, -, -, h1, h2⟩ := projection_gradient hd hpos hex (samplesOn_field g (V (k * dt)))
    exact ⟨fieldData vt, q, h1, h2⟩
  choose vt q hvt hvt0 using hproj
  have ht : ∀ k : ℕ, 0 ≤ (k : ℝ) * dt := fun k => mul_nonneg (Nat.cast_nonneg k) hdt
  set a₀ : Fin d := ⟨0, Nat.pos_of_ne_zero hd⟩ with ha₀
  have hb0 := sm.bounds 0 le_rfl
  have U0 : 0 ≤ U := (abs_nonneg _).trans (hb0.speed a₀ 0)
  have A1 : 0 ≤ G₁ := (abs_nonneg _).trans ((hb0.first a₀ a₀).2 0)
  have A2 : 0 ≤ G₂ := (abs_nonneg _).trans ((hb0.second a₀ a₀).2 0)
  have A3 : 0 ≤ G₃ := (abs_nonneg _).trans ((hb0.third a₀ a₀).2 0)
  have A4 : 0 ≤ G₄ := (abs_nonneg _).trans ((sm.fourth 0 le_rfl a₀ a₀).2 0)
  have AH : 0 ≤ H := (abs_nonneg _).trans ((hb0.mixed a₀ a₀).2 0)
  have AP : 0 ≤ P := (abs_nonneg _).trans ((sm.pressure 0 le_rfl a₀).2 0)
  have AT : 0 ≤ T := (abs_nonneg _).trans ((sm.time a₀).2 0 0 le_rfl)
  have AS : 0 ≤ S := by
    have := (abs_nonneg _).trans (hS 0 1 le_rfl zero_le_one a₀ a₀ 0)
    simpa using this
  set τ := (T + 2 * (viscosity * (d * S))) * dt / 2 + spatialConstant d viscosity U G₁ G₂ G₃ (3 * G₄) H (P / density) * η ^ 2 with hτd
  have hτ : 0 ≤ τ := by
    have : 0 ≤ P / density := div_nonneg AP hρ.le
    rw [hτd]
    unfold spatialConstant
    positivity
  set N := Real.sqrt (box g.shape).card with hN
  have hN' : 0 < N := Real.sqrt_pos.2 (by
    rw [box_card]
    exact_mod_cast Finset.prod_pos fun a _ => hpos a)
  set D := d * G₃ * η ^ 2 / 24 with hD
  have hD0 : 0 ≤ D := by positivity
  have hdiv : ∀ k : ℕ, l2 (box g.shape) (dDiv g.shape g.step (fieldData (samplesOn g (V (k * dt))))) ≤ D * N := fun k => by
    refine (samples_divergence hd hg (sm.periodic _ (ht k)) (M := fun _ => G₃) (fun a => (sm.bounds _ (ht k)).third a a) (sol.incompressible _ (ht k))).trans
      (mul_le_mul_of_nonneg_right ((Finset.sum_le_sum (g := fun _ => G₃ * η ^ 2 / 24) fun a _ => ?_).trans (le_of_eq ?_)) hN'.le)
    · have := mul_le_mul_of_nonneg_left (pow_le_pow_left₀ (hg.step_pos a).le (hη a) 2) A3
      linarith
    · rw [Finset.sum_const, Finset.card_univ, Fintype.card_fin, nsmul_eq_mul, hD]
      ring
  have hdiag : 0 ≤ g.diagonal := Real.sqrt_nonneg _
  set K := (2 * Real.sqrt d * U + d * G₁ * g.diagonal) * D + Real.sqrt d * τ with hK
  have hK0 : 0 ≤ K := by positivity
  set E : ℕ → ℝ := fun k => enorm g.shape g.step (dt * viscosity) (fun a i => fieldData (w k) a i - vt k a i) with hE
  have hrec : ∀ k, k < n → E (k + 1) ≤ (1 + dt * (d * G₁)) * E k + dt * (K * N) := fun k hk => by
    obtain ⟨r, hr⟩ := hstep k hk
    have et : ((k + 1 : ℕ) : ℝ) * dt = k * dt + dt := by push_cast; ring
    have htr := fun a i hi => implicit_truncation hd hg hρ (mul_nonneg hρ.le hnu) hdt hF sol sm hS hη (ht k) a i hi
    rw [hvd] at htr
    have := implicit_fluid_step (fun a => hg.step_pos a) (w := fieldData (w k)) (v := fieldData (samplesOn g (V (k * dt)))) (vt := vt k) (w' := fieldData (w (k + 1)))
      (v' := fieldData (samplesOn g (V (k * dt + dt)))) (vt' := vt (k + 1)) (f := fun a i => F a (g.position (fun b => if b = a then 1 else 1 / 2) i) / density) (q := q k) (r := r) (r' := q (k + 1))
      (Q := atCentres g fun x => density⁻¹ * p (k * dt) x) U0 A1 hnu hdt hτ (hspeed k hk) (hlay k hk.le).2 (fun a i _ => (sm.bounds _ (ht k)).speed a _)
      (fun b a x _ => samples_gradient hg (sm.periodic _ (ht k) b) a ((sm.bounds _ (ht k)).first a b) _ x) (hvt k) (hvt0 k) hc hr (hlay (k + 1) hk).2
      (fun a i hi => by rw [← et]; exact hvt (k + 1) a i hi) (hvt0 (k + 1)) htr
    rw [diagonal_eq hg] at this
    refine this.trans (add_le_add_right (mul_le_mul_of_nonneg_left ?_ hdt) _)
    have := mul_le_mul_of_nonneg_left (hdiv k) (by positivity : 0 ≤ 2 * (Real.sqrt d * U) + d * G₁ * g.diagonal)
    rw [hK]
    linarith
  have hsum := exponential_growth (E := E) hdt (by positivity : 0 ≤ d * G₁) (by positivity : 0 ≤ K * N) (fun _ => enorm_nonneg _ _) hrec
  -- the initial and the final error
  have hw_n := (hlay n le_rfl).1
  have b0 : E 0 ≤ enorm g.shape g.step (dt * viscosity) (fun a i => fieldData (w 0) a i - fieldData (samplesOn g (V 0)) a i) := by
    have e0 : ((0 : ℕ) : ℝ) * dt = 0 := by simp
    refine projection_contracts_energy hcn (q := fun i => -q 0 i) (fun a i hi => ?_) (fun i hi => by rw [dDiv_sub, (hlay 0 (Nat.zero_le n)).2 i hi, hvt0 0 i hi, sub_zero])
    have := hvt 0 a i hi
    rw [e0] at this
    rw [this]
    unfold dGrad
    ring
  have b1 := projection_near (fun a => hg.step_pos a) (hvt n) (hvt0 n)
  rw [diagonal_eq hg] at b1
  have b2 : n2 g.shape (fun a i => fieldData (w n) a i - fieldData (samplesOn g (V (n * dt))) a i) ≤ E n + n2 g.shape (dGrad g.shape g.step (q n)) := by
    rw [n2_congr (y := fun a i => (fieldData (w n) a i - vt n a i) - dGrad g.shape g.step (q n) a i) fun a i hi => by rw [hvt n a i hi]; ring]
    exact (n2_sub_le _ _).trans (add_le_add_left (n2_le_enorm hcn _) _)
  have b3 := mul_le_mul_of_nonneg_left (hdiv n) hdiag
  have b4 := hsum n le_rfl
  rw [rmsError_eq hw_n, rmsEnergyError_eq hw, ← hN, div_le_iff₀ hN']
  have b5 := mul_le_mul_of_nonneg_left (add_le_add_left b0 (n * dt * (K * N))) (Real.exp_pos (d * G₁ * (n * dt))).le
  have e3 : (Real.exp (d * G₁ * (n * dt)) * (enorm g.shape g.step (dt * viscosity) (fun a i => fieldData (w 0) a i - fieldData (samplesOn g (V 0)) a i) / N + n * dt * K) + g.diagonal * D) * N =
      Real.exp (d * G₁ * (n * dt)) * (enorm g.shape g.step (dt * viscosity) (fun a i => fieldData (w 0) a i - fieldData (samplesOn g (V 0)) a i) + n * dt * (K * N)) + g.diagonal * (D * N) := by
    field_simp
  rw [e3]
  linarith

/-- **C76** From every periodic velocity a run with implicit diffusion goes on for ever: every step succeeds. -/
theorem C76_implicit_run_exists (hd : d ≠ 0) (g : Grid d ℝ) (hg : g.Valid) (solve : PressureSolver d ℝ) (hex : ExactSolver g solve)
    (dsolve : (Fin d → GridVariable d ℝ) → ℝ → ℝ → Except Err (Fin d → GridVariable d ℝ)) (hds : ExactDiffusion g dsolve) (density viscosity dt : ℝ) (hc : 0 ≤ viscosity * dt)
    (forcing : Option (ForcingFn d)) (F : Fin d → (Fin d → ℝ) → ℝ) (hF : SteadyForcing g forcing F) (w₀ : Fin d → GridVariable d ℝ) (hw : PeriodicField g w₀) :
    ∃ w : ℕ → Fin d → GridVariable d ℝ, w 0 = w₀ ∧
      ∀ k, implicitDiffusionNavierStokes density viscosity dt solve dsolve (some convectLinear) forcing (w k) = .ok (w (k + 1)) := by
  have step : ∀ x : {v : Fin d → GridVariable d ℝ // PeriodicField g v}, ∃ y : {v : Fin d → GridVariable d ℝ // PeriodicField g v},
      implicitDiffusionNavierStokes density viscosity dt solve dsolve (some convectLinear) forcing x.1 = .ok y.1 := fun x => by
    obtain ⟨w', r, h1, h2, -⟩ := implicit_step_closed (density := density) hd (fun a => (hg a).1) hex hds hc hF x.2
    exact ⟨⟨w', h2⟩, h1⟩
  choose f hf using step
  exact ⟨fun k => (f^[k] ⟨w₀, hw⟩).1, rfl, fun k => by
    beta_reduce
    rw [Function.iterate_succ_apply']
    exact hf _⟩

/-- **C76** The same without a hypothesis on the computed speeds: if the exact speeds are at most `U₀` and the error bound for `n` steps, times the square root of the number of cells, is at most
`U - U₀`, then the computed speeds stay below `U` and the error bound holds. -/
theorem C76_implicit_a_priori (hd : d ≠ 0) (g : Grid d ℝ) (hg : g.Valid) (solve : PressureSolver d ℝ) (hex : ExactSolver g solve)
    (dsolve : (Fin d → GridVariable d ℝ) → ℝ → ℝ → Except Err (Fin d → GridVariable d ℝ)) (hds : ExactDiffusion g dsolve) (density viscosity dt : ℝ) (hρ : 0 < density) (hnu : 0 ≤ viscosity)
    (hdt : 0 ≤ dt) (forcing : Option (ForcingFn d)) (F : Fin d → (Fin d → ℝ) → ℝ) (hF : SteadyForcing g forcing F) (V : ℝ → Fin d → (Fin d → ℝ) → ℝ) (p : ℝ → (Fin d → ℝ) → ℝ)
    (sol : NavierStokesSolution density (density * viscosity) F V p) (U₀ U G₁ G₂ G₃ G₄ H T S P η : ℝ) (sm : SmoothFlow g V p U₀ G₁ G₂ G₃ G₄ H T P) (hS : SteadyCurvature V S)
    (hη : ∀ a, g.step a ≤ η) (hUU : U₀ ≤ U) (hc : dt * (d * U ^ 2) ≤ 2 * viscosity)
    (w : ℕ → Fin d → GridVariable d ℝ) (hw : PeriodicField g (w 0)) (hw0 : DivergenceFree g (w 0)) (n : ℕ)
    (hsmall : Real.sqrt (∏ a, g.shape a : ℕ) * implicitErrorBound d g.diagonal viscosity U G₁ G₂ G₃ G₄ H T S (P / density) η dt (n * dt) (rmsEnergyError g viscosity dt (w 0) (V 0)) ≤ U - U₀)
    (hrun : ∀ k < n, implicitDiffusionNavierStokes density viscosity dt solve dsolve (some convectLinear) forcing (w k) = .ok (w (k + 1))) :
    ∀ k ≤ n, (∀ a i, InR g.shape i → |(w k a).array.data i| ≤ U) ∧
      rmsError g (w k) (V (k * dt)) ≤ implicitErrorBound d g.diagonal viscosity U G₁ G₂ G₃ G₄ H T S (P / density) η dt (k * dt) (rmsEnergyError g viscosity dt (w 0) (V 0)) := by
  have hpos : ∀ a, 0 < g.shape a := fun a => (hg a).1
  have sm' : SmoothFlow g V p U G₁ G₂ G₃ G₄ H T P := ⟨sm.periodic, sm.pressure_periodic,
    fun t ht => ⟨fun b x => ((sm.bounds t ht).speed b x).trans hUU, (sm.bounds t ht).first, (sm.bounds t ht).second, (sm.bounds t ht).third, (sm.bounds t ht).mixed⟩, sm.fourth, sm.time, sm.pressure⟩
  have hper : ∀ k, k ≤ n → PeriodicField g (w k) := fun k => by
    induction k with
    | zero => exact fun _ => hw
    | succ k ih =>
      intro hk
      obtain ⟨w', r, h1, h2, -, -⟩ := implicit_step_closed (density := density) hd hpos hex hds (mul_nonneg hnu hdt) hF (ih (by omega))
      rw [hrun k (by omega)] at h1
      obtain rfl := Except.ok.inj h1
      exact h2
  set a₀ : Fin d := ⟨0, Nat.pos_of_ne_zero hd⟩ with ha₀
  have hb0 := sm'.bounds 0 le_rfl
  have U0 : 0 ≤ U := (abs_nonneg _).trans (hb0.speed a₀ 0)
  have A1 : 0 ≤ G₁ := (abs_nonneg _).trans ((hb0.first a₀ a₀).2 0)
  have A2 : 0 ≤ G₂ := (abs_nonneg _).trans ((hb0.second a₀ a₀).2 0)
  have A3 : 0 ≤ G₃ := (abs_nonneg _).trans ((hb0.third a₀ a₀).2 0)
  have A4 : 0 ≤ G₄ := (abs_nonneg _).trans ((sm.fourth 0 le_rfl a₀ a₀).2 0)
  have AH : 0 ≤ H := (abs_nonneg _).trans ((hb0.mixed a₀ a₀).2 0)
  have AP : 0 ≤ P := (abs_nonneg _).trans ((sm.pressure 0 le_rfl a₀).2 0)
  have AT : 0 ≤ T := (abs_nonneg _).trans ((sm.time a₀).2 0 0 le_rfl)
  have AS : 0 ≤ S := by
    have := (abs_nonneg _).trans (hS 0 1 le_rfl zero_le_one a₀ a₀ 0)
    simpa using this
  intro k
  induction k using Nat.strong_induction_on with
  | _ k ih =>
    intro hk
    have herr := C76_implicit_diffusion hd g hg solve hex dsolve hds density viscosity dt hρ hnu hdt forcing F hF V p sol U G₁ G₂ G₃ G₄ H T S P η sm' hS hη hc w hw hw0 k
      (fun j hj => hrun j (by omega)) (fun j hj => (ih j hj (by omega)).1)
    refine ⟨fun a i hi => ?_, herr⟩
    have hmono : implicitErrorBound d g.diagonal viscosity U G₁ G₂ G₃ G₄ H T S (P / density) η dt (k * dt) (rmsEnergyError g viscosity dt (w 0) (V 0)) ≤
        implicitErrorBound d g.diagonal viscosity U G₁ G₂ G₃ G₄ H T S (P / density) η dt (n * dt) (rmsEnergyError g viscosity dt (w 0) (V 0)) :=
      fluidErrorBound_mono (d := d) (diag := g.diagonal) (η := η) (Real.sqrt_nonneg _) hnu U0 A1 A2 A3 (by positivity) AH (by positivity) (div_nonneg AP hρ.le) hdt
        (Real.sqrt_nonneg _) (mul_nonneg (Nat.cast_nonneg k) hdt) (mul_le_mul_of_nonneg_right (Nat.cast_le.2 hk : (k : ℝ) ≤ n) hdt)
    have hN' : 0 < Real.sqrt (box g.shape).card := Real.sqrt_pos.2 (by
      rw [box_card]
      exact_mod_cast Finset.prod_pos fun a _ => hpos a)
    have h1 : |fieldData (w k) a i - fieldData (samplesOn g (V (k * dt))) a i| ≤ n2 g.shape fun a i => fieldData (w k) a i - fieldData (samplesOn g (V (k * dt))) a i := by
      refine abs_le_of_sq_le_sq ?_ (n2_nonneg _)
      rw [n2_sq']
      exact (Finset.single_le_sum (f := fun i => (fieldData (w k) a i - fieldData (samplesOn g (V (k * dt))) a i) ^ 2) (fun _ _ => sq_nonneg _) (mem_box.2 hi)).trans
        (Finset.single_le_sum (f := fun a => ∑ i ∈ box g.shape, (fieldData (w k) a i - fieldData (samplesOn g (V (k * dt))) a i) ^ 2) (fun _ _ => Finset.sum_nonneg fun _ _ => sq_nonneg _)
          (Finset.mem_univ a))
    have h2 := rmsError_eq (hper k hk) (V (k * dt))
    rw [eq_div_iff hN'.ne'] at h2
    rw [← h2, box_card] at h1
    have h3 := mul_le_mul_of_nonneg_right (herr.trans hmono) (Real.sqrt_nonneg ((∏ a, g.shape a : ℕ) : ℝ))
    have h4 := (sm.bounds (k * dt) (mul_nonneg (Nat.cast_nonneg k) hdt)).speed a (g.position (fun b => if b = a then 1 else 1 / 2) i)
    have h5 : fieldData (samplesOn g (V (k * dt))) a i = V (k * dt) a (g.position (fun b => if b = a then 1 else 1 / 2) i) := rfl
    have h6 : |fieldData (w k) a i - fieldData (samplesOn g (V (k * dt))) a i| ≤ U - U₀ := h1.trans (h3.trans (by rw [mul_comm]; exact hsmall))
    rw [h5] at h6
    show |fieldData (w k) a i| ≤ U
    rw [abs_le] at h4 h6 ⊢
    constructor <;> linarith [h4.1, h4.2, h6.1, h6.2]

end JaxCfd
