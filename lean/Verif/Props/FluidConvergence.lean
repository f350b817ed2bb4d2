import Verif.Props.FluidAccuracy

/-!
# C76: convergence of the projection method to the Navier-Stokes equations
-/

namespace JaxCfd
variable {d : ℕ} [HasNan ℝ]

omit [HasNan ℝ] in
theorem conv_lerp {s : Fin d → ℕ} {h : Fin d → ℝ} (w q : Fin d → Idx d → ℝ) (i : Fin d) {x : Idx d} (hx : InR s x) :
    ∑ a, (lerp ℝ s a (1 / 2) (q i) x * lerp ℝ s i (1 / 2) (w a) x - lerp ℝ s a (1 / 2) (q i) (rollIdx s a (-1) x) * lerp ℝ s i (1 / 2) (w a) (rollIdx s a (-1) x)) / h a = conv s h w q i x := by
  unfold conv
  refine Finset.sum_congr rfl fun a _ => ?_
  rw [lerp_mid a _ hx, lerp_mid i _ hx, lerp_mid a _ (rollIdx_inR hx a (-1)), lerp_mid i _ (rollIdx_inR hx a (-1))]
  rfl

/-- The right hand side of the momentum equation, discretised with `convect_linear` and `diffuse`. -/
theorem linear_terms_closed (hd : d ≠ 0) {g : Grid d ℝ} (hs : ∀ a, 0 < g.shape a) {density viscosity dt : ℝ} (hρ : density ≠ 0) {forcing : Option (ForcingFn d)} {F : Fin d → (Fin d → ℝ) → ℝ}
    (hF : SteadyForcing g forcing F) {v : Fin d → GridVariable d ℝ} (hv : PeriodicField g v) :
    ∃ T, explicitTerms density (some viscosity) dt (some convectLinear) diffuse forcing v = .ok T ∧ SameLayout v T ∧ ∀ a i, InR g.shape i →
      fieldData T a i = -conv g.shape g.step (fieldData v) (fieldData v) a i + viscosity / density * dLap g.shape g.step (fieldData v a) i + F a (g.position (v a).array.offset i) / density := by
  have hc := convectLinear_closed hd hs hv
  set c : Fin d → GridArray d ℝ := fun i => ⟨⟨g.shape, fun x => -∑ a, (lerp ℝ g.shape a (1 / 2) (v i).array.data x * lerp ℝ g.shape i (1 / 2) (v a).array.data x -
      lerp ℝ g.shape a (1 / 2) (v i).array.data (rollIdx g.shape a (-1) x) * lerp ℝ g.shape i (1 / 2) (v a).array.data (rollIdx g.shape a (-1) x)) / g.step a⟩, (v i).array.offset, g⟩ with hcd
  have he : ∀ a, diffuse (v a) (viscosity / density) = .ok (gmap (fun x => viscosity / density * x) (lapP (v a))) := fun a => (diffuse_total hv hs a _).1
  have hlap : ∀ a i, (lapP (v a)).data i = dLap g.shape g.step (fieldData v a) i := fun a i => by
    show (∑ b : Fin d, _ : ℝ) = _
    rw [(hv.1 a).1, (hv.1 a).2.1]
    rfl
  have hcv : ∀ a i, InR g.shape i → (c a).data i = -conv g.shape g.step (fieldData v) (fieldData v) a i := fun a i hi => by
    rw [← conv_lerp _ _ a hi]
    rfl
  cases forcing with
  | none =>
    refine ⟨fun a => ⟨⟨⟨(v a).array.shape, fun i => (c a).data i + viscosity / density * (lapP (v a)).data i⟩, (v a).array.offset, (v a).array.grid⟩, (v a).bc⟩, ?_, fun a => ⟨rfl, rfl, rfl, rfl⟩,
      fun a i hi => ?_⟩
    · refine ((C56_explicit_terms density dt convectLinear diffuse v _).2.1 viscosity).2 ⟨hρ, c, _, hc, he, fun a => ⟨fun w hw => ?_, rfl, fun i => rfl⟩⟩
      simp only [List.mem_cons, List.not_mem_nil, or_false] at hw
      rcases hw with rfl | rfl
      · exact ⟨rfl, (hv.1 a).1.symm, (hv.1 a).2.1.symm⟩
      · exact ⟨rfl, rfl, rfl⟩
    · show (c a).data i + viscosity / density * (lapP (v a)).data i = _
      rw [hcv a i hi, hlap, hF a, zero_div, add_zero]
  | some f =>
    obtain ⟨Φ, hΦ, hΦl⟩ := hF v hv
    refine ⟨fun a => ⟨⟨⟨(v a).array.shape, fun i => (c a).data i + viscosity / density * (lapP (v a)).data i + (Φ a).data i / density⟩, (v a).array.offset, (v a).array.grid⟩, (v a).bc⟩, ?_,
      fun a => ⟨rfl, rfl, rfl, rfl⟩, fun a i hi => ?_⟩
    · refine ((C56_explicit_terms density dt convectLinear diffuse v _).1 viscosity f).2 ⟨hρ, c, _, Φ, hc, he, hΦ, fun a => ⟨fun w hw => ?_, rfl, fun i => rfl⟩⟩
      simp only [List.mem_cons, List.not_mem_nil, or_false] at hw
      rcases hw with rfl | rfl | rfl
      · exact ⟨rfl, (hv.1 a).1.symm, (hv.1 a).2.1.symm⟩
      · exact ⟨rfl, rfl, rfl⟩
      · exact ⟨(hΦl a).2.2.1, (hΦl a).1.trans (hv.1 a).1.symm, (hΦl a).2.1.trans (hv.1 a).2.1.symm⟩
    · show (c a).data i + viscosity / density * (lapP (v a)).data i + (Φ a).data i / density = _
      rw [hcv a i hi, hlap, (hΦl a).2.2.2 i (by rw [(hΦl a).2.1]; exact hi), (hΦl a).1, (hΦl a).2.2.1]

/-- One step of `semi_implicit_navier_stokes` with `convect_linear` and forward Euler. -/
theorem linear_step_closed (hd : d ≠ 0) {g : Grid d ℝ} (hs : ∀ a, 0 < g.shape a) {solve : PressureSolver d ℝ} (hex : ExactSolver g solve) {density viscosity : ℝ} (dt : ℝ) (hρ : density ≠ 0)
    {forcing : Option (ForcingFn d)} {F : Fin d → (Fin d → ℝ) → ℝ} (hF : SteadyForcing g forcing F) {v : Fin d → GridVariable d ℝ} (hv : PeriodicField g v) :
    ∃ w r, semiImplicitNavierStokes density (some viscosity) dt solve (some convectLinear) diffuse forcing forwardEuler v = .ok w ∧ PeriodicField g w ∧
      (∀ a i, InR g.shape i → fieldData w a i = fieldData v a i + dt * (-conv g.shape g.step (fieldData v) (fieldData v) a i + viscosity / density * dLap g.shape g.step (fieldData v a) i +
        F a (g.position (fun b => if b = a then 1 else 1 / 2) i) / density) - dGrad g.shape g.step r a i) ∧ ∀ i, InR g.shape i → dDiv g.shape g.step (fieldData w) i = 0 := by
  have hv0 := (withLeaves_layout v (leaves v)).periodicField hv
  have hd0 : ∀ a i, InR g.shape i → fieldData (withLeaves v (leaves v)) a i = fieldData v a i := fun a i hi => leaves_inR (by rw [(hv.1 a).2.1]; exact hi)
  obtain ⟨T, hT, hTl, hTd⟩ := linear_terms_closed (dt := dt) (viscosity := viscosity) hd hs hρ hF hv0
  have hTl' : SameLayout v T := fun a => ⟨(hTl a).1, (hTl a).2.1, (hTl a).2.2.1, (hTl a).2.2.2⟩
  have hu := (withLeaves_layout v (leaves v + dt • leaves T)).periodicField hv
  obtain ⟨p, q, hp, hpl, hpf, hpe, hp0⟩ := projection_gradient hd hs hex hu
  have hpl' : SameLayout v p := fun a => ⟨(hpl a).1, (hpl a).2.1, (hpl a).2.2.1, (hpl a).2.2.2⟩
  have hwp : ∀ a i, InR g.shape i → fieldData (withLeaves v (leaves p)) a i = fieldData p a i := fun a i hi => leaves_inR (by rw [(hpf.1 a).2.1]; exact hi)
  refine ⟨withLeaves v (leaves p), q, ?_, (withLeaves_layout v _).periodicField hv, fun a i hi => ?_, fun i hi => ?_⟩
  · unfold semiImplicitNavierStokes
    rw [C38_forward_euler]
    unfold termsOnLeaves projectOnLeaves
    rw [hT, Except.bind_ok, leavesLike_eq_ok.2 ⟨hTl', rfl⟩, Except.bind_ok, hp, Except.bind_ok, leavesLike_eq_ok.2 ⟨hpl', rfl⟩]
    rfl
  · rw [hwp a i hi, hpe a i hi]
    congr 1
    show leaves v a i + dt * leaves T a i = _
    rw [leaves_inR (by rw [(hv.1 a).2.1]; exact hi), leaves_inR (v := T) (by rw [(hTl' a).2.2.2, (hv.1 a).2.1]; exact hi)]
    have := hTd a i hi
    rw [conv_congr hd0 hd0 a hi, dLap_congr (hd0 a) hi, hv0.offset a] at this
    show _ + dt * fieldData T a i = _
    rw [this]
    rfl
  · rw [dDiv_congr hwp hi]
    exact hp0 i hi

omit [HasNan ℝ] in
theorem partialDeriv_const_mul (n : ℕ) (a : Fin d) (c : ℝ) (f : (Fin d → ℝ) → ℝ) (x : Fin d → ℝ) : partialDeriv n a (fun x => c * f x) x = c * partialDeriv n a f x := by
  unfold partialDeriv
  exact iteratedDeriv_const_mul_field c fun t => f (Function.update x a t)

omit [HasNan ℝ] in
theorem SmoothAlong.const_mul {n : ℕ} {a : Fin d} {M : ℝ} {f : (Fin d → ℝ) → ℝ} (hf : SmoothAlong n a M f) (c : ℝ) : SmoothAlong n a (|c| * M) fun x => c * f x :=
  ⟨fun x => contDiff_const.mul (hf.1 x), fun x => by
    rw [partialDeriv_const_mul, abs_mul]
    exact mul_le_mul_of_nonneg_left (hf.2 x) (abs_nonneg c)⟩

/-- The samples of a smooth periodic function have difference quotients bounded by its first derivatives. -/
theorem samples_gradient {g : Grid d ℝ} (hg : g.Valid) {f : (Fin d → ℝ) → ℝ} (hf : PeriodicOn g f) {G : ℝ} (a : Fin d) (hG : SmoothAlong 1 a G f) (o : Fin d → ℚ) (x : Idx d) :
    |dGrad g.shape g.step (fun i => f (g.position o i)) a x| ≤ G := by
  have hh := hg.step_pos a
  unfold dGrad
  rw [abs_div, abs_of_pos hh, div_le_iff₀ hh]
  beta_reduce
  rw [sample_roll hg hf rfl o a 1 x]
  have := lipschitz_bound ((hG.slice (g.position o x)).1.differentiable (by norm_num)) (fun t => by rw [← iteratedDeriv_one]; exact (hG.slice (g.position o x)).2 t)
    (g.position o x a) (g.position o x a + (1 : ℤ) * g.step a)
  rw [add_sub_cancel_left, Function.update_eq_self, abs_mul, abs_of_pos hh] at this
  simpa using this

/-- The samples of a function at the cell centres. -/
noncomputable def atCentres (g : Grid d ℝ) (Q : (Fin d → ℝ) → ℝ) (i : Idx d) : ℝ := Q (g.position (fun _ => 1 / 2) i)

/-- The discrete gradient of the samples of a potential. -/
theorem atCentres_gradient {g : Grid d ℝ} (hg : g.Valid) {Q : (Fin d → ℝ) → ℝ} (hQ : PeriodicOn g Q) {N η : ℝ} (a : Fin d) (hN : SmoothAlong 3 a N Q) (hη : g.step a ≤ η) {i : Idx d}
    (hi : InR g.shape i) : |dGrad g.shape g.step (atCentres g Q) a i - partialDeriv 1 a Q (g.position (fun b => if b = a then 1 else 1 / 2) i)| ≤ N * η ^ 2 / 24 := by
  have hN0 : 0 ≤ N := (abs_nonneg _).trans (hN.2 0)
  set Qs : GridVariable d ℝ := ⟨⟨⟨g.shape, atCentres g Q⟩, fun _ => 1 / 2, g⟩, periodicBC d⟩ with hQs
  have hQp : Qs.Periodic := ⟨fun _ => rfl, fun a => ⟨rfl, (hg a).1⟩⟩
  obtain ⟨r, hr, h1, h2, h3, h4⟩ := C73_forward_difference hQp hg hQ (fun _ _ => rfl) a N hN
  rw [forwardDifference_periodic hQp] at hr
  obtain rfl := Except.ok.inj hr
  have := h4 i hi
  dsimp only at this
  have ho : Function.update (fun _ : Fin d => (1 / 2 : ℚ)) a (1 / 2 + 1 / 2) = fun b => if b = a then 1 else 1 / 2 := by
    funext b
    rcases eq_or_ne b a with rfl | hb
    · rw [Function.update_self, if_pos rfl]; norm_num
    · rw [Function.update_of_ne hb, if_neg hb]
  rw [ho] at this
  refine this.trans ?_
  have h5 : g.step a ^ 2 ≤ η ^ 2 := pow_le_pow_left₀ (hg.step_pos a).le hη 2
  have h6 := mul_le_mul_of_nonneg_left h5 hN0
  show N * g.step a ^ 2 / 24 ≤ _
  linarith

/-- **C73** The explicit terms of the Navier-Stokes step are second order accurate: for samples of a smooth periodic velocity they approximate convection, diffusion and forcing. -/
theorem C73_navier_stokes_terms (hd : d ≠ 0) (g : Grid d ℝ) (hg : g.Valid) (density viscosity dt : ℝ) (hρ : density ≠ 0) (forcing : Option (ForcingFn d)) (F : Fin d → (Fin d → ℝ) → ℝ)
    (hF : SteadyForcing g forcing F) (v : Fin d → GridVariable d ℝ) (hv : PeriodicField g v) (V : Fin d → (Fin d → ℝ) → ℝ) (hV : ∀ a, PeriodicOn g (V a)) (hs : ∀ a, (v a).array.Samples (V a))
    (U G₁ G₂ G₃ G₄ H η : ℝ) (hb : VelocityBounds V U G₁ G₂ G₃ H) (h4 : ∀ a b, SmoothAlong 4 a G₄ (V b)) (hη : ∀ a, g.step a ≤ η) :
    ∃ R, explicitTerms density (some viscosity) dt (some convectLinear) diffuse forcing v = .ok R ∧ ∀ i, (R i).array.grid = g ∧ (R i).array.shape = g.shape ∧
      (R i).array.offset = (v i).array.offset ∧
      (R i).array.Approximates (fun x => -∑ a, partialDeriv 1 a (fun x => V i x * V a x) x + viscosity / density * ∑ a, partialDeriv 2 a (V i) x + F i x / density)
        (spatialConstant d |viscosity / density| U G₁ G₂ G₃ G₄ H 0 * η ^ 2) := by
  have hpos : ∀ a, 0 < g.shape a := fun a => (hg a).1
  obtain ⟨T, hT, hTl, hTd⟩ := linear_terms_closed (dt := dt) (viscosity := viscosity) hd hpos hρ hF hv
  refine ⟨T, hT, fun a => ⟨(hTl a).2.1.trans (hv.1 a).1, (hTl a).2.2.2.trans (hv.1 a).2.1, (hTl a).1, fun i hi => ?_⟩⟩
  have hi' : InR g.shape i := by rwa [(hTl a).2.2.2, (hv.1 a).2.1] at hi
  have e := hTd a i hi'
  rw [(hTl a).2.1, (hTl a).1, (hv.1 a).1, show (T a).array.data i = _ from e]
  set x := g.position (v a).array.offset i with hx
  have U0 : 0 ≤ U := (abs_nonneg _).trans (hb.speed a x)
  have A1 : 0 ≤ G₁ := (abs_nonneg _).trans ((hb.first a a).2 x)
  have A2 : 0 ≤ G₂ := (abs_nonneg _).trans ((hb.second a a).2 x)
  have A3 : 0 ≤ G₃ := (abs_nonneg _).trans ((hb.third a a).2 x)
  have A4 : 0 ≤ G₄ := (abs_nonneg _).trans ((h4 a a).2 x)
  have AH : 0 ≤ H := (abs_nonneg _).trans ((hb.mixed a a).2 x)
  have hsq : ∀ b, g.step b ^ 2 ≤ η ^ 2 := fun b => pow_le_pow_left₀ (hg.step_pos b).le (hη b) 2
  -- convection
  obtain ⟨R, hR, hRa⟩ := C73_convect_linear hd g hg v hv V hV hs U G₁ G₂ G₃ H hb
  rw [convectLinear_closed hd hpos hv] at hR
  obtain rfl := Except.ok.inj hR
  have c1 := (hRa a).2.2.2 i hi'
  dsimp only at c1
  rw [conv_lerp (h := g.step) (fun b => (v b).array.data) (fun b => (v b).array.data) a hi'] at c1
  have c2 : |-conv g.shape g.step (fieldData v) (fieldData v) a i - -∑ b, partialDeriv 1 b (fun x => V a x * V b x) x| ≤
      d * (5 / 24 * (U * G₃) + 3 / 8 * (G₁ * G₂) + (G₁ * G₂ + U * H) / 8) * η ^ 2 := by
    refine le_trans c1 ((Finset.sum_le_sum (g := fun _ => (5 / 24 * (U * G₃) + 3 / 8 * (G₁ * G₂) + (G₁ * G₂ + U * H) / 8) * η ^ 2) fun b _ => ?_).trans (le_of_eq ?_))
    · have k1 := mul_le_mul_of_nonneg_left (hsq b) (by positivity : 0 ≤ 5 / 24 * (U * G₃) + 3 / 8 * (G₁ * G₂))
      have k2 := mul_le_mul_of_nonneg_left (hsq a) (by positivity : 0 ≤ (G₁ * G₂ + U * H) / 8)
      linarith
    · rw [Finset.sum_const, Finset.card_univ, Fintype.card_fin, nsmul_eq_mul]
      ring
  -- diffusion
  obtain ⟨r, hr, h1, h2, h3, h4'⟩ := C73_laplacian (hv.periodic hpos a) (by rw [(hv.1 a).1]; exact hg) (by rw [(hv.1 a).1]; exact hV a) (hs a) (fun _ => G₄) (fun b => h4 b a)
  rw [laplacian_periodic (hv.periodic hpos a)] at hr
  obtain rfl := Except.ok.inj hr
  have d1 := h4' i (by rw [h2, (hv.1 a).2.1]; exact hi')
  rw [h1, h3, (hv.1 a).1, ← hx] at d1
  have d2 : (lapP (v a)).data i = dLap g.shape g.step (fieldData v a) i := by
    show (∑ b : Fin d, _ : ℝ) = _
    rw [(hv.1 a).1, (hv.1 a).2.1]
    rfl
  have d3 : |dLap g.shape g.step (fieldData v a) i - ∑ b, partialDeriv 2 b (V a) x| ≤ d * G₄ / 12 * η ^ 2 := by
    rw [← d2]
    refine le_trans d1 ((Finset.sum_le_sum (g := fun _ => G₄ / 12 * η ^ 2) fun b _ => ?_).trans (le_of_eq ?_))
    · have k1 := mul_le_mul_of_nonneg_left (hsq b) (by positivity : 0 ≤ G₄ / 12)
      linarith
    · rw [Finset.sum_const, Finset.card_univ, Fintype.card_fin, nsmul_eq_mul]
      ring
  have d4 : |viscosity / density * (dLap g.shape g.step (fieldData v a) i - ∑ b, partialDeriv 2 b (V a) x)| ≤ |viscosity / density| * (d * G₄ / 12 * η ^ 2) := by
    rw [abs_mul]
    exact mul_le_mul_of_nonneg_left d3 (abs_nonneg _)
  unfold spatialConstant
  rw [abs_le] at c2 d4 ⊢
  constructor <;> linarith [c2.1, c2.2, d4.1, d4.2]

/-- How well the samples of the exact solution satisfy the discrete equations. -/
theorem fluid_truncation (hd : d ≠ 0) {g : Grid d ℝ} (hg : g.Valid) {density viscosity dt : ℝ} (hρ : 0 < density) (hnu : 0 ≤ viscosity) (hdt : 0 ≤ dt) {forcing : Option (ForcingFn d)}
    {F : Fin d → (Fin d → ℝ) → ℝ} (hF : SteadyForcing g forcing F) {V : ℝ → Fin d → (Fin d → ℝ) → ℝ} {p : ℝ → (Fin d → ℝ) → ℝ} (sol : NavierStokesSolution density viscosity F V p)
    {U G₁ G₂ G₃ G₄ H T P η : ℝ} (sm : SmoothFlow g V p U G₁ G₂ G₃ G₄ H T P) (hη : ∀ a, g.step a ≤ η) {t : ℝ} (ht : 0 ≤ t) (a : Fin d) (i : Idx d) (hi : InR g.shape i) :
    |fieldData (samplesOn g (V (t + dt))) a i - (fieldData (samplesOn g (V t)) a i + dt * (-conv g.shape g.step (fieldData (samplesOn g (V t))) (fieldData (samplesOn g (V t))) a i +
      viscosity / density * dLap g.shape g.step (fieldData (samplesOn g (V t)) a) i + F a (g.position (fun b => if b = a then 1 else 1 / 2) i) / density -
      dGrad g.shape g.step (atCentres g fun x => density⁻¹ * p t x) a i))| ≤
      dt * (T * dt / 2 + spatialConstant d (viscosity / density) U G₁ G₂ G₃ G₄ H (P / density) * η ^ 2) := by
  have hv := samplesOn_field g (V t)
  obtain ⟨R, hR, hRa⟩ := C73_navier_stokes_terms hd g hg density viscosity dt hρ.ne' forcing F hF (samplesOn g (V t)) hv (V t) (sm.periodic t ht) (fun _ _ _ => rfl) U G₁ G₂ G₃ G₄ H η
    (sm.bounds t ht) (sm.fourth t ht) hη
  obtain ⟨T', hT', hTl, hTd⟩ := linear_terms_closed (dt := dt) (viscosity := viscosity) hd (fun a => (hg a).1) hρ.ne' hF hv
  rw [hR] at hT'
  obtain rfl := Except.ok.inj hT'
  have r1 := (hRa a).2.2.2 i (by rw [(hRa a).2.1]; exact hi)
  rw [(hRa a).1, (hRa a).2.2.1, hv.offset a, show (R a).array.data i = _ from hTd a i hi, hv.offset a, abs_of_nonneg (div_nonneg hnu hρ.le)] at r1
  beta_reduce at r1
  have r2 := atCentres_gradient hg (Q := fun x => density⁻¹ * p t x) (fun x b => by beta_reduce; rw [sm.pressure_periodic t ht x b]) a ((sm.pressure t ht a).const_mul density⁻¹) (hη a) hi
  rw [partialDeriv_const_mul, abs_of_pos (inv_pos.2 hρ)] at r2
  have r3 := time_bound (sm.time a) (g.position (fun b => if b = a then 1 else 1 / 2) i) ht (add_nonneg ht hdt)
  rw [sol.momentum t ht a] at r3
  set x := g.position (fun b => if b = a then 1 else 1 / 2) i with hx
  show |V (t + dt) a x - (V t a x + _)| ≤ _
  set A := -conv g.shape g.step (fieldData (samplesOn g (V t))) (fieldData (samplesOn g (V t))) a i + viscosity / density * dLap g.shape g.step (fieldData (samplesOn g (V t)) a) i +
    F a x / density with hA
  set B := dGrad g.shape g.step (atCentres g fun x => density⁻¹ * p t x) a i with hB
  set A' := -∑ b, partialDeriv 1 b (fun x => V t a x * V t b x) x + viscosity / density * ∑ b, partialDeriv 2 b (V t a) x + F a x / density with hA'
  have r4 : |dt * ((A - A') - (B - density⁻¹ * partialDeriv 1 a (p t) x))| ≤ dt * (spatialConstant d (viscosity / density) U G₁ G₂ G₃ G₄ H 0 * η ^ 2 + density⁻¹ * P * η ^ 2 / 24) := by
    rw [abs_mul, abs_of_nonneg hdt]
    refine mul_le_mul_of_nonneg_left ?_ hdt
    rw [abs_le] at r1 r2 ⊢
    constructor <;> linarith [r1.1, r1.2, r2.1, r2.2]
  have e : dt * (T * dt / 2 + spatialConstant d (viscosity / density) U G₁ G₂ G₃ G₄ H (P / density) * η ^ 2) =
      T * dt ^ 2 / 2 + dt * (spatialConstant d (viscosity / density) U G₁ G₂ G₃ G₄ H 0 * η ^ 2 + density⁻¹ * P * η ^ 2 / 24) := by
    unfold spatialConstant
    ring
  have e2 : partialDeriv 1 a (p t) x / density = density⁻¹ * partialDeriv 1 a (p t) x := by ring
  rw [e2] at r3
  rw [e]
  rw [abs_le] at r3 r4 ⊢
  constructor <;> linarith [r3.1, r3.2, r4.1, r4.2]

/-- **C76** The projection method converges to the solution of the incompressible Navier-Stokes equations. A run of `semi_implicit_navier_stokes` with `convect_linear`, `diffuse`, a steady
forcing, forward Euler and an exact pressure solver starts from a divergence-free velocity. As long as the computed speeds stay below `U` and `dt (4 ν² Σ 1/h² + d U²) ≤ ν`, the root mean square
error after `n` steps is at most `fluidErrorBound`: the initial error grows at most like `exp(d G₁ n dt)`, and the rest is first order in `dt` and second order in the mesh size. -/
theorem C76_navier_stokes (hd : d ≠ 0) (g : Grid d ℝ) (hg : g.Valid) (solve : PressureSolver d ℝ) (hex : ExactSolver g solve) (density viscosity dt : ℝ) (hρ : 0 < density) (hnu : 0 ≤ viscosity)
    (hdt : 0 ≤ dt) (forcing : Option (ForcingFn d)) (F : Fin d → (Fin d → ℝ) → ℝ) (hF : SteadyForcing g forcing F) (V : ℝ → Fin d → (Fin d → ℝ) → ℝ) (p : ℝ → (Fin d → ℝ) → ℝ)
    (sol : NavierStokesSolution density viscosity F V p) (U G₁ G₂ G₃ G₄ H T P η : ℝ) (sm : SmoothFlow g V p U G₁ G₂ G₃ G₄ H T P) (hη : ∀ a, g.step a ≤ η)
    (hc : dt * (4 * (viscosity / density) ^ 2 * ∑ a, 1 / g.step a ^ 2 + d * U ^ 2) ≤ viscosity / density)
    (w : ℕ → Fin d → GridVariable d ℝ) (hw : PeriodicField g (w 0)) (hw0 : DivergenceFree g (w 0)) (n : ℕ)
    (hrun : ∀ k < n, semiImplicitNavierStokes density (some viscosity) dt solve (some convectLinear) diffuse forcing forwardEuler (w k) = .ok (w (k + 1)))
    (hspeed : ∀ k < n, ∀ a i, InR g.shape i → |(w k a).array.data i| ≤ U) :
    rmsError g (w n) (V (n * dt)) ≤ fluidErrorBound d g.diagonal (viscosity / density) U G₁ G₂ G₃ G₄ H T (P / density) η dt (n * dt) (rmsError g (w 0) (V 0)) := by
  unfold fluidErrorBound
  have hpos : ∀ a, 0 < g.shape a := fun a => (hg a).1
  have hnu' : 0 ≤ viscosity / density := div_nonneg hnu hρ.le
  -- the run
  have hlay : ∀ k, k ≤ n → PeriodicField g (w k) ∧ (∀ i, InR g.shape i → dDiv g.shape g.step (fieldData (w k)) i = 0) := fun k => by
    induction k with
    | zero => exact fun _ => ⟨hw, divergenceFree_dDiv hd hpos hw hw0⟩
    | succ k ih =>
      intro hk
      obtain ⟨w', r, h1, h2, -, h4⟩ := linear_step_closed (viscosity := viscosity) hd hpos hex dt hρ.ne' hF (ih (by omega)).1
      rw [hrun k (by omega)] at h1
      obtain rfl := Except.ok.inj h1
      exact ⟨h2, h4⟩
  have hstep : ∀ k, k < n → ∃ r, ∀ a i, InR g.shape i → fieldData (w (k + 1)) a i = fieldData (w k) a i + dt * (-conv g.shape g.step (fieldData (w k)) (fieldData (w k)) a i +
      viscosity / density * dLap g.shape g.step (fieldData (w k) a) i + F a (g.position (fun b => if b = a then 1 else 1 / 2) i) / density) - dGrad g.shape g.step r a i := fun k hk => by
    obtain ⟨w', r, h1, -, h3, -⟩ := linear_step_closed (viscosity := viscosity) hd hpos hex dt hρ.ne' hF (hlay k hk.le).1
    rw [hrun k hk] at h1
    obtain rfl := Except.ok.inj h1
    exact ⟨r, h3⟩
  -- the projections of the exact solution
  have hproj : ∀ k : ℕ, ∃ (vt : Fin d → Idx d → ℝ) (q : Idx d → ℝ), (∀ a i, InR g.shape i → vt a i = fieldData (samplesOn g (V (k * dt))) a i - dGrad g.shape g.step q a i) ∧
      ∀ i, InR g.shape i → dDiv g.shape g.step vt i = 0 := fun k => by
    obtain ⟨vt, q, -, -, -, h1, h2⟩ := projection_gradient hd hpos hex (samplesOn_field g (V (k * dt)))
    exact ⟨fieldData vt, q, h1, h2⟩
  choose vt q hvt hvt0 using hproj
  have ht : ∀ k : ℕ, 0 ≤ (k : ℝ) * dt := fun k => mul_nonneg (Nat.cast_nonneg k) hdt
  set a₀ : Fin d := ⟨0, Nat.pos_of_ne_zero hd⟩ with ha₀
  have hb0 := sm.bounds 0 le_rfl
  have U0 : 0 ≤ U := (abs_nonneg _).trans (hb0.speed a₀ 0)
  have A1 : 0 ≤ G₁ := (abs_nonneg _).trans ((hb0.first a₀ a₀).2 0)
  have A2 : 0 ≤ G₂ := (abs_nonneg _).trans ((hb0.second a₀ a₀).2 0)
  have A3 : 0 ≤ G₃ := (abs_nonneg _).trans ((hb0.third a₀ a₀).2 0)
  have A4 : 0 ≤ G₄ := (abs_nonneg _).trans ((sm.fourth 0 le_rfl a₀ a₀).2 0)
  have AH : 0 ≤ H := (abs_nonneg _).trans ((hb0.mixed a₀ a₀).2 0)
  have AP : 0 ≤ P := (abs_nonneg _).trans ((sm.pressure 0 le_rfl a₀).2 0)
  have AT : 0 ≤ T := (abs_nonneg _).trans ((sm.time a₀).2 0 0 le_rfl)
  set τ := T * dt / 2 + spatialConstant d (viscosity / density) U G₁ G₂ G₃ G₄ H (P / density) * η ^ 2 with hτd
  have hτ : 0 ≤ τ := by
    have : 0 ≤ P / density := div_nonneg AP hρ.le
    rw [hτd]
    unfold spatialConstant
    positivity
  set N := Real.sqrt (box g.shape).card with hN
  have hN' : 0 < N := Real.sqrt_pos.2 (by
    rw [box_card]
    exact_mod_cast Finset.prod_pos fun a _ => hpos a)
  set D := d * G₃ * η ^ 2 / 24 with hD
  have hD0 : 0 ≤ D := by positivity
  have hdiv : ∀ k : ℕ, l2 (box g.shape) (dDiv g.shape g.step (fieldData (samplesOn g (V (k * dt))))) ≤ D * N := fun k => by
    refine (samples_divergence hd hg (sm.periodic _ (ht k)) (M := fun _ => G₃) (fun a => (sm.bounds _ (ht k)).third a a) (sol.incompressible _ (ht k))).trans
      (mul_le_mul_of_nonneg_right ((Finset.sum_le_sum (g := fun _ => G₃ * η ^ 2 / 24) fun a _ => ?_).trans (le_of_eq ?_)) hN'.le)
    · have := mul_le_mul_of_nonneg_left (pow_le_pow_left₀ (hg.step_pos a).le (hη a) 2) A3
      linarith
    · rw [Finset.sum_const, Finset.card_univ, Fintype.card_fin, nsmul_eq_mul, hD]
      ring
  have hdiag : 0 ≤ g.diagonal := Real.sqrt_nonneg _
  set K := (2 * Real.sqrt d * U + d * G₁ * g.diagonal) * D + Real.sqrt d * τ with hK
  have hK0 : 0 ≤ K := by positivity
  set E : ℕ → ℝ := fun k => n2 g.shape (fun a i => fieldData (w k) a i - vt k a i) with hE
  have hrec : ∀ k, k < n → E (k + 1) ≤ (1 + dt * (d * G₁)) * E k + dt * (K * N) := fun k hk => by
    obtain ⟨r, hr⟩ := hstep k hk
    have et : ((k + 1 : ℕ) : ℝ) * dt = k * dt + dt := by push_cast; ring
    have := fluid_step (fun a => hg.step_pos a) (w := fieldData (w k)) (v := fieldData (samplesOn g (V (k * dt)))) (vt := vt k) (w' := fieldData (w (k + 1)))
      (v' := fieldData (samplesOn g (V (k * dt + dt)))) (vt' := vt (k + 1)) (f := fun a i => F a (g.position (fun b => if b = a then 1 else 1 / 2) i) / density) (q := q k) (r := r) (r' := q (k + 1))
      (Q := atCentres g fun x => density⁻¹ * p (k * dt) x) U0 A1 hnu' hdt hτ (hspeed k hk) (hlay k hk.le).2 (fun a i _ => (sm.bounds _ (ht k)).speed a _)
      (fun b a x _ => samples_gradient hg (sm.periodic _ (ht k) b) a ((sm.bounds _ (ht k)).first a b) _ x) (hvt k) (hvt0 k) hc hr (hlay (k + 1) hk).2
      (fun a i hi => by rw [← et]; exact hvt (k + 1) a i hi) (hvt0 (k + 1)) (fun a i hi => fluid_truncation hd hg hρ hnu hdt hF sol sm hη (ht k) a i hi)
    rw [diagonal_eq hg] at this
    refine this.trans (add_le_add_right (mul_le_mul_of_nonneg_left ?_ hdt) _)
    have := mul_le_mul_of_nonneg_left (hdiv k) (by positivity : 0 ≤ 2 * (Real.sqrt d * U) + d * G₁ * g.diagonal)
    rw [hK]
    linarith
  have hsum : ∀ k, k ≤ n → E k ≤ Real.exp (d * G₁ * (k * dt)) * (E 0 + k * dt * (K * N)) := fun k => by
    induction k with
    | zero => intro _; simp
    | succ k ih =>
      intro hk
      have h1 := hrec k hk
      have h2 := ih (by omega)
      have h3 : 1 + dt * (d * G₁) ≤ Real.exp (dt * (d * G₁)) := by
        have := Real.add_one_le_exp (dt * (d * G₁))
        linarith
      have e1 : Real.exp (d * G₁ * ((k + 1 : ℕ) * dt)) = Real.exp (dt * (d * G₁)) * Real.exp (d * G₁ * (k * dt)) := by
        rw [← Real.exp_add]
        congr 1
        push_cast
        ring
      have h4 : 1 ≤ Real.exp (d * G₁ * ((k + 1 : ℕ) * dt)) := Real.one_le_exp (by positivity)
      have hE0 : 0 ≤ E 0 := n2_nonneg _
      have h5 : (1 + dt * (d * G₁)) * E k ≤ Real.exp (dt * (d * G₁)) * (Real.exp (d * G₁ * (k * dt)) * (E 0 + k * dt * (K * N))) :=
        mul_le_mul h3 h2 (n2_nonneg _) (Real.exp_pos _).le
      have h6 : dt * (K * N) ≤ Real.exp (d * G₁ * ((k + 1 : ℕ) * dt)) * (dt * (K * N)) := le_mul_of_one_le_left (by positivity) h4
      rw [e1] at h6 ⊢
      push_cast
      calc E (k + 1) ≤ _ := h1
        _ ≤ _ := add_le_add h5 h6
        _ = _ := by ring
  -- the initial and the final error
  have hw_n := (hlay n le_rfl).1
  have b0 : E 0 ≤ n2 g.shape (fun a i => fieldData (w 0) a i - fieldData (samplesOn g (V 0)) a i) := by
    have e0 : ((0 : ℕ) : ℝ) * dt = 0 := by simp
    refine projection_contracts (h := g.step) (q := fun i => -q 0 i) (fun a i hi => ?_) (fun i hi => by rw [dDiv_sub, (hlay 0 (Nat.zero_le n)).2 i hi, hvt0 0 i hi, sub_zero])
    have := hvt 0 a i hi
    rw [e0] at this
    rw [this]
    unfold dGrad
    ring
  have b1 := projection_near (fun a => hg.step_pos a) (hvt n) (hvt0 n)
  rw [diagonal_eq hg] at b1
  have b2 : n2 g.shape (fun a i => fieldData (w n) a i - fieldData (samplesOn g (V (n * dt))) a i) ≤ E n + n2 g.shape (dGrad g.shape g.step (q n)) := by
    rw [n2_congr (y := fun a i => (fieldData (w n) a i - vt n a i) - dGrad g.shape g.step (q n) a i) fun a i hi => by rw [hvt n a i hi]; ring]
    exact n2_sub_le _ _
  have b3 := mul_le_mul_of_nonneg_left (hdiv n) hdiag
  have b4 := hsum n le_rfl
  rw [rmsError_eq hw_n, rmsError_eq hw, ← hN, div_le_iff₀ hN']
  have b5 := mul_le_mul_of_nonneg_left (add_le_add_left b0 (n * dt * (K * N))) (Real.exp_pos (d * G₁ * (n * dt))).le
  have e3 : (Real.exp (d * G₁ * (n * dt)) * (n2 g.shape (fun a i => fieldData (w 0) a i - fieldData (samplesOn g (V 0)) a i) / N + n * dt * K) + g.diagonal * D) * N =
      Real.exp (d * G₁ * (n * dt)) * (n2 g.shape (fun a i => fieldData (w 0) a i - fieldData (samplesOn g (V 0)) a i) + n * dt * (K * N)) + g.diagonal * (D * N) := by
    field_simp
  rw [e3]
  linarith

/-- **C76** From every periodic velocity such a run goes on for ever: every step succeeds. -/
theorem C76_run_exists (hd : d ≠ 0) (g : Grid d ℝ) (hg : g.Valid) (solve : PressureSolver d ℝ) (hex : ExactSolver g solve) (density viscosity dt : ℝ) (hρ : density ≠ 0)
    (forcing : Option (ForcingFn d)) (F : Fin d → (Fin d → ℝ) → ℝ) (hF : SteadyForcing g forcing F) (w₀ : Fin d → GridVariable d ℝ) (hw : PeriodicField g w₀) :
    ∃ w : ℕ → Fin d → GridVariable d ℝ, w 0 = w₀ ∧
      ∀ k, semiImplicitNavierStokes density (some viscosity) dt solve (some convectLinear) diffuse forcing forwardEuler (w k) = .ok (w (k + 1)) := by
  have step : ∀ x : {v : Fin d → GridVariable d ℝ // PeriodicField g v}, ∃ y : {v : Fin d → GridVariable d ℝ // PeriodicField g v},
      semiImplicitNavierStokes density (some viscosity) dt solve (some convectLinear) diffuse forcing forwardEuler x.1 = .ok y.1 := fun x => by
    obtain ⟨w', r, h1, h2, -⟩ := linear_step_closed (viscosity := viscosity) hd (fun a => (hg a).1) hex dt hρ hF x.2
    exact ⟨⟨w', h2⟩, h1⟩
  choose f hf using step
  exact ⟨fun k => (f^[k] ⟨w₀, hw⟩).1, rfl, fun k => by
    beta_reduce
    rw [Function.iterate_succ_apply']
    exact hf _⟩

omit [HasNan ℝ] in
theorem fluidErrorBound_mono {diag nu U G₁ G₂ G₃ G₄ H T P η dt t t' ε : ℝ} (hdiag : 0 ≤ diag) (hnu : 0 ≤ nu) (hU : 0 ≤ U) (h1 : 0 ≤ G₁) (h2 : 0 ≤ G₂) (h3 : 0 ≤ G₃) (h4 : 0 ≤ G₄) (hH : 0 ≤ H)
    (hT : 0 ≤ T) (hP : 0 ≤ P) (hdt : 0 ≤ dt) (hε : 0 ≤ ε) (ht : 0 ≤ t) (htt : t ≤ t') :
    fluidErrorBound d diag nu U G₁ G₂ G₃ G₄ H T P η dt t ε ≤ fluidErrorBound d diag nu U G₁ G₂ G₃ G₄ H T P η dt t' ε := by
  unfold fluidErrorBound spatialConstant
  gcongr

/-- **C76** The same without a hypothesis on the computed speeds: if the exact speeds are at most `U₀` and the error bound for `n` steps, times the square root of the number of cells, is at most
`U - U₀`, then the computed speeds stay below `U` and the error bound holds. (In up to three dimensions this is the case for every sufficiently fine grid.) -/
theorem C76_navier_stokes_a_priori (hd : d ≠ 0) (g : Grid d ℝ) (hg : g.Valid) (solve : PressureSolver d ℝ) (hex : ExactSolver g solve) (density viscosity dt : ℝ) (hρ : 0 < density)
    (hnu : 0 ≤ viscosity) (hdt : 0 ≤ dt) (forcing : Option (ForcingFn d)) (F : Fin d → (Fin d → ℝ) → ℝ) (hF : SteadyForcing g forcing F) (V : ℝ → Fin d → (Fin d → ℝ) → ℝ)
    (p : ℝ → (Fin d → ℝ) → ℝ) (sol : NavierStokesSolution density viscosity F V p) (U₀ U G₁ G₂ G₃ G₄ H T P η : ℝ) (sm : SmoothFlow g V p U₀ G₁ G₂ G₃ G₄ H T P) (hη : ∀ a, g.step a ≤ η)
    (hUU : U₀ ≤ U) (hc : dt * (4 * (viscosity / density) ^ 2 * ∑ a, 1 / g.step a ^ 2 + d * U ^ 2) ≤ viscosity / density)
    (w : ℕ → Fin d → GridVariable d ℝ) (hw : PeriodicField g (w 0)) (hw0 : DivergenceFree g (w 0)) (n : ℕ)
    (hsmall : Real.sqrt (∏ a, g.shape a : ℕ) * fluidErrorBound d g.diagonal (viscosity / density) U G₁ G₂ G₃ G₄ H T (P / density) η dt (n * dt) (rmsError g (w 0) (V 0)) ≤ U - U₀)
    (hrun : ∀ k < n, semiImplicitNavierStokes density (some viscosity) dt solve (some convectLinear) diffuse forcing forwardEuler (w k) = .ok (w (k + 1))) :
    ∀ k ≤ n, (∀ a i, InR g.shape i → |(w k a).array.data i| ≤ U) ∧
      rmsError g (w k) (V (k * dt)) ≤ fluidErrorBound d g.diagonal (viscosity / density) U G₁ G₂ G₃ G₄ H T (P / density) η dt (k * dt) (rmsError g (w 0) (V 0)) := by
  have hpos : ∀ a, 0 < g.shape a := fun a => (hg a).1
  have sm' : SmoothFlow g V p U G₁ G₂ G₃ G₄ H T P := ⟨sm.periodic, sm.pressure_periodic,
    fun t ht => ⟨fun b x => ((sm.bounds t ht).speed b x).trans hUU, (sm.bounds t ht).first, (sm.bounds t ht).second, (sm.bounds t ht).third, (sm.bounds t ht).mixed⟩, sm.fourth, sm.time, sm.pressure⟩
  have hper : ∀ k, k ≤ n → PeriodicField g (w k) := fun k => by
    induction k with
    | zero => exact fun _ => hw
    | succ k ih =>
      intro hk
      obtain ⟨w', r, h1, h2, -, -⟩ := linear_step_closed (viscosity := viscosity) hd hpos hex dt hρ.ne' hF (ih (by omega))
      rw [hrun k (by omega)] at h1
      obtain rfl := Except.ok.inj h1
      exact h2
  set a₀ : Fin d := ⟨0, Nat.pos_of_ne_zero hd⟩ with ha₀
  have hb0 := sm'.bounds 0 le_rfl
  have U0 : 0 ≤ U := (abs_nonneg _).trans (hb0.speed a₀ 0)
  have A1 : 0 ≤ G₁ := (abs_nonneg _).trans ((hb0.first a₀ a₀).2 0)
  have A2 : 0 ≤ G₂ := (abs_nonneg _).trans ((hb0.second a₀ a₀).2 0)
  have A3 : 0 ≤ G₃ := (abs_nonneg _).trans ((hb0.third a₀ a₀).2 0)
  have A4 : 0 ≤ G₄ := (abs_nonneg _).trans ((sm.fourth 0 le_rfl a₀ a₀).2 0)
  have AH : 0 ≤ H := (abs_nonneg _).trans ((hb0.mixed a₀ a₀).2 0)
  have AP : 0 ≤ P := (abs_nonneg _).trans ((sm.pressure 0 le_rfl a₀).2 0)
  have AT : 0 ≤ T := (abs_nonneg _).trans ((sm.time a₀).2 0 0 le_rfl)
  intro k
  induction k using Nat.strong_induction_on with
  | _ k ih =>
    intro hk
    have herr := C76_navier_stokes hd g hg solve hex density viscosity dt hρ hnu hdt forcing F hF V p sol U G₁ G₂ G₃ G₄ H T P η sm' hη hc w hw hw0 k (fun j hj => hrun j (by omega))
      (fun j hj => (ih j hj (by omega)).1)
    refine ⟨fun a i hi => ?_, herr⟩
    have hmono := fluidErrorBound_mono (d := d) (diag := g.diagonal) (η := η) (Real.sqrt_nonneg _) (div_nonneg hnu hρ.le) U0 A1 A2 A3 A4 AH AT (div_nonneg AP hρ.le) hdt
      (Real.sqrt_nonneg _ : 0 ≤ rmsError g (w 0) (V 0)) (mul_nonneg (Nat.cast_nonneg k) hdt) (mul_le_mul_of_nonneg_right (Nat.cast_le.2 hk : (k : ℝ) ≤ n) hdt)
    have hN' : 0 < Real.sqrt (box g.shape).card := Real.sqrt_pos.2 (by
      rw [box_card]
      exact_mod_cast Finset.prod_pos fun a _ => hpos a)
    have h1 : |fieldData (w k) a i - fieldData (samplesOn g (V (k * dt))) a i| ≤ n2 g.shape fun a i => fieldData (w k) a i - fieldData (samplesOn g (V (k * dt))) a i := by
      refine abs_le_of_sq_le_sq ?_ (n2_nonneg _)
      rw [n2_sq']
      exact (Finset.single_le_sum (f := fun i => (fieldData (w k) a i - fieldData (samplesOn g (V (k * dt))) a i) ^ 2) (fun _ _ => sq_nonneg _) (mem_box.2 hi)).trans
        (Finset.single_le_sum (f := fun a => ∑ i ∈ box g.shape, (fieldData (w k) a i - fieldData (samplesOn g (V (k * dt))) a i) ^ 2) (fun _ _ => Finset.sum_nonneg fun _ _ => sq_nonneg _)
          (Finset.mem_univ a))
    have h2 := rmsError_eq (hper k hk) (V (k * dt))
    rw [eq_div_iff hN'.ne'] at h2
    rw [← h2, box_card] at h1
    have h3 := mul_le_mul_of_nonneg_right (herr.trans hmono) (Real.sqrt_nonneg ((∏ a, g.shape a : ℕ) : ℝ))
    have h4 := (sm.bounds (k * dt) (mul_nonneg (Nat.cast_nonneg k) hdt)).speed a (g.position (fun b => if b = a then 1 else 1 / 2) i)
    have h5 : fieldData (samplesOn g (V (k * dt))) a i = V (k * dt) a (g.position (fun b => if b = a then 1 else 1 / 2) i) := rfl
    have h6 : |fieldData (w k) a i - fieldData (samplesOn g (V (k * dt))) a i| ≤ U - U₀ := h1.trans (h3.trans (by rw [mul_comm]; exact hsmall))
    rw [h5] at h6
    show |fieldData (w k) a i| ≤ U
    rw [abs_le] at h4 h6 ⊢
    constructor <;> linarith [h4.1, h4.2, h6.1, h6.2]

end JaxCfd
