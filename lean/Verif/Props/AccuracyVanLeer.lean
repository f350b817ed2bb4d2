import Verif.Lemmas.Limiter
import Verif.Props.AccuracyConvection

/-!
# C73: accuracy of the van Leer scheme, the default advection of the incompressible solver
-/

namespace JaxCfd
variable {d : ℕ}

/-- The van Leer flux through a face with velocity `u` from the four values around it; `l` is `dt / step`. -/
noncomputable def limFlux (l u cm c cp cpp : ℝ) : ℝ :=
  u * ((c + cp) / 2) - |u| * (cp - c) / 2 + 1 / 2 * (1 - l * |u|) * |u| * limited (if 0 < u then c - cm else cpp - cp) (cp - c)

/-- The error of the van Leer fluxes from the error of the centred fluxes. -/
theorem van_leer_flux_bound {u p : ℝ → ℝ} {Q₀ Q₁ P₁ P₂ D E : ℝ} (hu : Differentiable ℝ u) (hp : ContDiff ℝ (2 : ℕ) p) (hu0 : ∀ t, |u t| ≤ Q₀) (hu1 : ∀ t, |deriv u t| ≤ Q₁)
    (hp1 : ∀ t, |deriv p t| ≤ P₁) (hp2 : ∀ t, |iteratedDeriv 2 p t| ≤ P₂) (x : ℝ) {h k : ℝ} (hh : 0 < h) (hk : 0 ≤ k) (hcfl : k / h * Q₀ ≤ 1)
    (hE : |(u (x + h / 2) * ((p x + p (x + h)) / 2) - u (x - h / 2) * ((p (x - h) + p x) / 2)) / h - D| ≤ E) :
    |(limFlux (k / h) (u (x + h / 2)) (p (x - h)) (p x) (p (x + h)) (p (x + 2 * h)) - limFlux (k / h) (u (x - h / 2)) (p (x - 2 * h)) (p (x - h)) (p x) (p (x + h))) / h - D| ≤
      E + (9 / 2 * (Q₀ * P₂) + 3 / 2 * (Q₁ * P₁)) * h := by
  have k2 := upwind_flux_bound hp hu hp1 hp2 hu0 hu1 x hh
  have k3 := limiter_flux_bound hu hp hu0 hu1 hp1 hp2 x hh hk hcfl
  unfold limFlux
  set A := 1 / 2 * (1 - k / h * |u (x + h / 2)|) * |u (x + h / 2)| *
        limited (if 0 < u (x + h / 2) then p x - p (x - h) else p (x + 2 * h) - p (x + h)) (p (x + h) - p x)
  set B := 1 / 2 * (1 - k / h * |u (x - h / 2)|) * |u (x - h / 2)| *
        limited (if 0 < u (x - h / 2) then p (x - h) - p (x - 2 * h) else p (x + h) - p x) (p x - p (x - h))
  have e : (u (x + h / 2) * ((p x + p (x + h)) / 2) - |u (x + h / 2)| * (p (x + h) - p x) / 2 + A -
      (u (x - h / 2) * ((p (x - h) + p x) / 2) - |u (x - h / 2)| * (p x - p (x - h)) / 2 + B)) / h - D =
      ((u (x + h / 2) * ((p x + p (x + h)) / 2) - u (x - h / 2) * ((p (x - h) + p x) / 2)) / h - D) -
        (|u (x + h / 2)| * (p (x + h) - p x) - |u (x - h / 2)| * (p x - p (x - h))) / (2 * h) + (A - B) / h := by
    field_simp
    ring
  rw [e]
  refine (abs_add_le _ _).trans ((add_le_add ((abs_sub _ _).trans (add_le_add hE k2)) k3).trans (le_of_eq ?_))
  ring

theorem van_leer_flux_bound' {u p : ℝ → ℝ} {Q₀ Q₁ P₁ P₂ D E : ℝ} (hu : Differentiable ℝ u) (hp : ContDiff ℝ (2 : ℕ) p) (hu0 : ∀ t, |u t| ≤ Q₀) (hu1 : ∀ t, |deriv u t| ≤ Q₁)
    (hp1 : ∀ t, |deriv p t| ≤ P₁) (hp2 : ∀ t, |iteratedDeriv 2 p t| ≤ P₂) (x : ℝ) {h k : ℝ} (hh : 0 < h) (hk : 0 ≤ k) (hcfl : k / h * Q₀ ≤ 1)
    (hE : |((p x + p (x + h)) / 2 * u (x + h / 2) - (p (x - h) + p x) / 2 * u (x - h / 2)) / h - D| ≤ E) :
    |(limFlux (k / h) (u (x + h / 2)) (p (x - h)) (p x) (p (x + h)) (p (x + 2 * h)) - limFlux (k / h) (u (x - h / 2)) (p (x - 2 * h)) (p (x - h)) (p x) (p (x + h))) / h - D| ≤
      E + (9 / 2 * (Q₀ * P₂) + 3 / 2 * (Q₁ * P₁)) * h :=
  van_leer_flux_bound hu hp hu0 hu1 hp1 hp2 x hh hk hcfl (by rw [mul_comm (u _), mul_comm (u _)]; exact hE)

variable [HasNan ℝ]

/-- The closed form of the van Leer scheme. -/
theorem vanLeer_closed (hd : d ≠ 0) {c : GridVariable d ℝ} (hc : c.Periodic) {v : Fin d → GridVariable d ℝ} (hv : StaggeredPeriodic c v) (dt : ℝ) :
    ∃ r, advectVanLeerUsingLimiters c v dt = .ok r ∧ r.grid = c.array.grid ∧ r.shape = c.array.shape ∧ r.offset = c.array.offset ∧
      ∀ i : Idx d, InR c.array.shape i → r.data i = -∑ a, (limFlux (dt / c.array.grid.step a) ((v a).array.data i)
          (c.array.data (rollIdx c.array.shape a (-1) i)) (c.array.data i) (c.array.data (rollIdx c.array.shape a 1 i)) (c.array.data (rollIdx c.array.shape a 2 i)) -
        limFlux (dt / c.array.grid.step a) ((v a).array.data (rollIdx c.array.shape a (-1) i))
          (c.array.data (rollIdx c.array.shape a (-2) i)) (c.array.data (rollIdx c.array.shape a (-1) i)) (c.array.data i) (c.array.data (rollIdx c.array.shape a 1 i))) / c.array.grid.step a := by
  have hlw : ∀ a, _ := fun a => laxWendroff_half hc a v dt (hv a).2.2.1 (hv a).2.2.2.1 (by rw [(hv a).2.2.2.2]; simp)
  have hW := fun a => tvd_half hc a v dt laxWendroff vanLeer _ (hv a).2.2.1 (hv a).2.2.2.1 (hv a).2.2.2.2 (hlw a) rfl (hv a).2.2.2.2.symm rfl
  have h1 := advectGeneral_staggered hd hc hv (tvdInterpolation laxWendroff vanLeer) dt _ hW (fun a => ⟨hc.mk' (fun _ => rfl) rfl rfl, rfl, rfl, rfl⟩)
  refine ⟨_, h1, rfl, rfl, rfl, fun i hi => ?_⟩
  dsimp only
  refine congrArg Neg.neg (Finset.sum_congr rfl fun a _ => ?_)
  have face : ∀ l u cm c cp cpp : ℝ, ((if 0 < u then c else cp) - ((if 0 < u then c else cp) - (if 0 < u then c + 1 / 2 * (1 - l * u) * (cp - c) else cp - 1 / 2 * (1 + l * u) * (cp - c))) *
      (if 0 < u then vanLeer (safeDiv (c - cm) (cp - c)) else vanLeer (safeDiv (cpp - cp) (cp - c)))) * u = limFlux l u cm c cp cpp := fun l u cm c cp cpp => by
    unfold limFlux limited
    split_ifs with h
    · rw [abs_of_pos h]; ring
    · rw [abs_of_nonpos (not_lt.1 h)]; ring
  rw [rollIdx_zero hi, rollIdx_zero (rollIdx_inR hi a (-1)), rollIdx_add, rollIdx_add, rollIdx_add, show (-1 + 1 : ℤ) = 0 by norm_num, rollIdx_zero hi, show (-1 + -1 : ℤ) = -2 by norm_num,
    show (-1 + 2 : ℤ) = 1 by norm_num, face, face]

/-- Only the interpolated velocities matter. -/
theorem vanLeer_aligned {c : GridVariable d ℝ} (hc : c.Periodic) {v A : Fin d → GridVariable d ℝ} (hA : StaggeredPeriodic c A) (h : ∀ a, linear (v a) (upperFace c a) = .ok (A a)) (dt : ℝ) :
    advectVanLeerUsingLimiters c v dt = advectVanLeerUsingLimiters c A dt := by
  unfold advectVanLeerUsingLimiters advectGeneral
  rw [if_pos (hasAllPeriodic_of hc.1), if_pos (hasAllPeriodic_of hc.1), seqFin_ok _ A (fun a => by unfold linearFn; rw [controlVolumeOffsets_eq]; exact h a),
    seqFin_ok _ A (fun a => by unfold linearFn; rw [controlVolumeOffsets_eq]; exact linear_skip _ _ (fun b => by rw [(hA a).2.2.2.2]; rfl))]

/-- **C73** The van Leer scheme is first order accurate for every time step that respects the CFL condition, where the limiter is active or not. -/
theorem C73_advect_van_leer (hd : d ≠ 0) {c : GridVariable d ℝ} {v : Fin d → GridVariable d ℝ} {C : (Fin d → ℝ) → ℝ} {V : Fin d → (Fin d → ℝ) → ℝ}
    (hc : c.Periodic) (hg : c.array.grid.Valid) (hv : StaggeredPeriodic c v) (hC : PeriodicOn c.array.grid C)
    (hV : ∀ a, PeriodicOn c.array.grid (V a)) (hs : c.array.Samples C) (hvs : ∀ a, (v a).array.Samples (V a)) (Q₀ Q₁ P₁ P₂ P₃ M : Fin d → ℝ)
    (hb : FluxBounds C V Q₀ Q₁ P₁ P₂ P₃ M) (dt : ℝ) (hdt : 0 ≤ dt) (hcfl : ∀ a, dt * Q₀ a ≤ c.array.grid.step a) :
    ∃ r, advectVanLeerUsingLimiters c v dt = .ok r ∧ r.grid = c.array.grid ∧ r.shape = c.array.shape ∧ r.offset = c.array.offset ∧
      r.Approximates (fun x => -∑ a, partialDeriv 1 a (fun x => V a x * C x) x)
        (∑ a, ((9 / 2 * (Q₀ a * P₂ a) + 3 / 2 * (Q₁ a * P₁ a)) * c.array.grid.step a + (M a / 24 + (Q₀ a * P₃ a + Q₁ a * P₂ a) / 8) * c.array.grid.step a ^ 2)) := by
  obtain ⟨r, hr, h1, h2, h3, h4⟩ := vanLeer_closed hd hc hv dt
  refine ⟨r, hr, h1, h2, h3, fun i hi => ?_⟩
  rw [h2] at hi
  rw [h4 i hi, h1, h3]
  rw [← abs_neg, neg_sub, sub_neg_eq_add, neg_add_eq_sub, ← Finset.sum_sub_distrib]
  refine (Finset.abs_sum_le_sum_abs _ _).trans (Finset.sum_le_sum fun a _ => ?_)
  obtain ⟨e0, e1, e2, e3, e4⟩ := flux_values hc hg hv hC hV hs hvs hi a
  have e5 := Samples_roll hc hg hC hs a 2 hi
  have e6 := Samples_roll hc hg hC hs a (-2) hi
  set x := c.array.grid.position c.array.offset i
  set h := c.array.grid.step a
  simp only [Int.cast_ofNat, Int.cast_neg, neg_mul, ← sub_eq_add_neg] at e5 e6
  rw [e0, e1, e2, e3, e4, e5, e6]
  have hh := hg.step_pos a
  have q1 : ∀ t, |deriv (fun t => V a (Function.update x a t)) t| ≤ Q₁ a := fun t => by rw [← iteratedDeriv_one]; exact ((hb.shear a).slice x).2 t
  have k1 := flux_bound ((hb.third a).slice x).1 (((hb.shear a).slice x).1.differentiable (by norm_num)) ((hb.flux a).slice x).1 ((hb.flux a).slice x).2 ((hb.second a).slice x).2
    ((hb.third a).slice x).2 (fun t => hb.speed a _) q1 (x a) hh
  have key := van_leer_flux_bound (u := fun t => V a (Function.update x a t)) (p := fun t => C (Function.update x a t)) (((hb.shear a).slice x).1.differentiable (by norm_num)) ((hb.second a).slice x).1
    (fun t => hb.speed a _) q1 (fun t => by rw [← iteratedDeriv_one]; exact ((hb.first a).slice x).2 t) ((hb.second a).slice x).2 (x a) hh hdt
    (by rw [div_mul_eq_mul_div]; exact (div_le_one hh).2 (hcfl a)) k1
  refine le_trans (le_of_eq ?_) (key.trans (le_of_eq ?_))
  · unfold partialDeriv
    rfl
  · show _ = (9 / 2 * (Q₀ a * P₂ a) + 3 / 2 * (Q₁ a * P₁ a)) * h + (M a / 24 + (Q₀ a * P₃ a + Q₁ a * P₂ a) / 8) * h ^ 2
    ring

/-- **C73** The same for `advect_van_leer`, for a scalar at the cell centres. -/
theorem C73_advect_van_leer_fused (lastAxis : Fin d) (mode : Padding) {c : GridVariable d ℝ} {v : Fin d → GridVariable d ℝ} {C : (Fin d → ℝ) → ℝ} {V : Fin d → (Fin d → ℝ) → ℝ}
    (hc : c.Periodic) (hg : c.array.grid.Valid) (hoff : ∀ a, c.array.offset a = 1 / 2) (hv : StaggeredPeriodic c v) (hC : PeriodicOn c.array.grid C)
    (hV : ∀ a, PeriodicOn c.array.grid (V a)) (hs : c.array.Samples C) (hvs : ∀ a, (v a).array.Samples (V a)) (Q₀ Q₁ P₁ P₂ P₃ M : Fin d → ℝ)
    (hb : FluxBounds C V Q₀ Q₁ P₁ P₂ P₃ M) (dt : ℝ) (hdt : 0 ≤ dt) (hcfl : ∀ a, dt * Q₀ a ≤ c.array.grid.step a) :
    ∃ r, advectVanLeer lastAxis c v dt mode = .ok r ∧ r.grid = c.array.grid ∧ r.shape = c.array.shape ∧ r.offset = c.array.offset ∧
      r.Approximates (fun x => -∑ a, partialDeriv 1 a (fun x => V a x * C x) x)
        (∑ a, ((9 / 2 * (Q₀ a * P₂ a) + 3 / 2 * (Q₁ a * P₁ a)) * c.array.grid.step a + (M a / 24 + (Q₀ a * P₃ a + Q₁ a * P₂ a) / 8) * c.array.grid.step a ^ 2)) := by
  have hd : d ≠ 0 := fun h => by subst h; exact lastAxis.elim0
  obtain ⟨r, r', h1, h2, h3, h4, h5, h6, -⟩ := C27_van_leer_implementations_agree c hc hoff v hv dt mode lastAxis
  obtain ⟨q, hq, q1, q2, q3, q4⟩ := C73_advect_van_leer hd hc hg hv hC hV hs hvs Q₀ Q₁ P₁ P₂ P₃ M hb dt hdt hcfl
  rw [h2] at hq
  obtain rfl := Except.ok.inj hq
  refine ⟨r, h1, h4.trans q1, h5.trans q2, h3.trans q3, fun i hi => ?_⟩
  rw [h6 i hi, h3, h4]
  exact q4 i (by rw [← h5]; exact hi)

/-- **C73** The default convection of the incompressible solver is first order accurate: for samples of a smooth periodic velocity and a time step within the CFL condition, component `i`
approximates `-∑_a ∂(V_i V_a)/∂x_a`. -/
theorem C73_default_convect (hd : d ≠ 0) (g : Grid d ℝ) (hg : g.Valid) (v : Fin d → GridVariable d ℝ) (hv : PeriodicField g v) (V : Fin d → (Fin d → ℝ) → ℝ)
    (hV : ∀ a, PeriodicOn g (V a)) (hs : ∀ a, (v a).array.Samples (V a)) (U G₁ G₂ G₃ H : ℝ) (hb : VelocityBounds V U G₁ G₂ G₃ H)
    (dt : ℝ) (hdt : 0 ≤ dt) (hcfl : ∀ a, dt * U ≤ g.step a) :
    ∃ R, defaultConvect dt v = .ok R ∧ ∀ i, (R i).grid = g ∧ (R i).shape = g.shape ∧ (R i).offset = (v i).array.offset ∧
      (R i).Approximates (fun x => -∑ a, partialDeriv 1 a (fun x => V i x * V a x) x)
        (∑ a, ((9 / 2 * (U * G₂) + 3 / 2 * G₁ ^ 2) * g.step a + (5 / 24 * (U * G₃) + 3 / 8 * (G₁ * G₂)) * g.step a ^ 2 + (G₁ * G₂ + U * H) / 8 * g.step i ^ 2)) := by
  have hpos : ∀ a, 0 < g.shape a := fun a => (hg a).1
  have hper := hv.periodic hpos
  have hface : ∀ i j, upperFace (v i) j = upperFace (v j) i := fun i j => by
    funext b
    unfold upperFace
    rcases eq_or_ne b j with rfl | hj <;> rcases eq_or_ne b i with rfl | hi
    · rfl
    · rw [Function.update_self, Function.update_of_ne hi, (hv.1 i).2.2, (hv.1 b).2.2, if_neg hi, if_pos rfl]; norm_num
    · rw [Function.update_self, Function.update_of_ne hj, (hv.1 b).2.2, (hv.1 j).2.2, if_neg hj, if_pos rfl]; norm_num
    · rw [Function.update_of_ne hj, Function.update_of_ne hi, (hv.1 i).2.2, (hv.1 j).2.2, if_neg hi, if_neg hj]
  have hcls : ∀ a, (v a).bc.cls = .homogeneous := fun a => by rw [hv.2 a]; rfl
  have hf : ∀ i j, linear (v i) (upperFace (v i) j) = .ok ⟨⟨⟨g.shape, lerp ℝ g.shape j (1 / 2) (v i).array.data⟩, upperFace (v i) j, g⟩, (v i).bc⟩ := fun i j => by
    have := linear_one_axis (hper i) j ((v i).array.offset j + 1 / 2)
    rw [add_sub_cancel_left, (hv.1 i).1, (hv.1 i).2.1] at this
    exact this
  have hA : ∀ i, StaggeredPeriodic (v i) fun a => (⟨⟨⟨g.shape, lerp ℝ g.shape i (1 / 2) (v a).array.data⟩, upperFace (v a) i, g⟩, (v a).bc⟩ : GridVariable d ℝ) := fun i a =>
    ⟨(hper a).mk' (fun _ => rfl) (by exact ((hv.1 a).2.1).symm) (by exact ((hv.1 a).1).symm), hcls a, (hv.1 i).2.1.symm, (hv.1 i).1.symm, hface a i⟩
  have hcl := fun i => vanLeer_closed hd (hper i) (hA i) dt
  choose R hR hRg hRs hRo hRd using hcl
  refine ⟨R, seqFin_ok _ R fun i => (vanLeer_aligned (hper i) (hA i) (fun a => by rw [hface i a]; exact hf a i) dt).trans (hR i), fun i =>
    ⟨(hRg i).trans (hv.1 i).1, (hRs i).trans (hv.1 i).2.1, hRo i, fun k hk => ?_⟩⟩
  have hk' : InR g.shape k := by rw [hRs i, (hv.1 i).2.1] at hk; exact hk
  rw [hRd i k (by rw [(hv.1 i).2.1]; exact hk'), hRg i, hRo i, (hv.1 i).1, (hv.1 i).2.1]
  rw [← abs_neg, neg_sub, sub_neg_eq_add, neg_add_eq_sub, ← Finset.sum_sub_distrib]
  refine (Finset.abs_sum_le_sum_abs _ _).trans (Finset.sum_le_sum fun a _ => ?_)
  dsimp only
  set x := g.position (v i).array.offset k with hx
  have val : ∀ (b : Fin d) (j : Idx d), InR g.shape j → (v b).array.data j = V b (g.position (v b).array.offset j) := fun b j hj => by
    rw [hs b j (by rw [(hv.1 b).2.1]; exact hj), (hv.1 b).1]
  have roll : ∀ (b c : Fin d) (o : Fin d → ℚ) (n : ℤ) (j : Idx d), V b (g.position o (rollIdx g.shape c n j)) = V b (shiftPoint c (n * g.step c) (g.position o j)) := fun b c o n j =>
    sample_roll hg (hV b) rfl o c n j
  have half : ∀ (c : Fin d), g.position (v c).array.offset k = shiftPoint c (g.step c / 2) (shiftPoint i (-(g.step i / 2)) x) := fun c => by
    have : (v c).array.offset = Function.update (Function.update (v i).array.offset i (1 / 2)) c ((Function.update (v i).array.offset i (1 / 2)) c + 1 / 2) := by
      funext b
      rcases eq_or_ne b c with rfl | hbc
      · rw [Function.update_self, (hv.1 b).2.2, if_pos rfl]
        rcases eq_or_ne b i with rfl | hbi
        · rw [Function.update_self]; norm_num
        · rw [Function.update_of_ne hbi, (hv.1 i).2.2, if_neg hbi]; norm_num
      · rw [Function.update_of_ne hbc, (hv.1 c).2.2, if_neg hbc]
        rcases eq_or_ne b i with rfl | hbi
        · rw [Function.update_self]
        · rw [Function.update_of_ne hbi, (hv.1 i).2.2, if_neg hbi]
    rw [this, position_update, position_update, (hv.1 i).2.2, if_pos rfl]
    unfold shiftPoint
    rw [hx]
    push_cast
    congr 1
    · congr 1; ring
    · rw [show g.position (v i).array.offset k i + (1 / 2 - 1) * g.step i = g.position (v i).array.offset k i + -(g.step i / 2) by ring]
      ring
  have comm : ∀ (c e : Fin d) (s t : ℝ) (y : Fin d → ℝ), shiftPoint c t (shiftPoint e s y) = shiftPoint e s (shiftPoint c t y) := fun c e s t y => by
    unfold shiftPoint
    rcases eq_or_ne c e with rfl | hia
    · rw [Function.update_self, Function.update_self, Function.update_idem, Function.update_idem]
      congr 1; ring
    · rw [Function.update_of_ne hia, Function.update_of_ne hia.symm, Function.update_comm hia]
  have add : ∀ (c : Fin d) (s t : ℝ) (y : Fin d → ℝ), shiftPoint c s (shiftPoint c t y) = shiftPoint c (t + s) y := fun c s t y => by
    unfold shiftPoint
    rw [Function.update_self, Function.update_idem, add_assoc]
  have hVs : ∀ s : ℝ, PeriodicOn g (fun y => V a (shiftPoint i s y)) := fun s y c => by
    show V a (shiftPoint i s (shiftPoint c _ y)) = _
    rw [comm]
    exact hV a _ c
  have roll2 : ∀ (s : ℝ) (n : ℤ), V a (shiftPoint i s (g.position (v a).array.offset (rollIdx g.shape a n k))) = V a (shiftPoint i s (shiftPoint a (n * g.step a) (g.position (v a).array.offset k))) :=
    fun s n => sample_roll hg (hVs s) rfl _ a n k
  rw [lerp_mid i _ hk', lerp_mid i _ (rollIdx_inR hk' a (-1)),
    val i k hk', val a k hk', val i _ (rollIdx_inR hk' a 1), val i _ (rollIdx_inR hk' a 2), val i _ (rollIdx_inR hk' a (-1)), val i _ (rollIdx_inR hk' a (-2)), val a _ (rollIdx_inR hk' i 1),
    val a _ (rollIdx_inR hk' a (-1)), val a _ (rollIdx_inR (rollIdx_inR hk' a (-1)) i 1), roll, roll, roll, roll, roll, roll, roll, roll2, half a, ← hx]
  rw [comm i a _ _ (shiftPoint i (-(g.step i / 2)) x), add i, comm i a _ _ (shiftPoint a _ _), comm i a _ _ (shiftPoint i (-(g.step i / 2)) x), add i, add a, add a]
  simp only [Int.cast_one, Int.cast_ofNat, Int.cast_neg, one_mul, neg_mul, ← comm i a]
  rw [show -(g.step i / 2) + g.step i = g.step i / 2 by ring, show g.step a / 2 + -g.step a = -(g.step a / 2) by ring]
  have hB : ∀ t, HasDerivAt (fun t => (V a (shiftPoint i (-(g.step i / 2)) (Function.update x a t)) + V a (shiftPoint i (g.step i / 2) (Function.update x a t))) / 2)
      ((partialDeriv 1 a (V a) (shiftPoint i (-(g.step i / 2)) (Function.update x a t)) + partialDeriv 1 a (V a) (shiftPoint i (g.step i / 2) (Function.update x a t))) / 2) t := fun t =>
    ((hasDerivAt_shift (hb.first a a) i _ x t).add (hasDerivAt_shift (hb.first a a) i _ x t)).div_const 2
  have B0 : ∀ t, |(V a (shiftPoint i (-(g.step i / 2)) (Function.update x a t)) + V a (shiftPoint i (g.step i / 2) (Function.update x a t))) / 2| ≤ U := fun t => by
    have h1 := abs_le.1 (hb.speed a (shiftPoint i (-(g.step i / 2)) (Function.update x a t)))
    have h2 := abs_le.1 (hb.speed a (shiftPoint i (g.step i / 2) (Function.update x a t)))
    rw [abs_le]
    constructor <;> linarith [h1.1, h1.2, h2.1, h2.2]
  have B1 : ∀ t, |(partialDeriv 1 a (V a) (shiftPoint i (-(g.step i / 2)) (Function.update x a t)) + partialDeriv 1 a (V a) (shiftPoint i (g.step i / 2) (Function.update x a t))) / 2| ≤ G₁ := fun t => by
    have h1 := abs_le.1 ((hb.first a a).2 (shiftPoint i (-(g.step i / 2)) (Function.update x a t)))
    have h2 := abs_le.1 ((hb.first a a).2 (shiftPoint i (g.step i / 2) (Function.update x a t)))
    rw [abs_le]
    constructor <;> linarith [h1.1, h1.2, h2.1, h2.2]
  have k1 := product_flux_bound (a := fun t => V i (Function.update x a t)) (b := fun t => V a (Function.update x a t))
    ((hb.third a i).slice x).1 ((hb.third a a).slice x).1 hB
    (fun t => hb.speed i _) ((hb.first a i).slice x).2 ((hb.second a i).slice x).2 ((hb.third a i).slice x).2
    (fun t => hb.speed a _) ((hb.first a a).slice x).2 ((hb.second a a).slice x).2 ((hb.third a a).slice x).2 B0 B1
    (fun t => shift_average_bound (hb.second i a) (g.step i) (Function.update x a t))
    (fun t => by
      have := shift_average_bound (hb.mixed i a) (g.step i) (Function.update x a t)
      rwa [partialDeriv_update 1 a (V a) x t, iteratedDeriv_one] at this)
    (x a) (hg.step_pos a)
  have hh := hg.step_pos a
  have key := van_leer_flux_bound' (p := fun t => V i (Function.update x a t)) (fun t => (hB t).differentiableAt) ((hb.second a i).slice x).1 B0 (fun t => by rw [(hB t).deriv]; exact B1 t)
    (fun t => by rw [← iteratedDeriv_one]; exact ((hb.first a i).slice x).2 t) ((hb.second a i).slice x).2 (x a) hh hdt
    (by rw [div_mul_eq_mul_div]; exact (div_le_one hh).2 (hcfl a)) k1
  refine le_trans (le_of_eq ?_) (key.trans (le_of_eq (by ring)))
  rw [Function.update_eq_self]
  unfold partialDeriv
  unfold shiftPoint
  simp only [sub_eq_add_neg]

end JaxCfd
