import Verif.Props.AccuracyInterp
import Verif.Props.Advection
import Verif.Props.NavierStokes

/-!
# C73: accuracy of divergence, curl, diffusion and advection
-/

namespace JaxCfd
variable {d : ℕ} [HasNan ℝ]

/-- **C73** The divergence of samples of a smooth velocity field, at the cell centres. -/
theorem C73_divergence (hd : d ≠ 0) (g : Grid d ℝ) (hg : g.Valid) (v : Fin d → GridVariable d ℝ) (hv : PeriodicField g v) (V : Fin d → (Fin d → ℝ) → ℝ)
    (hV : ∀ a, PeriodicOn g (V a)) (hs : ∀ a, (v a).array.Samples (V a)) (M : Fin d → ℝ) (hM : ∀ a, SmoothAlong 3 a (M a) (V a)) :
    ∃ r, divergence (List.ofFn v) = .ok r ∧ r.grid = g ∧ r.shape = g.shape ∧ (∀ a, r.offset a = 1 / 2) ∧
      r.Approximates (fun x => ∑ a, partialDeriv 1 a (V a) x) (∑ a, M a * g.step a ^ 2 / 24) := by
  have hpos : ∀ a, 0 < g.shape a := fun a => (hg a).1
  refine ⟨_, hv.divergence hd hpos, rfl, rfl, fun _ => rfl, fun i hi => ?_⟩
  have hi' : InR g.shape i := hi
  show |(∑ a : Fin d, ((v a).array.data i - (v a).array.data (rollIdx g.shape a (-1) i)) / g.step a : ℝ) - ∑ a, partialDeriv 1 a (V a) (g.position (fun _ => 1 / 2) i)| ≤ _
  rw [← Finset.sum_sub_distrib]
  refine (Finset.abs_sum_le_sum_abs _ _).trans (Finset.sum_le_sum fun a _ => ?_)
  obtain ⟨r, hr, hrg, hrs, hro, hra⟩ := C73_backward_difference (hv.periodic hpos a) (by rw [(hv.1 a).1]; exact hg) (by rw [(hv.1 a).1]; exact hV a) (hs a) a (M a) (hM a)
  rw [backwardDifference_periodic (hv.periodic hpos a)] at hr
  obtain rfl := Except.ok.inj hr
  have := hra i (by show InR (v a).array.shape i; rw [(hv.1 a).2.1]; exact hi')
  have ho : Function.update (v a).array.offset a ((v a).array.offset a - 1 / 2) = fun _ => 1 / 2 := by
    funext b
    rcases eq_or_ne b a with rfl | hb
    · rw [Function.update_self, (hv.1 b).2.2 b, if_pos rfl]; norm_num
    · rw [Function.update_of_ne hb, (hv.1 a).2.2 b, if_neg hb]
  dsimp only at this
  rw [ho, (hv.1 a).1, (hv.1 a).2.1] at this
  exact this

/-- **C73** `diffuse` approximates the viscosity times the Laplacian. -/
theorem C73_diffuse {u : GridVariable d ℝ} {f : (Fin d → ℝ) → ℝ} (hu : u.Periodic) (hg : u.array.grid.Valid) (hf : PeriodicOn u.array.grid f) (hs : u.array.Samples f)
    (M : Fin d → ℝ) (hM : ∀ a, SmoothAlong 4 a (M a) f) (nu : ℝ) :
    ∃ r, diffuse u nu = .ok r ∧ r.grid = u.array.grid ∧ r.shape = u.array.shape ∧ r.offset = u.array.offset ∧
      r.Approximates (fun x => nu * ∑ a, partialDeriv 2 a f x) (|nu| * ∑ a, M a * u.array.grid.step a ^ 2 / 12) := by
  obtain ⟨r, hr, h1, h2, h3, h4⟩ := C73_laplacian hu hg hf hs M hM
  refine ⟨gmap (fun x => nu * x) r, ?_, h1, h2, h3, fun i hi => ?_⟩
  · unfold diffuse
    rw [hr, Except.bind_ok]
    rfl
  · show |nu * r.data i - nu * ∑ a, partialDeriv 2 a f (r.grid.position r.offset i)| ≤ _
    rw [← mul_sub, abs_mul]
    exact mul_le_mul_of_nonneg_left (h4 i hi) (abs_nonneg _)

/-- **C73** The curl of samples of a smooth velocity field in two dimensions. -/
theorem C73_curl2d (g : Grid 2 ℝ) (hg : g.Valid) (v : Fin 2 → GridVariable 2 ℝ) (hv : PeriodicField g v) (V : Fin 2 → (Fin 2 → ℝ) → ℝ)
    (hV : ∀ a, PeriodicOn g (V a)) (hs : ∀ a, (v a).array.Samples (V a)) (M₀ M₁ : ℝ) (h0 : SmoothAlong 3 1 M₀ (V 0)) (h1 : SmoothAlong 3 0 M₁ (V 1)) :
    ∃ r, curl2d [v 0, v 1] = .ok r ∧ r.grid = g ∧ r.shape = g.shape ∧ (∀ a, r.offset a = 1) ∧
      r.Approximates (fun x => partialDeriv 1 0 (V 1) x - partialDeriv 1 1 (V 0) x) (M₁ * g.step 0 ^ 2 / 24 + M₀ * g.step 1 ^ 2 / 24) := by
  have hpos : ∀ a, 0 < g.shape a := fun a => (hg a).1
  have key : ∀ a b : Fin 2, a ≠ b → ∀ M, SmoothAlong 3 a M (V b) → ∃ r, forwardDifference (v b) a = .ok r ∧ r.grid = g ∧ r.shape = g.shape ∧ r.offset = (fun _ => 1) ∧
      r.Approximates (partialDeriv 1 a (V b)) (M * g.step a ^ 2 / 24) := fun a b hab M hM => by
    obtain ⟨r, hr, h1, h2, h3, h4⟩ := C73_forward_difference (hv.periodic hpos b) (by rw [(hv.1 b).1]; exact hg) (by rw [(hv.1 b).1]; exact hV b) (hs b) a M hM
    rw [(hv.1 b).1] at h1 h4
    refine ⟨r, hr, h1, by rw [h2, (hv.1 b).2.1], ?_, h4⟩
    rw [h3]
    funext c
    rcases eq_or_ne c a with rfl | hc
    · rw [Function.update_self, (hv.1 b).2.2 c, if_neg hab]; norm_num
    · have : c = b := by omega
      rw [Function.update_of_ne hc, (hv.1 b).2.2 c, if_pos this]
  obtain ⟨p, hp, hpg, hps, hpo, hpa⟩ := key 0 1 (by decide) M₁ h1
  obtain ⟨q, hq, hqg, hqs, hqo, hqa⟩ := key 1 0 (by decide) M₀ h0
  refine ⟨⟨p.toNArr.map2 (fun x y => x - y) q.toNArr, p.offset, p.grid⟩, ?_, hpg, hps, fun _ => by rw [hpo], fun i hi => ?_⟩
  · unfold curl2d
    dsimp only
    rw [show consistentGrid [(v 0).array, (v 1).array] = .ok g from uniqueOr_eq_ok.2 ⟨by simp, by
      intro x hx
      simp only [List.mem_cons, List.not_mem_nil, or_false] at hx
      rcases hx with rfl | rfl
      · exact (hv.1 0).1
      · exact (hv.1 1).1⟩, Except.bind_ok, hp, Except.bind_ok, hq, Except.bind_ok]
    exact gmap2_ok (hps.trans hqs.symm) (hpo.trans hqo.symm) (hpg.trans hqg.symm)
  · have hi' : InR g.shape i := by rw [← hps]; exact hi
    have a1 := hpa i (by rw [hps]; exact hi')
    have a2 := hqa i (by rw [hqs]; exact hi')
    rw [hpo, hpg] at a1
    rw [hqo, hqg] at a2
    show |p.data i - q.data i - (partialDeriv 1 0 (V 1) (p.grid.position p.offset i) - partialDeriv 1 1 (V 0) (p.grid.position p.offset i))| ≤ _
    rw [hpo, hpg]
    rw [abs_le] at *
    constructor <;> linarith [a1.1, a1.2, a2.1, a2.2]

/-- Regularity of a scalar `C` and a velocity `V` along the axes: bounds on `V`, its first derivatives, the first three derivatives of `C` and the third derivatives of the fluxes. -/
structure FluxBounds (C : (Fin d → ℝ) → ℝ) (V : Fin d → (Fin d → ℝ) → ℝ) (Q₀ Q₁ P₁ P₂ P₃ M : Fin d → ℝ) : Prop where
  speed : ∀ a x, |V a x| ≤ Q₀ a
  shear : ∀ a, SmoothAlong 1 a (Q₁ a) (V a)
  first : ∀ a, SmoothAlong 1 a (P₁ a) C
  second : ∀ a, SmoothAlong 2 a (P₂ a) C
  third : ∀ a, SmoothAlong 3 a (P₃ a) C
  flux : ∀ a, SmoothAlong 3 a (M a) fun x => V a x * C x

section
variable {c : GridVariable d ℝ} {v : Fin d → GridVariable d ℝ} {C : (Fin d → ℝ) → ℝ} {V : Fin d → (Fin d → ℝ) → ℝ}

/-- The values around the cell `i` along axis `a`. -/
theorem flux_values (hc : c.Periodic) (hg : c.array.grid.Valid) (hv : StaggeredPeriodic c v) (hC : PeriodicOn c.array.grid C) (hV : ∀ a, PeriodicOn c.array.grid (V a))
    (hs : c.array.Samples C) (hvs : ∀ a, (v a).array.Samples (V a)) {i : Idx d} (hi : InR c.array.shape i) (a : Fin d) :
    let x := c.array.grid.position c.array.offset i
    let h := c.array.grid.step a
    c.array.data i = C (Function.update x a (x a)) ∧ c.array.data (rollIdx c.array.shape a 1 i) = C (Function.update x a (x a + h)) ∧
      c.array.data (rollIdx c.array.shape a (-1) i) = C (Function.update x a (x a - h)) ∧ (v a).array.data i = V a (Function.update x a (x a + h / 2)) ∧
      (v a).array.data (rollIdx c.array.shape a (-1) i) = V a (Function.update x a (x a - h / 2)) := by
  intro x h
  have hvp := (hv a).1
  obtain ⟨hsh, hgr, hof⟩ := (hv a).2.2
  have hp : (v a).array.grid.position (v a).array.offset i = Function.update x a (x a + h / 2) := by
    rw [hgr, hof, position_update]
    congr 1
    push_cast
    ring
  refine ⟨Samples_self hs a hi, ?_, ?_, ?_, ?_⟩
  · rw [Samples_roll hc hg hC hs a 1 hi]
    simp only [Int.cast_one, one_mul]
    rfl
  · rw [Samples_roll hc hg hC hs a (-1) hi]
    simp only [Int.cast_one, Int.cast_neg, one_mul, neg_mul, ← sub_eq_add_neg]
    rfl
  · rw [hvs a i (by rw [hsh]; exact hi), hp]
  · rw [← hsh, Samples_roll hvp (by rw [hgr]; exact hg) (by rw [hgr]; exact hV a) (hvs a) a (-1) (by rw [hsh]; exact hi), hp, Function.update_idem, Function.update_self, hgr]
    simp only [Int.cast_one, Int.cast_neg, one_mul, neg_mul, ← sub_eq_add_neg]
    congr 2
    show x a + h / 2 - h = _
    ring

omit [HasNan ℝ] in
theorem lerp_mid {s : Fin d → ℕ} (a : Fin d) (F : Idx d → ℝ) {i : Idx d} (hi : InR s i) : lerp ℝ s a (1 / 2) F i = (F i + F (rollIdx s a 1 i)) / 2 := by
  unfold lerp floorWeight
  have hf : ⌊(1 / 2 : ℚ)⌋ = 0 := by norm_num
  have hc : ⌈(1 / 2 : ℚ)⌉ = 1 := by rw [Int.ceil_eq_iff]; norm_num
  rw [hf, hc, if_neg (by norm_num), if_neg (by norm_num), rollIdx_zero hi]
  push_cast
  ring

/-- **C73** Centred advection is second order accurate: `advect_linear` approximates `-div(v c)`. -/
theorem C73_advect_linear (hd : d ≠ 0) (hc : c.Periodic) (hg : c.array.grid.Valid) (hv : StaggeredPeriodic c v) (hC : PeriodicOn c.array.grid C)
    (hV : ∀ a, PeriodicOn c.array.grid (V a)) (hs : c.array.Samples C) (hvs : ∀ a, (v a).array.Samples (V a)) (Q₀ Q₁ P₁ P₂ P₃ M : Fin d → ℝ)
    (hb : FluxBounds C V Q₀ Q₁ P₁ P₂ P₃ M) (dt : ℝ) :
    ∃ r, advectLinear c v dt = .ok r ∧ r.grid = c.array.grid ∧ r.shape = c.array.shape ∧ r.offset = c.array.offset ∧
      r.Approximates (fun x => -∑ a, partialDeriv 1 a (fun x => V a x * C x) x) (∑ a, (M a / 24 + (Q₀ a * P₃ a + Q₁ a * P₂ a) / 8) * c.array.grid.step a ^ 2) := by
  obtain ⟨L, U, W, hL, -, -, h⟩ := schemes_staggered hd hc hv dt
  have h1 := h (true, false) _ rfl
  simp only [if_true] at h1
  refine ⟨_, h1, rfl, rfl, rfl, fun i hi => ?_⟩
  have hi' : InR c.array.shape i := hi
  dsimp only
  rw [← abs_neg, neg_sub, sub_neg_eq_add, neg_add_eq_sub, ← Finset.sum_sub_distrib]
  refine (Finset.abs_sum_le_sum_abs _ _).trans (Finset.sum_le_sum fun a _ => ?_)
  obtain ⟨e0, e1, e2, e3, e4⟩ := flux_values hc hg hv hC hV hs hvs hi' a
  rw [hL a, lerp_mid a _ hi', lerp_mid a _ (rollIdx_inR hi' a (-1)), rollIdx_add, show (-1 + 1 : ℤ) = 0 by norm_num, rollIdx_zero hi', e0, e1, e2, e3, e4]
  set x := c.array.grid.position c.array.offset i
  set h := c.array.grid.step a
  have := flux_bound ((hb.third a).slice x).1 (((hb.shear a).slice x).1.differentiable (by norm_num)) ((hb.flux a).slice x).1 ((hb.flux a).slice x).2 ((hb.second a).slice x).2
    ((hb.third a).slice x).2 (fun t => hb.speed a _) (fun t => by rw [← iteratedDeriv_one]; exact ((hb.shear a).slice x).2 t) (x a) (hg.step_pos a)
  refine le_trans (le_of_eq ?_) (this.trans (le_of_eq ?_))
  · unfold partialDeriv
    congr 2
    ring
  · show _ = (M a / 24 + (Q₀ a * P₃ a + Q₁ a * P₂ a) / 8) * h ^ 2
    ring

/-- **C73** Upwind advection is first order accurate. -/
theorem C73_advect_upwind (hd : d ≠ 0) (hc : c.Periodic) (hg : c.array.grid.Valid) (hv : StaggeredPeriodic c v) (hC : PeriodicOn c.array.grid C)
    (hV : ∀ a, PeriodicOn c.array.grid (V a)) (hs : c.array.Samples C) (hvs : ∀ a, (v a).array.Samples (V a)) (Q₀ Q₁ P₁ P₂ P₃ M : Fin d → ℝ)
    (hb : FluxBounds C V Q₀ Q₁ P₁ P₂ P₃ M) (dt : ℝ) :
    ∃ r, advectUpwind c v dt = .ok r ∧ r.grid = c.array.grid ∧ r.shape = c.array.shape ∧ r.offset = c.array.offset ∧
      r.Approximates (fun x => -∑ a, partialDeriv 1 a (fun x => V a x * C x) x)
        (∑ a, ((Q₀ a * P₂ a + Q₁ a * P₁ a) / 2 * c.array.grid.step a + (M a / 24 + (Q₀ a * P₃ a + Q₁ a * P₂ a) / 8) * c.array.grid.step a ^ 2)) := by
  obtain ⟨L, U, W, -, hU, -, h⟩ := schemes_staggered hd hc hv dt
  have h1 := h (false, true) _ rfl
  simp only [if_true, Bool.false_eq_true, if_false] at h1
  refine ⟨_, h1, rfl, rfl, rfl, fun i hi => ?_⟩
  have hi' : InR c.array.shape i := hi
  dsimp only
  rw [← abs_neg, neg_sub, sub_neg_eq_add, neg_add_eq_sub, ← Finset.sum_sub_distrib]
  refine (Finset.abs_sum_le_sum_abs _ _).trans (Finset.sum_le_sum fun a _ => ?_)
  obtain ⟨e0, e1, e2, e3, e4⟩ := flux_values hc hg hv hC hV hs hvs hi' a
  rw [hU a]
  dsimp only
  rw [rollIdx_zero (rollIdx_inR hi' a (-1)), rollIdx_add c.array.shape a 1 (-1) i, show (-1 + 1 : ℤ) = 0 by norm_num, rollIdx_zero hi', e0, e1, e2, e3, e4]
  set x := c.array.grid.position c.array.offset i
  set h := c.array.grid.step a
  have k1 := flux_bound ((hb.third a).slice x).1 (((hb.shear a).slice x).1.differentiable (by norm_num)) ((hb.flux a).slice x).1 ((hb.flux a).slice x).2 ((hb.second a).slice x).2
    ((hb.third a).slice x).2 (fun t => hb.speed a _) (fun t => by rw [← iteratedDeriv_one]; exact ((hb.shear a).slice x).2 t) (x a) (hg.step_pos a)
  have k2 := upwind_flux_bound ((hb.second a).slice x).1 (((hb.shear a).slice x).1.differentiable (by norm_num)) (fun t => by rw [← iteratedDeriv_one]; exact ((hb.first a).slice x).2 t)
    ((hb.second a).slice x).2 (fun t => hb.speed a _) (fun t => by rw [← iteratedDeriv_one]; exact ((hb.shear a).slice x).2 t) (x a) (hg.step_pos a)
  have sw : ∀ p q r : ℝ, (if 0 < p then q else r) * p = p * ((q + r) / 2) - |p| * (r - q) / 2 := fun p q r => by
    split_ifs with hp
    · rw [abs_of_pos hp]; ring
    · rw [abs_of_nonpos (not_lt.1 hp)]; ring
  rw [sw, sw]
  have e : (V a (Function.update x a (x a + h / 2)) * ((C (Function.update x a (x a)) + C (Function.update x a (x a + h))) / 2) -
          |V a (Function.update x a (x a + h / 2))| * (C (Function.update x a (x a + h)) - C (Function.update x a (x a))) / 2 -
        (V a (Function.update x a (x a - h / 2)) * ((C (Function.update x a (x a - h)) + C (Function.update x a (x a))) / 2) -
          |V a (Function.update x a (x a - h / 2))| * (C (Function.update x a (x a)) - C (Function.update x a (x a - h))) / 2)) / h -
        partialDeriv 1 a (fun x => V a x * C x) x =
      ((V a (Function.update x a (x a + h / 2)) * ((C (Function.update x a (x a)) + C (Function.update x a (x a + h))) / 2) -
        V a (Function.update x a (x a - h / 2)) * ((C (Function.update x a (x a - h)) + C (Function.update x a (x a))) / 2)) / h -
          iteratedDeriv 1 (fun t => V a (Function.update x a t) * C (Function.update x a t)) (x a)) -
        (|V a (Function.update x a (x a + h / 2))| * (C (Function.update x a (x a + h)) - C (Function.update x a (x a))) -
          |V a (Function.update x a (x a - h / 2))| * (C (Function.update x a (x a)) - C (Function.update x a (x a - h)))) / (2 * h) := by
    unfold partialDeriv
    have hh : h ≠ 0 := (hg.step_pos a).ne'
    field_simp
    ring
  rw [e]
  refine (abs_sub _ _).trans ((add_le_add k1 k2).trans (le_of_eq ?_))
  show _ = (Q₀ a * P₂ a + Q₁ a * P₁ a) / 2 * h + (M a / 24 + (Q₀ a * P₃ a + Q₁ a * P₂ a) / 8) * h ^ 2
  ring

end
end JaxCfd
