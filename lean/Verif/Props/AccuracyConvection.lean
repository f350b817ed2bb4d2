import Verif.Lemmas.ProductFlux
import Verif.SpecFluid
import Verif.Props.AccuracyAdvection

/-!
# C73: accuracy of the convection of a velocity by itself
-/

namespace JaxCfd
variable {d : ℕ} [HasNan ℝ]

/-- The point `x` moved by `s` along axis `a`. -/
def shiftPoint (a : Fin d) (s : ℝ) (x : Fin d → ℝ) : Fin d → ℝ := Function.update x a (x a + s)

omit [HasNan ℝ] in
theorem shiftPoint_update_of_ne {a b : Fin d} (hab : a ≠ b) (s t : ℝ) (x : Fin d → ℝ) : shiftPoint a s (Function.update x b t) = Function.update (shiftPoint a s x) b t := by
  unfold shiftPoint
  rw [Function.update_of_ne hab, Function.update_comm hab]

omit [HasNan ℝ] in
theorem shiftPoint_update_self (a : Fin d) (s t : ℝ) (x : Fin d → ℝ) : shiftPoint a s (Function.update x a t) = Function.update x a (t + s) := by
  unfold shiftPoint
  rw [Function.update_self, Function.update_idem]

omit [HasNan ℝ] in
/-- The derivative along axis `b` at points moved along axis `a`. -/
theorem hasDerivAt_shift {f : (Fin d → ℝ) → ℝ} {M : ℝ} {b : Fin d} (hf : SmoothAlong 1 b M f) (a : Fin d) (s : ℝ) (x : Fin d → ℝ) (t : ℝ) :
    HasDerivAt (fun t => f (shiftPoint a s (Function.update x b t))) (partialDeriv 1 b f (shiftPoint a s (Function.update x b t))) t := by
  have hd : ∀ x t, HasDerivAt (fun t => f (Function.update x b t)) (partialDeriv 1 b f (Function.update x b t)) t := fun x t => by
    rw [partialDeriv_update, iteratedDeriv_one]
    exact ((hf.1 x).differentiable (by norm_num) t).hasDerivAt
  rcases eq_or_ne a b with rfl | hab
  · simp only [shiftPoint_update_self]
    exact HasDerivAt.comp_add_const t s (hd x (t + s))
  · simp only [shiftPoint_update_of_ne hab]
    exact hd _ t

omit [HasNan ℝ] in
/-- The average over a cell along axis `a`. -/
theorem shift_average_bound {f : (Fin d → ℝ) → ℝ} {M : ℝ} {a : Fin d} (hf : SmoothAlong 2 a M f) (h : ℝ) (x : Fin d → ℝ) :
    |(f (shiftPoint a (-(h / 2)) x) + f (shiftPoint a (h / 2) x)) / 2 - f x| ≤ M * h ^ 2 / 8 := by
  have := lerp_bound (hf.slice x).1 (hf.slice x).2 (x a - h / 2) h (w := 1 / 2) (by norm_num) (by norm_num)
  rw [show x a - h / 2 + h = x a + h / 2 by ring, show x a - h / 2 + 1 / 2 * h = x a by ring, Function.update_eq_self] at this
  convert this using 2
  unfold shiftPoint
  rw [← sub_eq_add_neg]
  ring

/-- The closed form of `convect_linear`. -/
theorem convectLinear_closed (hd : d ≠ 0) {g : Grid d ℝ} (hpos : ∀ a, 0 < g.shape a) {v : Fin d → GridVariable d ℝ} (hv : PeriodicField g v) :
    convectLinear v = .ok fun i => ⟨⟨g.shape, fun x => -∑ a, (lerp ℝ g.shape a (1 / 2) (v i).array.data x * lerp ℝ g.shape i (1 / 2) (v a).array.data x -
      lerp ℝ g.shape a (1 / 2) (v i).array.data (rollIdx g.shape a (-1) x) * lerp ℝ g.shape i (1 / 2) (v a).array.data (rollIdx g.shape a (-1) x)) / g.step a⟩, (v i).array.offset, g⟩ := by
  have hper := hv.periodic hpos
  have hface : ∀ i j, upperFace (v i) j = upperFace (v j) i := fun i j => by
    funext b
    unfold upperFace
    rcases eq_or_ne b j with rfl | hj <;> rcases eq_or_ne b i with rfl | hi
    · rfl
    · rw [Function.update_self, Function.update_of_ne hi, (hv.1 i).2.2, (hv.1 b).2.2, if_neg hi, if_pos rfl]; norm_num
    · rw [Function.update_self, Function.update_of_ne hj, (hv.1 b).2.2, (hv.1 j).2.2, if_neg hj, if_pos rfl]; norm_num
    · rw [Function.update_of_ne hj, Function.update_of_ne hi, (hv.1 i).2.2, (hv.1 j).2.2, if_neg hi, if_neg hj]
  have hcls : ∀ a, (v a).bc.cls = .homogeneous := fun a => by rw [hv.2 a]; rfl
  obtain ⟨R, hR, h⟩ := C27_convect_linear hd v g hper hcls (fun a => (hv.1 a).1) hface 0
  rw [hR]
  refine congrArg Except.ok (funext fun i => ?_)
  have h1 := (h i).1
  have hf : ∀ i j, linear (v i) (upperFace (v i) j) = .ok ⟨⟨⟨g.shape, lerp ℝ g.shape j (1 / 2) (v i).array.data⟩, upperFace (v i) j, g⟩, (v i).bc⟩ := fun i j => by
    have := linear_one_axis (hper i) j ((v i).array.offset j + 1 / 2)
    rw [add_sub_cancel_left, (hv.1 i).1, (hv.1 i).2.1] at this
    exact this
  have hLper : ∀ i j, (⟨⟨⟨g.shape, lerp ℝ g.shape j (1 / 2) (v i).array.data⟩, upperFace (v i) j, g⟩, (v i).bc⟩ : GridVariable d ℝ).Periodic := fun i j =>
    (hper i).mk' (fun _ => rfl) (by exact ((hv.1 i).2.1).symm) (by exact ((hv.1 i).1).symm)
  unfold advectLinear advectGeneral linearFn at h1
  rw [if_pos (hasAllPeriodic_of (hper i).1), seqFin_ok _ (fun a => (⟨⟨⟨g.shape, lerp ℝ g.shape i (1 / 2) (v a).array.data⟩, upperFace (v a) i, g⟩, (v a).bc⟩ : GridVariable d ℝ)) (fun a => by
      rw [controlVolumeOffsets_eq, hface i a]; exact hf a i), Except.bind_ok,
    seqFin_ok _ (fun a => (⟨⟨⟨g.shape, lerp ℝ g.shape a (1 / 2) (v i).array.data⟩, upperFace (v i) a, g⟩, (v i).bc⟩ : GridVariable d ℝ)) (fun a => by rw [controlVolumeOffsets_eq]; exact hf i a),
    Except.bind_ok, advectAligned_ofFn] at h1
  refine Except.ok.inj (h1.symm.trans ((advectAlignedAxes_periodic (fun a => hLper i a) (fun a => hLper a i)).2 ⟨hd, hcls, fun a => ⟨rfl, rfl, rfl, rfl, hface i a, ?_⟩, rfl⟩))
  show Function.update (upperFace (v a) i) a (upperFace (v a) i a - 1 / 2) = (v i).array.offset
  rw [← hface i a]
  simp [upperFace]

/-- **C73** `convect_linear` is second order accurate: for samples of a smooth periodic velocity, component `i` approximates `-∑_a ∂(V_i V_a)/∂x_a`. -/
theorem C73_convect_linear (hd : d ≠ 0) (g : Grid d ℝ) (hg : g.Valid) (v : Fin d → GridVariable d ℝ) (hv : PeriodicField g v) (V : Fin d → (Fin d → ℝ) → ℝ)
    (hV : ∀ a, PeriodicOn g (V a)) (hs : ∀ a, (v a).array.Samples (V a)) (U G₁ G₂ G₃ H : ℝ) (hb : VelocityBounds V U G₁ G₂ G₃ H) :
    ∃ R, convectLinear v = .ok R ∧ ∀ i, (R i).grid = g ∧ (R i).shape = g.shape ∧ (R i).offset = (v i).array.offset ∧
      (R i).Approximates (fun x => -∑ a, partialDeriv 1 a (fun x => V i x * V a x) x)
        (∑ a, ((5 / 24 * (U * G₃) + 3 / 8 * (G₁ * G₂)) * g.step a ^ 2 + (G₁ * G₂ + U * H) / 8 * g.step i ^ 2)) := by
  have hpos : ∀ a, 0 < g.shape a := fun a => (hg a).1
  have hper := hv.periodic hpos
  refine ⟨_, convectLinear_closed hd hpos hv, fun i => ⟨rfl, rfl, rfl, fun k hk => ?_⟩⟩
  have hk' : InR g.shape k := hk
  show |-(∑ a : Fin d, _ : ℝ) - -(∑ a : Fin d, _ : ℝ)| ≤ _
  rw [← abs_neg, neg_sub, sub_neg_eq_add, neg_add_eq_sub, ← Finset.sum_sub_distrib]
  refine (Finset.abs_sum_le_sum_abs _ _).trans (Finset.sum_le_sum fun a _ => ?_)
  dsimp only
  set x := g.position (v i).array.offset k with hx
  -- the values of the samples
  have val : ∀ (b : Fin d) (j : Idx d), InR g.shape j → (v b).array.data j = V b (g.position (v b).array.offset j) := fun b j hj => by
    rw [hs b j (by rw [(hv.1 b).2.1]; exact hj), (hv.1 b).1]
  have roll : ∀ (b c : Fin d) (o : Fin d → ℚ) (n : ℤ) (j : Idx d), V b (g.position o (rollIdx g.shape c n j)) = V b (shiftPoint c (n * g.step c) (g.position o j)) := fun b c o n j =>
    sample_roll hg (hV b) rfl o c n j
  have half : ∀ (c : Fin d), g.position (v c).array.offset k = shiftPoint c (g.step c / 2) (shiftPoint i (-(g.step i / 2)) x) := fun c => by
    have : (v c).array.offset = Function.update (Function.update (v i).array.offset i (1 / 2)) c ((Function.update (v i).array.offset i (1 / 2)) c + 1 / 2) := by
      funext b
      rcases eq_or_ne b c with rfl | hbc
      · rw [Function.update_self, (hv.1 b).2.2, if_pos rfl]
        rcases eq_or_ne b i with rfl | hbi
        · rw [Function.update_self]; norm_num
        · rw [Function.update_of_ne hbi, (hv.1 i).2.2, if_neg hbi]; norm_num
      · rw [Function.update_of_ne hbc, (hv.1 c).2.2, if_neg hbc]
        rcases eq_or_ne b i with rfl | hbi
        · rw [Function.update_self]
        · rw [Function.update_of_ne hbi, (hv.1 i).2.2, if_neg hbi]
    rw [this, position_update, position_update, (hv.1 i).2.2, if_pos rfl]
    unfold shiftPoint
    rw [hx]
    push_cast
    congr 1
    · congr 1; ring
    · rw [show g.position (v i).array.offset k i + (1 / 2 - 1) * g.step i = g.position (v i).array.offset k i + -(g.step i / 2) by ring]
      ring
  have comm : ∀ (c e : Fin d) (s t : ℝ) (y : Fin d → ℝ), shiftPoint c t (shiftPoint e s y) = shiftPoint e s (shiftPoint c t y) := fun c e s t y => by
    unfold shiftPoint
    rcases eq_or_ne c e with rfl | hia
    · rw [Function.update_self, Function.update_self, Function.update_idem, Function.update_idem]
      congr 1; ring
    · rw [Function.update_of_ne hia, Function.update_of_ne hia.symm, Function.update_comm hia]
  have add : ∀ (c : Fin d) (s t : ℝ) (y : Fin d → ℝ), shiftPoint c s (shiftPoint c t y) = shiftPoint c (t + s) y := fun c s t y => by
    unfold shiftPoint
    rw [Function.update_self, Function.update_idem, add_assoc]
  have hVs : ∀ s : ℝ, PeriodicOn g (fun y => V a (shiftPoint i s y)) := fun s y c => by
    show V a (shiftPoint i s (shiftPoint c _ y)) = _
    rw [comm]
    exact hV a _ c
  have roll2 : ∀ (s : ℝ) (n : ℤ), V a (shiftPoint i s (g.position (v a).array.offset (rollIdx g.shape a n k))) = V a (shiftPoint i s (shiftPoint a (n * g.step a) (g.position (v a).array.offset k))) :=
    fun s n => sample_roll hg (hVs s) rfl _ a n k
  rw [lerp_mid a _ hk', lerp_mid i _ hk', lerp_mid a _ (rollIdx_inR hk' a (-1)), lerp_mid i _ (rollIdx_inR hk' a (-1)), rollIdx_add, show (-1 + 1 : ℤ) = 0 by norm_num, rollIdx_zero hk',
    val i k hk', val a k hk', val i _ (rollIdx_inR hk' a 1), val i _ (rollIdx_inR hk' a (-1)), val a _ (rollIdx_inR hk' i 1), val a _ (rollIdx_inR hk' a (-1)),
    val a _ (rollIdx_inR (rollIdx_inR hk' a (-1)) i 1), roll, roll, roll, roll, roll, roll2, half a, ← hx]
  rw [comm i a _ _ (shiftPoint i (-(g.step i / 2)) x), add i, comm i a _ _ (shiftPoint a _ _), comm i a _ _ (shiftPoint i (-(g.step i / 2)) x), add i, add a, add a]
  simp only [Int.cast_one, Int.cast_neg, one_mul, neg_mul, ← comm i a]
  rw [show -(g.step i / 2) + g.step i = g.step i / 2 by ring, show g.step a / 2 + -g.step a = -(g.step a / 2) by ring]
  have key := product_flux_bound (a := fun t => V i (Function.update x a t)) (b := fun t => V a (Function.update x a t))
    (B := fun t => (V a (shiftPoint i (-(g.step i / 2)) (Function.update x a t)) + V a (shiftPoint i (g.step i / 2) (Function.update x a t))) / 2)
    (B' := fun t => (partialDeriv 1 a (V a) (shiftPoint i (-(g.step i / 2)) (Function.update x a t)) + partialDeriv 1 a (V a) (shiftPoint i (g.step i / 2) (Function.update x a t))) / 2)
    ((hb.third a i).slice x).1 ((hb.third a a).slice x).1
    (fun t => ((hasDerivAt_shift (hb.first a a) i _ x t).add (hasDerivAt_shift (hb.first a a) i _ x t)).div_const 2)
    (fun t => hb.speed i _) ((hb.first a i).slice x).2 ((hb.second a i).slice x).2 ((hb.third a i).slice x).2
    (fun t => hb.speed a _) ((hb.first a a).slice x).2 ((hb.second a a).slice x).2 ((hb.third a a).slice x).2
    (fun t => by
      have h1 := abs_le.1 (hb.speed a (shiftPoint i (-(g.step i / 2)) (Function.update x a t)))
      have h2 := abs_le.1 (hb.speed a (shiftPoint i (g.step i / 2) (Function.update x a t)))
      rw [abs_le]
      constructor <;> linarith [h1.1, h1.2, h2.1, h2.2])
    (fun t => by
      have h1 := abs_le.1 ((hb.first a a).2 (shiftPoint i (-(g.step i / 2)) (Function.update x a t)))
      have h2 := abs_le.1 ((hb.first a a).2 (shiftPoint i (g.step i / 2) (Function.update x a t)))
      rw [abs_le]
      constructor <;> linarith [h1.1, h1.2, h2.1, h2.2])
    (fun t => shift_average_bound (hb.second i a) (g.step i) (Function.update x a t))
    (fun t => by
      have := shift_average_bound (hb.mixed i a) (g.step i) (Function.update x a t)
      rwa [partialDeriv_update 1 a (V a) x t, iteratedDeriv_one] at this)
    (x a) (hg.step_pos a)
  refine le_trans (le_of_eq ?_) (key.trans (le_of_eq (by ring)))
  rw [Function.update_eq_self]
  unfold partialDeriv
  unfold shiftPoint
  simp only [sub_eq_add_neg]

end JaxCfd
