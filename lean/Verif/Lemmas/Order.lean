import Verif.Lemmas.TaylorVector
import Mathlib.Analysis.Calculus.MeanValue

/-! Quantities of order `h ^ k`, uniformly in time: the bookkeeping for the convergence of `classic_rk4`. -/

namespace JaxCfd
variable {V : Type} [NormedAddCommGroup V] [NormedSpace ℝ V]

/-- The family `r h t` is at most a constant times `h ^ k` for small `h ≥ 0`, uniformly in `t ≥ 0`. -/
def Ord (k : ℕ) (r : ℝ → ℝ → V) : Prop := ∃ C δ : ℝ, 0 ≤ C ∧ 0 < δ ∧ δ ≤ 1 ∧ ∀ h, 0 ≤ h → h ≤ δ → ∀ t, 0 ≤ t → ‖r h t‖ ≤ C * h ^ k

theorem Ord.congr {k : ℕ} {r s : ℝ → ℝ → V} (hr : Ord k r) (h : ∀ h t : ℝ, 0 ≤ h → 0 ≤ t → s h t = r h t) : Ord k s := by
  obtain ⟨C, δ, h1, h2, h3, h4⟩ := hr
  exact ⟨C, δ, h1, h2, h3, fun x hx hxd t ht => by rw [h x t hx ht]; exact h4 x hx hxd t ht⟩

theorem Ord.add {k : ℕ} {r s : ℝ → ℝ → V} (hr : Ord k r) (hs : Ord k s) : Ord k fun h t => r h t + s h t := by
  obtain ⟨C, δ, h1, h2, h3, h4⟩ := hr
  obtain ⟨C', δ', h1', h2', h3', h4'⟩ := hs
  refine ⟨C + C', min δ δ', by positivity, lt_min h2 h2', (min_le_left _ _).trans h3, fun h hh hd t ht => ?_⟩
  refine (norm_add_le _ _).trans ?_
  rw [add_mul]
  exact add_le_add (h4 h hh (hd.trans (min_le_left _ _)) t ht) (h4' h hh (hd.trans (min_le_right _ _)) t ht)

theorem Ord.scale {k : ℕ} {r : ℝ → ℝ → V} (hr : Ord k r) (c : ℝ) (j : ℕ) : Ord (k + j) fun h t => (c * h ^ j) • r h t := by
  obtain ⟨C, δ, h1, h2, h3, h4⟩ := hr
  refine ⟨|c| * C, δ, by positivity, h2, h3, fun h hh hd t ht => ?_⟩
  rw [norm_smul, Real.norm_eq_abs, abs_mul, abs_of_nonneg (by positivity : 0 ≤ h ^ j)]
  have := mul_le_mul_of_nonneg_left (h4 h hh hd t ht) (by positivity : 0 ≤ |c| * h ^ j)
  refine this.trans (le_of_eq ?_)
  ring

theorem Ord.mono {k m : ℕ} {r : ℝ → ℝ → V} (hr : Ord m r) (hkm : k ≤ m) : Ord k r := by
  obtain ⟨C, δ, h1, h2, h3, h4⟩ := hr
  refine ⟨C, δ, h1, h2, h3, fun h hh hd t ht => (h4 h hh hd t ht).trans ?_⟩
  exact mul_le_mul_of_nonneg_left (pow_le_pow_of_le_one hh (hd.trans h3) hkm) h1

theorem Ord.sub {k : ℕ} {r s : ℝ → ℝ → V} (hr : Ord k r) (hs : Ord k s) : Ord k fun h t => r h t - s h t := by
  refine (hr.add ((hs.scale (-1) 0).mono (Nat.le_add_right _ _))).congr fun h t _ _ => ?_
  module

/-- A family of operators of order `h ^ j`. -/
def OrdOp (j : ℕ) (A : ℝ → ℝ → V →L[ℝ] V) : Prop := ∃ C δ : ℝ, 0 ≤ C ∧ 0 < δ ∧ δ ≤ 1 ∧ ∀ h, 0 ≤ h → h ≤ δ → ∀ t, 0 ≤ t → ‖A h t‖ ≤ C * h ^ j

theorem Ord.op {j k : ℕ} {A : ℝ → ℝ → V →L[ℝ] V} (hA : OrdOp j A) {r : ℝ → ℝ → V} (hr : Ord k r) : Ord (k + j) fun h t => A h t (r h t) := by
  obtain ⟨C, δ, h1, h2, h3, h4⟩ := hr
  obtain ⟨C', δ', h1', h2', h3', h4'⟩ := hA
  refine ⟨C' * C, min δ δ', by positivity, lt_min h2 h2', (min_le_left _ _).trans h3, fun h hh hd t ht => ?_⟩
  refine ((A h t).le_opNorm _).trans ?_
  refine (mul_le_mul (h4' h hh (hd.trans (min_le_right _ _)) t ht) (h4 h hh (hd.trans (min_le_left _ _)) t ht) (norm_nonneg _) (by positivity)).trans (le_of_eq ?_)
  ring

theorem Ord.small {k : ℕ} {r : ℝ → ℝ → V} (hr : Ord (k + 1) r) {ρ : ℝ} (hρ : 0 < ρ) : ∃ δ, 0 < δ ∧ ∀ h, 0 ≤ h → h ≤ δ → ∀ t, 0 ≤ t → ‖r h t‖ ≤ ρ := by
  obtain ⟨C, δ, h1, h2, h3, h4⟩ := hr.mono (Nat.le_add_left 1 k)
  refine ⟨min δ (ρ / (C + 1)), lt_min h2 (by positivity), fun h hh hd t ht => (h4 h hh (hd.trans (min_le_left _ _)) t ht).trans ?_⟩
  have : h ≤ ρ / (C + 1) := hd.trans (min_le_right _ _)
  rw [le_div_iff₀ (by positivity)] at this
  rw [pow_one]
  nlinarith

section
variable {y : ℝ → V} {f : V → V} {R L K : ℝ}

theorem SmoothNear.nonneg (hF : SmoothNear f y R L K) (hR : 0 ≤ R) : 0 ≤ L := (norm_nonneg _).trans (hF 0 le_rfl (y 0) (by simpa using hR)).2.1

theorem SmoothNear.lipschitz (hF : SmoothNear f y R L K) : LipschitzNear f y R L := fun t ht x z hx hz => by
  refine (convex_closedBall (y t) R).norm_image_sub_le_of_norm_fderiv_le (𝕜 := ℝ) (f := f) (fun w hw => (hF t ht w (by rwa [mem_closedBall_iff_norm] at hw)).1)
    (fun w hw => (hF t ht w (by rwa [mem_closedBall_iff_norm] at hw)).2.1) ?_ ?_
  · rwa [mem_closedBall_iff_norm]
  · rwa [mem_closedBall_iff_norm]

/-- Linearisation of `f` at a point of the path. -/
theorem SmoothNear.linearise (hF : SmoothNear f y R L K) (hK : 0 ≤ K) {t : ℝ} (ht : 0 ≤ t) {x : V} (hx : ‖x - y t‖ ≤ R) :
    ‖f x - f (y t) - fderiv ℝ f (y t) (x - y t)‖ ≤ K * ‖x - y t‖ ^ 2 := by
  have hR : 0 ≤ R := (norm_nonneg _).trans hx
  have := (convex_closedBall (y t) ‖x - y t‖).norm_image_sub_le_of_norm_fderiv_le' (𝕜 := ℝ) (f := f) (φ := fderiv ℝ f (y t)) (C := K * ‖x - y t‖) (x := y t) (y := x)
    (fun w hw => (hF t ht w (by rw [mem_closedBall_iff_norm] at hw; exact hw.trans hx)).1)
    (fun w hw => by
      rw [mem_closedBall_iff_norm] at hw
      exact ((hF t ht w (hw.trans hx)).2.2 (y t) (by simpa using hR)).trans (mul_le_mul_of_nonneg_left hw hK))
    (by rw [mem_closedBall_iff_norm]; simp) (by rw [mem_closedBall_iff_norm])
  refine this.trans (le_of_eq ?_)
  ring

theorem SmoothNear.linearise_ord (hF : SmoothNear f y R L K) (hK : 0 ≤ K) (hR : 0 < R) {σ : ℝ → ℝ → ℝ} (hσ : ∀ h t : ℝ, 0 ≤ h → 0 ≤ t → 0 ≤ σ h t) {X : ℝ → ℝ → V} {k : ℕ}
    (hX : Ord (k + 1) fun h t => X h t - y (σ h t)) :
    Ord (2 * (k + 1)) fun h t => f (X h t) - f (y (σ h t)) - fderiv ℝ f (y (σ h t)) (X h t - y (σ h t)) := by
  obtain ⟨δ₁, hd₁, hs⟩ := hX.small hR
  obtain ⟨C, δ, h1, h2, h3, h4⟩ := hX
  refine ⟨K * C ^ 2, min δ δ₁, by positivity, lt_min h2 hd₁, (min_le_left _ _).trans h3, fun h hh hd t ht => ?_⟩
  refine (hF.linearise hK (hσ h t hh ht) (hs h hh (hd.trans (min_le_right _ _)) t ht)).trans ?_
  have := h4 h hh (hd.trans (min_le_left _ _)) t ht
  have := pow_le_pow_left₀ (norm_nonneg _) this 2
  refine (mul_le_mul_of_nonneg_left this hK).trans (le_of_eq ?_)
  ring

/-- The derivative of `f` along the path is bounded. -/
theorem SmoothNear.ordOp (hF : SmoothNear f y R L K) (hR : 0 < R) {σ : ℝ → ℝ → ℝ} (hσ : ∀ h t : ℝ, 0 ≤ h → 0 ≤ t → 0 ≤ σ h t) : OrdOp 0 fun h t => fderiv ℝ f (y (σ h t)) :=
  ⟨L, 1, hF.nonneg hR.le, one_pos, le_rfl, fun h hh _ t ht => by
    rw [pow_zero, mul_one]
    exact (hF _ (hσ h t hh ht) _ (by simpa using hR.le)).2.1⟩

/-- The derivative of `f` along the path is Lipschitz in time. -/
theorem SmoothNear.ordOp_sub (hF : SmoothNear f y R L K) (hK : 0 ≤ K) (hR : 0 < R) {M : ℝ} (hM : SmoothPath 1 M y) {c : ℝ} (hc : 0 ≤ c) :
    OrdOp 1 fun h t => fderiv ℝ f (y (t + c * h)) - fderiv ℝ f (y t) := by
  have hM0 := hM.nonneg
  refine ⟨K * (M * c), min 1 (R / (M * c + 1)), by positivity, lt_min one_pos (by positivity), min_le_left _ _, fun h hh hd t ht => ?_⟩
  have hy := constant_rule hM ht (h := c * h) (by positivity)
  rw [abs_of_nonneg (by positivity)] at hy
  have hle : ‖y (t + c * h) - y t‖ ≤ R := by
    have : h ≤ R / (M * c + 1) := hd.trans (min_le_right _ _)
    rw [le_div_iff₀ (by positivity)] at this
    nlinarith
  refine ((hF t ht _ hle).2.2 (y t) (by simpa using hR.le)).trans ?_
  refine (mul_le_mul_of_nonneg_left hy hK).trans (le_of_eq ?_)
  ring

/-- Taylor expansion of the path. -/
theorem SmoothPath.ord {n : ℕ} {M : ℝ} (hM : SmoothPath (n + 1) M y) {c : ℝ} (hc : 0 ≤ c) :
    Ord (n + 1) fun h t => y (t + c * h) - ∑ k ∈ Finset.range (n + 1), ((c * h) ^ k / (k.factorial : ℝ)) • iteratedDeriv k y t := by
  have hM0 := hM.nonneg
  refine ⟨M * c ^ (n + 1) / ((n + 1).factorial : ℝ), 1, by positivity, one_pos, le_rfl, fun h hh _ t ht => ?_⟩
  have := vector_taylor hM ht (h := c * h) (by positivity)
  rw [abs_of_nonneg (by positivity)] at this
  refine this.trans (le_of_eq ?_)
  rw [mul_pow]
  ring

theorem SmoothPath.ord_zero {n : ℕ} {M : ℝ} (hM : SmoothPath n M y) : Ord 0 fun _ t => iteratedDeriv n y t :=
  ⟨M, 1, hM.nonneg, one_pos, le_rfl, fun h _ _ t ht => by rw [pow_zero, mul_one]; exact hM.2 t ht⟩

end
end JaxCfd
