import Verif.Props.VanLeer
import Verif.Lemmas.Taylor

/-!
# The van Leer limiter is Lipschitz continuous
-/

namespace JaxCfd
variable {d : ℕ}

/-- The limited difference: the limiter of the ratio of two consecutive differences, times the second. -/
noncomputable def limited (n e : ℝ) : ℝ := vanLeer (safeDiv n e) * e

theorem limited_eq (n e : ℝ) : limited n e = if 0 < n * e then 2 * n * e / (n + e) else 0 := by
  unfold limited
  rcases eq_or_ne e 0 with rfl | he
  · simp
  · unfold vanLeer safeDiv
    simp only [ne_eq, he, not_false_eq_true, if_true]
    by_cases h : 0 < n * e
    · have h1 : 0 < n / e := by
        rw [div_eq_mul_inv, ← mul_pos_iff_of_pos_right (mul_self_pos.2 he)]
        rw [show n * e⁻¹ * (e * e) = n * e by field_simp]
        exact h
      have h2 : (1 : ℝ) + n / e ≠ 0 := by positivity
      have h3 : n + e ≠ 0 := fun h4 => by
        have : n = -e := by linarith
        rw [this] at h
        nlinarith [mul_self_pos.2 he]
      rw [if_pos h1, if_pos h]
      simp only [h2, not_false_eq_true, if_true]
      rw [show (1 : ℝ) + n / e = (e + n) / e by field_simp]
      have h5 : e + n ≠ 0 := by rwa [add_comm]
      field_simp
      ring
    · have h1 : ¬ 0 < n / e := fun h1 => h (by
        have := mul_pos h1 (mul_self_pos.2 he)
        rwa [show n / e * (e * e) = n * e by field_simp] at this)
      rw [if_neg h1, if_neg h, zero_mul]

theorem limited_comm (n e : ℝ) : limited n e = limited e n := by
  rw [limited_eq, limited_eq, mul_comm n e, add_comm n e, mul_right_comm]

theorem limited_neg (n e : ℝ) : limited (-n) (-e) = -limited n e := by
  rw [limited_eq, limited_eq, neg_mul_neg]
  split_ifs with h
  · rw [show -n + -e = -(n + e) by ring, div_neg]
    congr 2
    ring
  · simp

theorem limited_pos {e : ℝ} (he : 0 < e) (n : ℝ) : limited n e = 2 * max n 0 * e / (max n 0 + e) := by
  rw [limited_eq]
  by_cases h : 0 < n
  · rw [if_pos (mul_pos h he), max_eq_left h.le]
  · rw [if_neg (not_lt.2 (mul_nonpos_of_nonpos_of_nonneg (not_lt.1 h) he.le)), max_eq_right (not_lt.1 h)]
    simp

theorem limited_lipschitz_pos {e : ℝ} (he : 0 < e) (n m : ℝ) : |limited n e - limited m e| ≤ 2 * |n - m| := by
  rw [limited_pos he, limited_pos he]
  set p := max n 0
  set q := max m 0
  have hp : 0 ≤ p := le_max_right _ _
  have hq : 0 ≤ q := le_max_right _ _
  have e1 : 2 * p * e / (p + e) - 2 * q * e / (q + e) = 2 * (e / (p + e) * (e / (q + e))) * (p - q) := by
    field_simp
    ring
  have h1 : e / (p + e) ≤ 1 := (div_le_one (by positivity)).2 (by linarith)
  have h2 : e / (q + e) ≤ 1 := (div_le_one (by positivity)).2 (by linarith)
  have h3 : e / (p + e) * (e / (q + e)) ≤ 1 := mul_le_one₀ h1 (by positivity) h2
  have h4 : |p - q| ≤ |n - m| := abs_max_sub_max_le_abs n m 0
  rw [e1, abs_mul, abs_of_nonneg (by positivity)]
  have h5 := mul_le_mul h3 h4 (abs_nonneg _) zero_le_one
  linarith

/-- Lipschitz continuity in the first difference. -/
theorem limited_lipschitz_left (n m e : ℝ) : |limited n e - limited m e| ≤ 2 * |n - m| := by
  rcases lt_trichotomy e 0 with he | rfl | he
  · have := limited_lipschitz_pos (neg_pos.2 he) (-n) (-m)
    rw [limited_neg, limited_neg] at this
    rw [abs_sub_comm, abs_sub_comm n m]
    convert this using 2
    · ring_nf
    · congr 1; ring
  · rw [limited_eq, limited_eq]; simp
  · exact limited_lipschitz_pos he n m

theorem limited_lipschitz (n m e f : ℝ) : |limited n e - limited m f| ≤ 2 * |n - m| + 2 * |e - f| := by
  have h1 := limited_lipschitz_left n m e
  have h2 := limited_lipschitz_left e f m
  rw [limited_comm e m, limited_comm f m] at h2
  calc |limited n e - limited m f| ≤ |limited n e - limited m e| + |limited m e - limited m f| := abs_sub_le _ _ _
    _ ≤ _ := add_le_add h1 h2

theorem limited_le (n e : ℝ) : |limited n e| ≤ 2 * |e| := by
  have := limited_lipschitz_left e 0 n
  rw [limited_comm e n, limited_comm 0 n, sub_zero] at this
  have h0 : limited n 0 = 0 := by rw [limited_eq]; simp
  rwa [h0, sub_zero] at this

/-- The change of the limited correction from one face of a cell to the other. `u` is the velocity, `p` the scalar. -/
theorem limiter_flux_bound {u p : ℝ → ℝ} {Q₀ Q₁ P₁ P₂ : ℝ} (hu : Differentiable ℝ u) (hp : ContDiff ℝ (2 : ℕ) p) (hu0 : ∀ t, |u t| ≤ Q₀) (hu1 : ∀ t, |deriv u t| ≤ Q₁)
    (hp1 : ∀ t, |deriv p t| ≤ P₁) (hp2 : ∀ t, |iteratedDeriv 2 p t| ≤ P₂) (x : ℝ) {h k : ℝ} (hh : 0 < h) (hk : 0 ≤ k) (hcfl : k / h * Q₀ ≤ 1) :
    |(1 / 2 * (1 - k / h * |u (x + h / 2)|) * |u (x + h / 2)| *
        limited (if 0 < u (x + h / 2) then p x - p (x - h) else p (x + 2 * h) - p (x + h)) (p (x + h) - p x) -
      1 / 2 * (1 - k / h * |u (x - h / 2)|) * |u (x - h / 2)| *
        limited (if 0 < u (x - h / 2) then p (x - h) - p (x - 2 * h) else p (x + h) - p x) (p x - p (x - h))) / h| ≤ (4 * (Q₀ * P₂) + Q₁ * P₁) * h := by
  have hP2 : 0 ≤ P₂ := (abs_nonneg _).trans (hp2 0)
  have hP1 : 0 ≤ P₁ := (abs_nonneg _).trans (hp1 0)
  have hQ0 : 0 ≤ Q₀ := (abs_nonneg _).trans (hu0 0)
  have hQ1 : 0 ≤ Q₁ := (abs_nonneg _).trans (hu1 0)
  have s0 := second_difference_bound hp hp2 x h
  have s1 := second_difference_bound hp hp2 (x + h) h
  have s2 := second_difference_bound hp hp2 (x - h) h
  rw [show x + h + h = x + 2 * h by ring, show x + h - h = x by ring] at s1
  rw [show x - h + h = x by ring, show x - h - h = x - 2 * h by ring] at s2
  set a := u (x + h / 2) with ha
  set b := u (x - h / 2) with hb
  set H := limited (if 0 < a then p x - p (x - h) else p (x + 2 * h) - p (x + h)) (p (x + h) - p x) with hH
  set G := limited (if 0 < b then p (x - h) - p (x - 2 * h) else p (x + h) - p x) (p x - p (x - h)) with hG
  have hG0 : |G| ≤ 2 * (P₁ * h) := by
    refine (limited_le _ _).trans ?_
    have := lipschitz_bound (hp.differentiable (by norm_num)) hp1 (x - h) x
    rw [sub_sub_cancel, abs_of_pos hh] at this
    linarith
  have hHG : |H - G| ≤ 8 * (P₂ * h ^ 2) := by
    have hnn : 0 ≤ P₂ * h ^ 2 := by positivity
    rw [hH, hG]
    rw [abs_le] at s0 s1 s2
    split_ifs with h1 h2 h2
    · refine (limited_lipschitz _ _ _ _).trans ?_
      have e1 : |p x - p (x - h) - (p (x - h) - p (x - 2 * h))| ≤ P₂ * h ^ 2 := by rw [abs_le]; constructor <;> linarith [s2.1, s2.2]
      have e2 : |p (x + h) - p x - (p x - p (x - h))| ≤ P₂ * h ^ 2 := by rw [abs_le]; constructor <;> linarith [s0.1, s0.2]
      linarith
    · rw [limited_comm, sub_self, abs_zero]
      linarith
    · refine (limited_lipschitz _ _ _ _).trans ?_
      have e1 : |p (x + 2 * h) - p (x + h) - (p (x - h) - p (x - 2 * h))| ≤ 3 * (P₂ * h ^ 2) := by rw [abs_le]; constructor <;> linarith [s0.1, s0.2, s1.1, s1.2, s2.1, s2.2]
      have e2 : |p (x + h) - p x - (p x - p (x - h))| ≤ P₂ * h ^ 2 := by rw [abs_le]; constructor <;> linarith [s0.1, s0.2]
      linarith
    · refine (limited_lipschitz _ _ _ _).trans ?_
      have e1 : |p (x + 2 * h) - p (x + h) - (p (x + h) - p x)| ≤ P₂ * h ^ 2 := by rw [abs_le]; constructor <;> linarith [s1.1, s1.2]
      have e2 : |p (x + h) - p x - (p x - p (x - h))| ≤ P₂ * h ^ 2 := by rw [abs_le]; constructor <;> linarith [s0.1, s0.2]
      linarith
  have hab : |(|a| - |b|)| ≤ Q₁ * h := by
    refine (abs_abs_sub_abs_le_abs_sub a b).trans ?_
    have := lipschitz_bound hu hu1 (x - h / 2) (x + h / 2)
    rwa [show x + h / 2 - (x - h / 2) = h by ring, abs_of_pos hh] at this
  have hl : 0 ≤ k / h := by positivity
  have ca : k / h * |a| ≤ 1 := (mul_le_mul_of_nonneg_left (hu0 _) hl).trans hcfl
  have cb : k / h * |b| ≤ 1 := (mul_le_mul_of_nonneg_left (hu0 _) hl).trans hcfl
  have na : 0 ≤ k / h * |a| := by positivity
  have nb : 0 ≤ k / h * |b| := by positivity
  have e : 1 / 2 * (1 - k / h * |a|) * |a| * H - 1 / 2 * (1 - k / h * |b|) * |b| * G =
      1 / 2 * ((1 - k / h * |a|) * |a|) * (H - G) + 1 / 2 * ((|a| - |b|) * (1 - (k / h * |a| + k / h * |b|))) * G := by ring
  have b1 : |1 / 2 * ((1 - k / h * |a|) * |a|) * (H - G)| ≤ 1 / 2 * Q₀ * (8 * (P₂ * h ^ 2)) := by
    rw [abs_mul, abs_of_nonneg (mul_nonneg (by norm_num) (mul_nonneg (by linarith) (abs_nonneg _)))]
    refine mul_le_mul ?_ hHG (abs_nonneg _) (by positivity)
    have := mul_le_mul (by linarith : 1 - k / h * |a| ≤ 1) (hu0 (x + h / 2)) (abs_nonneg _) zero_le_one
    linarith
  have b2 : |1 / 2 * ((|a| - |b|) * (1 - (k / h * |a| + k / h * |b|))) * G| ≤ 1 / 2 * (Q₁ * h) * (2 * (P₁ * h)) := by
    rw [abs_mul]
    refine mul_le_mul ?_ hG0 (abs_nonneg _) (by positivity)
    rw [abs_mul, abs_mul, abs_of_pos (by norm_num : (0 : ℝ) < 1 / 2)]
    have : |1 - (k / h * |a| + k / h * |b|)| ≤ 1 := by rw [abs_le]; constructor <;> linarith
    have := mul_le_mul hab this (abs_nonneg _) (by positivity)
    linarith
  rw [e, abs_div, abs_of_pos hh, div_le_iff₀ hh]
  refine (abs_add_le _ _).trans ((add_le_add b1 b2).trans (le_of_eq ?_))
  ring

end JaxCfd
