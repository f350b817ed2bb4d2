import Verif.Props.Accuracy
import Mathlib.Analysis.Calculus.IteratedDeriv.Lemmas

/-!
# A product of two interpolated factors, differenced across a cell
-/

namespace JaxCfd

/-- The third derivative of a product. -/
theorem product_third_bound {a b : ℝ → ℝ} (ha : ContDiff ℝ (3 : ℕ) a) (hb : ContDiff ℝ (3 : ℕ) b) {U G1 G2 G3 : ℝ}
    (a0 : ∀ t, |a t| ≤ U) (a1 : ∀ t, |iteratedDeriv 1 a t| ≤ G1) (a2 : ∀ t, |iteratedDeriv 2 a t| ≤ G2) (a3 : ∀ t, |iteratedDeriv 3 a t| ≤ G3)
    (b0 : ∀ t, |b t| ≤ U) (b1 : ∀ t, |iteratedDeriv 1 b t| ≤ G1) (b2 : ∀ t, |iteratedDeriv 2 b t| ≤ G2) (b3 : ∀ t, |iteratedDeriv 3 b t| ≤ G3) (t : ℝ) :
    |iteratedDeriv 3 (fun t => a t * b t) t| ≤ 2 * (U * G3) + 6 * (G1 * G2) := by
  have hU : 0 ≤ U := (abs_nonneg _).trans (a0 t)
  have hG1 : 0 ≤ G1 := (abs_nonneg _).trans (a1 t)
  have hG2 : 0 ≤ G2 := (abs_nonneg _).trans (a2 t)
  have hG3 : 0 ≤ G3 := (abs_nonneg _).trans (a3 t)
  have e : iteratedDeriv 3 (fun t => a t * b t) t = a t * iteratedDeriv 3 b t + 3 * (iteratedDeriv 1 a t * iteratedDeriv 2 b t) +
      3 * (iteratedDeriv 2 a t * iteratedDeriv 1 b t) + iteratedDeriv 3 a t * b t := by
    have := iteratedDeriv_mul (n := 3) (x := t) (f := a) (g := b) ha.contDiffAt hb.contDiffAt
    rw [show (fun t => a t * b t) = a * b from rfl, this]
    simp [Finset.sum_range_succ, Nat.choose]
    ring
  have mul : ∀ {p q P Q : ℝ}, |p| ≤ P → |q| ≤ Q → |p * q| ≤ P * Q := fun {p q P Q} hp hq => by
    rw [abs_mul]
    exact mul_le_mul hp hq (abs_nonneg _) ((abs_nonneg _).trans hp)
  have m1 := abs_le.1 (mul (a0 t) (b3 t))
  have m2 := abs_le.1 (mul (a1 t) (b2 t))
  have m3 := abs_le.1 (mul (a2 t) (b1 t))
  have m4 := abs_le.1 (mul (a3 t) (b0 t))
  rw [e, abs_le]
  constructor <;> linarith [m1.1, m1.2, m2.1, m2.2, m3.1, m3.2, m4.1, m4.2, mul_comm G1 G2, mul_comm U G3]

/-- Averages of `a` over a cell times approximations `B` of `b`, differenced across the cell. -/
theorem product_flux_bound {a b B B' : ℝ → ℝ} (ha : ContDiff ℝ (3 : ℕ) a) (hb : ContDiff ℝ (3 : ℕ) b) (hB : ∀ t, HasDerivAt B (B' t) t) {U G1 G2 G3 ε ε' : ℝ}
    (a0 : ∀ t, |a t| ≤ U) (a1 : ∀ t, |iteratedDeriv 1 a t| ≤ G1) (a2 : ∀ t, |iteratedDeriv 2 a t| ≤ G2) (a3 : ∀ t, |iteratedDeriv 3 a t| ≤ G3)
    (b0 : ∀ t, |b t| ≤ U) (b1 : ∀ t, |iteratedDeriv 1 b t| ≤ G1) (b2 : ∀ t, |iteratedDeriv 2 b t| ≤ G2) (b3 : ∀ t, |iteratedDeriv 3 b t| ≤ G3)
    (B0 : ∀ t, |B t| ≤ U) (B1 : ∀ t, |B' t| ≤ G1) (e0 : ∀ t, |B t - b t| ≤ ε) (e1 : ∀ t, |B' t - deriv b t| ≤ ε') (x : ℝ) {h : ℝ} (hh : 0 < h) :
    |((a x + a (x + h)) / 2 * B (x + h / 2) - (a (x - h) + a x) / 2 * B (x - h / 2)) / h - iteratedDeriv 1 (fun t => a t * b t) x| ≤
      (2 * (U * G3) + 6 * (G1 * G2)) * h ^ 2 / 24 + (U * G3 + G1 * G2) * h ^ 2 / 8 + (G1 * ε + U * ε') := by
  have hU : 0 ≤ U := (abs_nonneg _).trans (a0 x)
  have hG1 : 0 ≤ G1 := (abs_nonneg _).trans (a1 x)
  have hG2 : 0 ≤ G2 := (abs_nonneg _).trans (a2 x)
  have hG3 : 0 ≤ G3 := (abs_nonneg _).trans (a3 x)
  have hda : Differentiable ℝ a := ha.differentiable (by norm_num)
  have hdb : Differentiable ℝ b := hb.differentiable (by norm_num)
  have ha' : ContDiff ℝ (2 : ℕ) (deriv a) := by
    have : ContDiff ℝ ((2 : ℕ) + 1) a := by exact_mod_cast ha
    exact (contDiff_succ_iff_deriv.1 this).2.2
  let E : ℝ → ℝ := fun y => (a (y - h / 2) + a (y + h / 2)) / 2 - a y
  let E' : ℝ → ℝ := fun y => (deriv a (y - h / 2) + deriv a (y + h / 2)) / 2 - deriv a y
  have hdE : ∀ y, HasDerivAt E (E' y) y := fun y => by
    have c1 : HasDerivAt (fun t => a (t - h / 2)) (deriv a (y - h / 2)) y := HasDerivAt.comp_sub_const y (h / 2) (hda (y - h / 2)).hasDerivAt
    have c2 : HasDerivAt (fun t => a (t + h / 2)) (deriv a (y + h / 2)) y := HasDerivAt.comp_add_const y (h / 2) (hda (y + h / 2)).hasDerivAt
    exact ((c1.add c2).div_const 2).sub (hda y).hasDerivAt
  have mid : ∀ {φ : ℝ → ℝ}, ContDiff ℝ (2 : ℕ) φ → ∀ {M : ℝ}, (∀ t, |iteratedDeriv 2 φ t| ≤ M) → ∀ y, |(φ (y - h / 2) + φ (y + h / 2)) / 2 - φ y| ≤ M * h ^ 2 / 8 :=
    fun {φ} hφ {M} hM y => by
      have := lerp_bound hφ hM (y - h / 2) h (w := 1 / 2) (by norm_num) (by norm_num)
      rw [show y - h / 2 + h = y + h / 2 by ring, show y - h / 2 + 1 / 2 * h = y by ring] at this
      convert this using 2
      ring
  have hE : ∀ y, |E y| ≤ G2 * h ^ 2 / 8 := mid (ha.of_le (by norm_num)) a2
  have hE' : ∀ y, |E' y| ≤ G3 * h ^ 2 / 8 := mid ha' (fun t => by rw [← iteratedDeriv_succ']; exact a3 t)
  let D : ℝ → ℝ := fun y => E y * B y + a y * (B y - b y)
  have hdD : ∀ y, HasDerivAt D (E' y * B y + E y * B' y + (deriv a y * (B y - b y) + a y * (B' y - deriv b y))) y := fun y =>
    ((hdE y).mul (hB y)).add ((hda y).hasDerivAt.mul ((hB y).sub (hdb y).hasDerivAt))
  have mul : ∀ {p q P Q : ℝ}, |p| ≤ P → |q| ≤ Q → |p * q| ≤ P * Q := fun {p q P Q} hp hq => by
    rw [abs_mul]
    exact mul_le_mul hp hq (abs_nonneg _) ((abs_nonneg _).trans hp)
  have hD' : ∀ y, |deriv D y| ≤ (U * G3 + G1 * G2) * h ^ 2 / 8 + (G1 * ε + U * ε') := fun y => by
    rw [(hdD y).deriv]
    have m1 := abs_le.1 (mul (hE' y) (B0 y))
    have m2 := abs_le.1 (mul (hE y) (B1 y))
    have m3 := abs_le.1 (mul (by rw [← iteratedDeriv_one]; exact a1 y) (e0 y) : |deriv a y * (B y - b y)| ≤ G1 * ε)
    have m4 := abs_le.1 (mul (a0 y) (e1 y))
    rw [abs_le]
    constructor <;> linarith [m1.1, m1.2, m2.1, m2.2, m3.1, m3.2, m4.1, m4.2]
  have hDD : |D (x + h / 2) - D (x - h / 2)| ≤ ((U * G3 + G1 * G2) * h ^ 2 / 8 + (G1 * ε + U * ε')) * h := by
    have := lipschitz_bound (fun y => (hdD y).differentiableAt) hD' (x - h / 2) (x + h / 2)
    rwa [show x + h / 2 - (x - h / 2) = h by ring, abs_of_pos hh] at this
  have hmain := half_bound (ha.mul hb) (product_third_bound ha hb a0 a1 a2 a3 b0 b1 b2 b3) x hh
  have e : ((a x + a (x + h)) / 2 * B (x + h / 2) - (a (x - h) + a x) / 2 * B (x - h / 2)) / h - iteratedDeriv 1 (fun t => a t * b t) x =
      ((a (x + h / 2) * b (x + h / 2) - a (x - h / 2) * b (x - h / 2)) / h - iteratedDeriv 1 (fun t => a t * b t) x) + (D (x + h / 2) - D (x - h / 2)) / h := by
    simp only [D, E]
    rw [show x + h / 2 - h / 2 = x by ring, show x + h / 2 + h / 2 = x + h by ring, show x - h / 2 - h / 2 = x - h by ring, show x - h / 2 + h / 2 = x by ring]
    ring
  rw [e, add_assoc]
  refine (abs_add_le _ _).trans (add_le_add hmain ?_)
  rwa [abs_div, abs_of_pos hh, div_le_iff₀ hh]

end JaxCfd
