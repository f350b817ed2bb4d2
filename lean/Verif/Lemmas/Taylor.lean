import Verif.SpecSmooth
import Verif.Lemmas.FD
import Mathlib.Analysis.Calculus.Taylor
import Mathlib.Analysis.Calculus.Deriv.Shift

/-! Taylor expansion with a bound on the remainder, and values of a periodic function at the neighbours of a grid point. -/

namespace JaxCfd
open Set

theorem taylor_bound_on {φ : ℝ → ℝ} {n : ℕ} (hφ : ContDiff ℝ (n + 1 : ℕ) φ) {M : ℝ} (x h : ℝ) (hM : ∀ t ∈ uIoo x (x + h), |iteratedDeriv (n + 1) φ t| ≤ M) :
    |φ (x + h) - ∑ k ∈ Finset.range (n + 1), iteratedDeriv k φ x * h ^ k / (k.factorial : ℝ)| ≤ M * |h| ^ (n + 1) / ((n + 1).factorial : ℝ) := by
  rcases eq_or_ne h 0 with rfl | hh
  · have : ∑ k ∈ Finset.range (n + 1), iteratedDeriv k φ x * (0 : ℝ) ^ k / (k.factorial : ℝ) = φ x := by
      rw [Finset.sum_range_succ']
      simp
    rw [this]
    simp
  · have hne : x ≠ x + h := by simpa using hh
    obtain ⟨y, hy0, hy⟩ := taylor_mean_remainder_lagrange_iteratedDeriv (f := φ) (n := n) hne (by exact_mod_cast hφ.contDiffOn)
    have hT : taylorWithinEval φ n (uIcc x (x + h)) x (x + h) = ∑ k ∈ Finset.range (n + 1), iteratedDeriv k φ x * h ^ k / (k.factorial : ℝ) := by
      rw [taylor_within_apply]
      refine Finset.sum_congr rfl fun k hk => ?_
      have hk' : k ≤ n + 1 := by have := Finset.mem_range.1 hk; omega
      rw [iteratedDerivWithin_eq_iteratedDeriv (uniqueDiffOn_uIcc hne) ((hφ.of_le (by exact_mod_cast hk')).contDiffAt) left_mem_uIcc, add_sub_cancel_left, smul_eq_mul]
      ring
    rw [hT] at hy
    rw [hy, add_sub_cancel_left, abs_div, abs_mul, abs_pow, Nat.abs_cast]
    gcongr
    exact hM y hy0

theorem taylor_bound {φ : ℝ → ℝ} {n : ℕ} (hφ : ContDiff ℝ (n + 1 : ℕ) φ) {M : ℝ} (hM : ∀ t, |iteratedDeriv (n + 1) φ t| ≤ M) (x h : ℝ) :
    |φ (x + h) - ∑ k ∈ Finset.range (n + 1), iteratedDeriv k φ x * h ^ k / (k.factorial : ℝ)| ≤ M * |h| ^ (n + 1) / ((n + 1).factorial : ℝ) :=
  taylor_bound_on hφ x h fun t _ => hM t

/-- Difference quotient over one cell, compared with the derivative in the middle. -/
theorem half_bound {φ : ℝ → ℝ} (hφ : ContDiff ℝ (3 : ℕ) φ) {M : ℝ} (hM : ∀ t, |iteratedDeriv 3 φ t| ≤ M) (x : ℝ) {h : ℝ} (hh : 0 < h) :
    |(φ (x + h / 2) - φ (x - h / 2)) / h - iteratedDeriv 1 φ x| ≤ M * h ^ 2 / 24 := by
  have h1 := taylor_bound (n := 2) hφ hM x (h / 2)
  have h2 := taylor_bound (n := 2) hφ hM x (-(h / 2))
  simp only [Finset.sum_range_succ, Finset.sum_range_zero, Nat.factorial] at h1 h2
  norm_num at h1 h2
  rw [← sub_eq_add_neg] at h2
  rw [abs_of_pos (by linarith : 0 < h / 2)] at h1 h2
  have e : (φ (x + h / 2) - φ (x - h / 2)) / h - iteratedDeriv 1 φ x = (φ (x + h / 2) - φ (x - h / 2) - h * iteratedDeriv 1 φ x) / h := by field_simp
  rw [e, abs_div, abs_of_pos hh, div_le_iff₀ hh]
  rw [abs_le] at *
  have e2 : iteratedDeriv 1 φ x = deriv φ x := by rw [iteratedDeriv_one]
  rw [e2]
  constructor <;> nlinarith

theorem central_bound {φ : ℝ → ℝ} (hφ : ContDiff ℝ (3 : ℕ) φ) {M : ℝ} (hM : ∀ t, |iteratedDeriv 3 φ t| ≤ M) (x : ℝ) {h : ℝ} (hh : 0 < h) :
    |(φ (x + h) - φ (x - h)) / (2 * h) - iteratedDeriv 1 φ x| ≤ M * h ^ 2 / 6 := by
  have := half_bound hφ hM x (h := 2 * h) (by linarith)
  rw [show 2 * h / 2 = h by ring] at this
  refine this.trans (le_of_eq (by ring))

theorem second_bound {φ : ℝ → ℝ} (hφ : ContDiff ℝ (4 : ℕ) φ) {M : ℝ} (hM : ∀ t, |iteratedDeriv 4 φ t| ≤ M) (x : ℝ) {h : ℝ} (hh : 0 < h) :
    |(φ (x + h) + φ (x - h) - 2 * φ x) / h ^ 2 - iteratedDeriv 2 φ x| ≤ M * h ^ 2 / 12 := by
  have h1 := taylor_bound (n := 3) hφ hM x h
  have h2 := taylor_bound (n := 3) hφ hM x (-h)
  simp only [Finset.sum_range_succ, Finset.sum_range_zero, Nat.factorial] at h1 h2
  norm_num at h1 h2
  rw [← sub_eq_add_neg] at h2
  rw [abs_of_pos hh] at h1 h2
  have hh2 : 0 < h ^ 2 := by positivity
  have e : (φ (x + h) + φ (x - h) - 2 * φ x) / h ^ 2 - iteratedDeriv 2 φ x = (φ (x + h) + φ (x - h) - 2 * φ x - h ^ 2 * iteratedDeriv 2 φ x) / h ^ 2 := by field_simp
  rw [e, abs_div, abs_of_pos hh2, div_le_iff₀ hh2]
  rw [abs_le] at *
  constructor <;> nlinarith

theorem lerp_bound {φ : ℝ → ℝ} (hφ : ContDiff ℝ (2 : ℕ) φ) {M : ℝ} (hM : ∀ t, |iteratedDeriv 2 φ t| ≤ M) (x h : ℝ) {w : ℝ} (h0 : 0 ≤ w) (h1 : w ≤ 1) :
    |(1 - w) * φ x + w * φ (x + h) - φ (x + w * h)| ≤ M * h ^ 2 / 8 := by
  have hM0 : 0 ≤ M := (abs_nonneg _).trans (hM 0)
  have t1 := taylor_bound (n := 1) hφ hM (x + w * h) (-(w * h))
  have t2 := taylor_bound (n := 1) hφ hM (x + w * h) ((1 - w) * h)
  rw [show x + w * h + -(w * h) = x by ring] at t1
  rw [show x + w * h + (1 - w) * h = x + h by ring] at t2
  simp only [Finset.sum_range_succ, Finset.sum_range_zero, Nat.factorial] at t1 t2
  norm_num [sq_abs] at t1 t2
  rw [mul_pow, sq_abs, sq_abs] at t1 t2
  set D := deriv φ (x + w * h)
  have e : (1 - w) * φ x + w * φ (x + h) - φ (x + w * h) =
      (1 - w) * (φ x - (φ (x + w * h) + -(D * (w * h)))) + w * (φ (x + h) - (φ (x + w * h) + D * ((1 - w) * h))) := by ring
  rw [e]
  calc _ ≤ (1 - w) * (M * (w ^ 2 * h ^ 2) / 2) + w * (M * ((1 - w) ^ 2 * h ^ 2) / 2) := by
        refine (abs_add_le _ _).trans (add_le_add ?_ ?_)
        · rw [abs_mul, abs_of_nonneg (by linarith : 0 ≤ 1 - w)]
          exact mul_le_mul_of_nonneg_left t1 (by linarith)
        · rw [abs_mul, abs_of_nonneg h0]
          exact mul_le_mul_of_nonneg_left t2 h0
    _ = M * h ^ 2 / 2 * (w * (1 - w)) := by ring
    _ ≤ M * h ^ 2 / 2 * (1 / 4) := by
        refine mul_le_mul_of_nonneg_left ?_ (by positivity)
        nlinarith [sq_nonneg (w - 1 / 2)]
    _ = _ := by ring

theorem lipschitz_bound {φ : ℝ → ℝ} (hφ : Differentiable ℝ φ) {M : ℝ} (hM : ∀ t, |deriv φ t| ≤ M) (x y : ℝ) : |φ y - φ x| ≤ M * |y - x| :=
  Convex.norm_image_sub_le_of_norm_deriv_le (𝕜 := ℝ) (s := Set.univ) (fun t _ => hφ t) (fun t _ => hM t) convex_univ (Set.mem_univ x) (Set.mem_univ y)

theorem second_difference_bound {φ : ℝ → ℝ} (hφ : ContDiff ℝ (2 : ℕ) φ) {M : ℝ} (hM : ∀ t, |iteratedDeriv 2 φ t| ≤ M) (x : ℝ) (h : ℝ) :
    |φ (x + h) + φ (x - h) - 2 * φ x| ≤ M * h ^ 2 := by
  have := lerp_bound hφ hM (x - h) (2 * h) (w := 1 / 2) (by norm_num) (by norm_num)
  rw [show x - h + 2 * h = x + h by ring, show x - h + 1 / 2 * (2 * h) = x by ring] at this
  have e : φ (x + h) + φ (x - h) - 2 * φ x = 2 * ((1 - 1 / 2) * φ (x - h) + 1 / 2 * φ (x + h) - φ x) := by ring
  rw [e, abs_mul, abs_two]
  linarith

/-- The centred flux difference, compared with the derivative of the product. -/
theorem flux_bound {φ ψ : ℝ → ℝ} (hφ : ContDiff ℝ (3 : ℕ) φ) (hψ : Differentiable ℝ ψ) (hp : ContDiff ℝ (3 : ℕ) fun t => ψ t * φ t) {M P2 P3 Q0 Q1 : ℝ}
    (hM : ∀ t, |iteratedDeriv 3 (fun t => ψ t * φ t) t| ≤ M) (h2 : ∀ t, |iteratedDeriv 2 φ t| ≤ P2) (h3 : ∀ t, |iteratedDeriv 3 φ t| ≤ P3) (q0 : ∀ t, |ψ t| ≤ Q0)
    (q1 : ∀ t, |deriv ψ t| ≤ Q1) (x : ℝ) {h : ℝ} (hh : 0 < h) :
    |(ψ (x + h / 2) * ((φ x + φ (x + h)) / 2) - ψ (x - h / 2) * ((φ (x - h) + φ x) / 2)) / h - iteratedDeriv 1 (fun t => ψ t * φ t) x| ≤
      M * h ^ 2 / 24 + (Q0 * P3 + Q1 * P2) * h ^ 2 / 8 := by
  have hQ0 : 0 ≤ Q0 := (abs_nonneg _).trans (q0 0)
  have hQ1 : 0 ≤ Q1 := (abs_nonneg _).trans (q1 0)
  have hP2 : 0 ≤ P2 := (abs_nonneg _).trans (h2 0)
  have hP3 : 0 ≤ P3 := (abs_nonneg _).trans (h3 0)
  let E : ℝ → ℝ := fun y => (φ (y - h / 2) + φ (y + h / 2)) / 2 - φ y
  have hE : ∀ y, |E y| ≤ P2 * h ^ 2 / 8 := fun y => by
    have := lerp_bound (hφ.of_le (by norm_num)) h2 (y - h / 2) h (w := 1 / 2) (by norm_num) (by norm_num)
    rw [show y - h / 2 + h = y + h / 2 by ring, show y - h / 2 + 1 / 2 * h = y by ring] at this
    convert this using 2
    show (φ (y - h / 2) + φ (y + h / 2)) / 2 - φ y = _
    ring
  have hdφ : Differentiable ℝ φ := hφ.differentiable (by norm_num)
  have hφ' : ContDiff ℝ (2 : ℕ) (deriv φ) := by
    have : ContDiff ℝ ((2 : ℕ) + 1) φ := by exact_mod_cast hφ
    exact (contDiff_succ_iff_deriv.1 this).2.2
  have hdE : ∀ y, HasDerivAt E ((deriv φ (y - h / 2) + deriv φ (y + h / 2)) / 2 - deriv φ y) y := fun y => by
    have a1 : HasDerivAt (fun t => φ (t - h / 2)) (deriv φ (y - h / 2)) y := HasDerivAt.comp_sub_const y (h / 2) (hdφ (y - h / 2)).hasDerivAt
    have a2 : HasDerivAt (fun t => φ (t + h / 2)) (deriv φ (y + h / 2)) y := HasDerivAt.comp_add_const y (h / 2) (hdφ (y + h / 2)).hasDerivAt
    exact ((a1.add a2).div_const 2).sub (hdφ y).hasDerivAt
  have hE' : ∀ y, |deriv E y| ≤ P3 * h ^ 2 / 8 := fun y => by
    rw [(hdE y).deriv]
    have := lerp_bound hφ' (M := P3) (fun t => by rw [← iteratedDeriv_succ']; exact h3 t) (y - h / 2) h (w := 1 / 2) (by norm_num) (by norm_num)
    rw [show y - h / 2 + h = y + h / 2 by ring, show y - h / 2 + 1 / 2 * h = y by ring] at this
    convert this using 2
    ring
  have hEE : |E (x + h / 2) - E (x - h / 2)| ≤ P3 * h ^ 2 / 8 * h := by
    have := lipschitz_bound (fun y => (hdE y).differentiableAt) hE' (x - h / 2) (x + h / 2)
    rwa [show x + h / 2 - (x - h / 2) = h by ring, abs_of_pos hh] at this
  have hψψ : |ψ (x + h / 2) - ψ (x - h / 2)| ≤ Q1 * h := by
    have := lipschitz_bound hψ q1 (x - h / 2) (x + h / 2)
    rwa [show x + h / 2 - (x - h / 2) = h by ring, abs_of_pos hh] at this
  have hmain := half_bound hp hM x hh
  have e : (ψ (x + h / 2) * ((φ x + φ (x + h)) / 2) - ψ (x - h / 2) * ((φ (x - h) + φ x) / 2)) / h - iteratedDeriv 1 (fun t => ψ t * φ t) x =
      ((ψ (x + h / 2) * φ (x + h / 2) - ψ (x - h / 2) * φ (x - h / 2)) / h - iteratedDeriv 1 (fun t => ψ t * φ t) x) +
        (ψ (x + h / 2) * (E (x + h / 2) - E (x - h / 2)) + (ψ (x + h / 2) - ψ (x - h / 2)) * E (x - h / 2)) / h := by
    simp only [E]
    rw [show x + h / 2 - h / 2 = x by ring, show x + h / 2 + h / 2 = x + h by ring, show x - h / 2 - h / 2 = x - h by ring, show x - h / 2 + h / 2 = x by ring]
    ring
  rw [e]
  refine (abs_add_le _ _).trans (add_le_add hmain ?_)
  rw [abs_div, abs_of_pos hh, div_le_iff₀ hh]
  refine (abs_add_le _ _).trans ?_
  rw [abs_mul, abs_mul]
  have b1 := mul_le_mul (q0 (x + h / 2)) hEE (abs_nonneg _) hQ0
  have b2 := mul_le_mul hψψ (hE (x - h / 2)) (abs_nonneg _) (by positivity)
  refine (add_le_add b1 b2).trans (le_of_eq (by ring))

/-- The difference between upwind and centred fluxes. -/
theorem upwind_flux_bound {φ ψ : ℝ → ℝ} (hφ : ContDiff ℝ (2 : ℕ) φ) (hψ : Differentiable ℝ ψ) {P1 P2 Q0 Q1 : ℝ}
    (h1 : ∀ t, |deriv φ t| ≤ P1) (h2 : ∀ t, |iteratedDeriv 2 φ t| ≤ P2) (q0 : ∀ t, |ψ t| ≤ Q0) (q1 : ∀ t, |deriv ψ t| ≤ Q1) (x : ℝ) {h : ℝ} (hh : 0 < h) :
    |(|ψ (x + h / 2)| * (φ (x + h) - φ x) - |ψ (x - h / 2)| * (φ x - φ (x - h))) / (2 * h)| ≤ (Q0 * P2 + Q1 * P1) * h / 2 := by
  have hQ0 : 0 ≤ Q0 := (abs_nonneg _).trans (q0 0)
  have hQ1 : 0 ≤ Q1 := (abs_nonneg _).trans (q1 0)
  have hψψ : |ψ (x + h / 2) - ψ (x - h / 2)| ≤ Q1 * h := by
    have := lipschitz_bound hψ q1 (x - h / 2) (x + h / 2)
    rwa [show x + h / 2 - (x - h / 2) = h by ring, abs_of_pos hh] at this
  have hφφ : |φ x - φ (x - h)| ≤ P1 * h := by
    have := lipschitz_bound (hφ.differentiable (by norm_num)) h1 (x - h) x
    rwa [show x - (x - h) = h by ring, abs_of_pos hh] at this
  have hab : |(|ψ (x + h / 2)| - |ψ (x - h / 2)|)| ≤ Q1 * h := (abs_abs_sub_abs_le_abs_sub _ _).trans hψψ
  have e : |ψ (x + h / 2)| * (φ (x + h) - φ x) - |ψ (x - h / 2)| * (φ x - φ (x - h)) =
      |ψ (x + h / 2)| * (φ (x + h) + φ (x - h) - 2 * φ x) + (|ψ (x + h / 2)| - |ψ (x - h / 2)|) * (φ x - φ (x - h)) := by ring
  have h2h : 0 < 2 * h := by linarith
  rw [e, abs_div, abs_of_pos h2h, div_le_iff₀ h2h]
  refine (abs_add_le _ _).trans ?_
  rw [abs_mul, abs_mul, abs_abs]
  have b1 := mul_le_mul (q0 (x + h / 2)) (second_difference_bound hφ h2 x h) (abs_nonneg _) hQ0
  have b2 := mul_le_mul hab hφφ (abs_nonneg _) (by positivity)
  refine (add_le_add b1 b2).trans (le_of_eq (by ring))

section sampling
variable {d : ℕ} {g : Grid d ℝ} {f : (Fin d → ℝ) → ℝ}

theorem PeriodicOn.nat (hf : PeriodicOn g f) (a : Fin d) (x : Fin d → ℝ) (m : ℕ) : f (Function.update x a (x a + m * ((g.domain a).2 - (g.domain a).1))) = f x := by
  induction m with
  | zero => simp
  | succ m ih =>
    have := hf (Function.update x a (x a + m * ((g.domain a).2 - (g.domain a).1))) a
    rw [Function.update_idem, Function.update_self, ih] at this
    rw [← this]
    congr 2
    push_cast
    ring

theorem PeriodicOn.int (hf : PeriodicOn g f) (a : Fin d) (x : Fin d → ℝ) (m : ℤ) : f (Function.update x a (x a + m * ((g.domain a).2 - (g.domain a).1))) = f x := by
  obtain ⟨n, rfl | rfl⟩ := m.eq_nat_or_neg
  · exact_mod_cast hf.nat a x n
  · have := hf.nat a (Function.update x a (x a + ((-(n : ℤ) : ℤ) : ℝ) * ((g.domain a).2 - (g.domain a).1))) n
    rw [Function.update_idem, Function.update_self] at this
    rw [← this]
    push_cast
    rw [show x a + -(n : ℝ) * ((g.domain a).2 - (g.domain a).1) + n * ((g.domain a).2 - (g.domain a).1) = x a by ring, Function.update_eq_self]

theorem Grid.Valid.step_pos (hg : g.Valid) (a : Fin d) : 0 < g.step a := by
  unfold Grid.step
  have := hg a
  have h1 : (0 : ℝ) < g.shape a := by exact_mod_cast this.1
  have h2 : 0 < (g.domain a).2 - (g.domain a).1 := by linarith [this.2]
  positivity

theorem Grid.Valid.step_mul (hg : g.Valid) (a : Fin d) : g.step a * g.shape a = (g.domain a).2 - (g.domain a).1 := by
  unfold Grid.step
  have h1 : (g.shape a : ℝ) ≠ 0 := by exact_mod_cast (hg a).1.ne'
  field_simp

/-- The value of a periodic function at the neighbour `k` cells away. -/
theorem sample_roll (hg : g.Valid) (hf : PeriodicOn g f) {s : Fin d → ℕ} (hs : s = g.shape) (o : Fin d → ℚ) (a : Fin d) (k : ℤ) (i : Idx d) :
    f (g.position o (rollIdx s a k i)) = f (Function.update (g.position o i) a (g.position o i a + k * g.step a)) := by
  subst hs
  have e : g.position o (rollIdx g.shape a k i) = Function.update (Function.update (g.position o i) a (g.position o i a + k * g.step a)) a
      (Function.update (g.position o i) a (g.position o i a + k * g.step a) a + ((-((i a + k) / (g.shape a : ℤ)) : ℤ) : ℝ) * ((g.domain a).2 - (g.domain a).1)) := by
    rw [Function.update_idem, Function.update_self]
    funext b
    unfold Grid.position rollIdx
    rcases eq_or_ne b a with rfl | hb
    · rw [Function.update_self, Function.update_self]
      have h1 : ((i b + k) % (g.shape b : ℤ) : ℤ) = (i b + k) - (g.shape b : ℤ) * ((i b + k) / (g.shape b : ℤ)) := Int.emod_def _ _
      rw [h1, ← hg.step_mul b]
      push_cast
      ring
    · rw [Function.update_of_ne hb, Function.update_of_ne hb]
  rw [e, hf.int]

theorem position_update (o : Fin d → ℚ) (a : Fin d) (q : ℚ) (i : Idx d) :
    g.position (Function.update o a q) i = Function.update (g.position o i) a (g.position o i a + ((q : ℝ) - (o a : ℝ)) * g.step a) := by
  funext b
  rcases eq_or_ne b a with rfl | hb
  · unfold Grid.position
    rw [Function.update_self, Function.update_self]
    ring
  · unfold Grid.position
    rw [Function.update_of_ne hb, Function.update_of_ne hb]

end sampling

end JaxCfd
