import Verif.SpecODE
import Verif.Lemmas.Taylor
import Mathlib.Analysis.Normed.Module.HahnBanach
import Mathlib.Analysis.SpecialFunctions.Exp

/-! Taylor expansion of paths in a normed space, and the accumulation of errors over many steps. -/

namespace JaxCfd
open Set
variable {V : Type} [NormedAddCommGroup V] [NormedSpace ℝ V]

theorem iteratedDeriv_functional {y : ℝ → V} {n : ℕ} (hy : ContDiff ℝ n y) (g : V →L[ℝ] ℝ) {k : ℕ} (hk : k ≤ n) (t : ℝ) :
    iteratedDeriv k (fun s => g (y s)) t = g (iteratedDeriv k y t) := by
  rw [iteratedDeriv_eq_iteratedFDeriv, iteratedDeriv_eq_iteratedFDeriv]
  have := g.iteratedFDeriv_comp_left (hy.contDiffAt (x := t)) (i := k) (by exact_mod_cast hk)
  show iteratedFDeriv ℝ k (g ∘ y) t _ = _
  rw [this]
  rfl

theorem vector_taylor {y : ℝ → V} {n : ℕ} {M : ℝ} (hy : SmoothPath (n + 1) M y) {t h : ℝ} (ht : 0 ≤ t) (hth : 0 ≤ t + h) :
    ‖y (t + h) - ∑ k ∈ Finset.range (n + 1), (h ^ k / (k.factorial : ℝ)) • iteratedDeriv k y t‖ ≤ M * |h| ^ (n + 1) / ((n + 1).factorial : ℝ) := by
  obtain ⟨g, hg, hx⟩ := exists_dual_vector'' ℝ (y (t + h) - ∑ k ∈ Finset.range (n + 1), (h ^ k / (k.factorial : ℝ)) • iteratedDeriv k y t)
  have hb := taylor_bound_on (φ := fun s => g (y s)) (n := n) (g.contDiff.comp hy.1) (M := M) t h (fun s hs => by
    rw [iteratedDeriv_functional hy.1 g le_rfl]
    exact ((g.le_opNorm _).trans (mul_le_of_le_one_left (norm_nonneg _) hg)).trans (hy.2 s ((le_min ht hth).trans hs.1.le)))
  have e : g (y (t + h) - ∑ k ∈ Finset.range (n + 1), (h ^ k / (k.factorial : ℝ)) • iteratedDeriv k y t) =
      g (y (t + h)) - ∑ k ∈ Finset.range (n + 1), iteratedDeriv k (fun s => g (y s)) t * h ^ k / (k.factorial : ℝ) := by
    rw [map_sub, map_sum]
    congr 1
    refine Finset.sum_congr rfl fun k hk => ?_
    rw [map_smul, iteratedDeriv_functional hy.1 g (Finset.mem_range.1 hk).le, smul_eq_mul]
    ring
  have : ‖y (t + h) - ∑ k ∈ Finset.range (n + 1), (h ^ k / (k.factorial : ℝ)) • iteratedDeriv k y t‖ =
      g (y (t + h) - ∑ k ∈ Finset.range (n + 1), (h ^ k / (k.factorial : ℝ)) • iteratedDeriv k y t) := by rw [hx]; rfl
  rw [this, e]
  exact (le_abs_self _).trans hb

theorem SmoothPath.deriv {y : ℝ → V} {n : ℕ} {M : ℝ} (hy : SmoothPath (n + 1) M y) : SmoothPath n M (deriv y) := by
  refine ⟨((contDiff_succ_iff_deriv (n := n)).1 (by exact_mod_cast hy.1)).2.2, fun t ht => ?_⟩
  rw [← iteratedDeriv_succ']
  exact hy.2 t ht

theorem SmoothPath.nonneg {y : ℝ → V} {n : ℕ} {M : ℝ} (hy : SmoothPath n M y) : 0 ≤ M := (norm_nonneg _).trans (hy.2 0 le_rfl)

section
variable {y : ℝ → V} {M t h : ℝ}

/-- Euler: first order Taylor. -/
theorem euler_rule (hy : SmoothPath 2 M y) (ht : 0 ≤ t) (hth : 0 ≤ t + h) : ‖y (t + h) - (y t + h • deriv y t)‖ ≤ M * h ^ 2 / 2 := by
  have := vector_taylor (n := 1) hy ht hth
  simp only [Finset.sum_range_succ, Finset.sum_range_zero, Nat.factorial, iteratedDeriv_zero, iteratedDeriv_one] at this
  norm_num [sq_abs] at this
  exact this

/-- Zeroth order Taylor. -/
theorem constant_rule (hy : SmoothPath 1 M y) (ht : 0 ≤ t) (hth : 0 ≤ t + h) : ‖y (t + h) - y t‖ ≤ M * |h| := by
  have := vector_taylor (n := 0) hy ht hth
  simp only [Finset.sum_range_succ, Finset.sum_range_zero, Nat.factorial, iteratedDeriv_zero] at this
  norm_num at this
  exact this

theorem midpoint_rule (hy : SmoothPath 3 M y) (ht : 0 ≤ t) (hh : 0 ≤ h) : ‖y (t + h) - (y t + h • deriv y (t + h / 2))‖ ≤ M * h ^ 3 / 24 := by
  have h1 := vector_taylor (n := 2) hy (t := t + h / 2) (h := h / 2) (by positivity) (by positivity)
  have h2 := vector_taylor (n := 2) hy (t := t + h / 2) (h := -(h / 2)) (by positivity) (by linarith)
  rw [show t + h / 2 + h / 2 = t + h by ring] at h1
  rw [show t + h / 2 + -(h / 2) = t by ring] at h2
  simp only [Finset.sum_range_succ, Finset.sum_range_zero, Nat.factorial, iteratedDeriv_zero, iteratedDeriv_one, abs_neg, abs_of_nonneg (by positivity : 0 ≤ h / 2)] at h1 h2
  have e : y (t + h) - (y t + h • deriv y (t + h / 2)) =
      (y (t + h) - (0 + ((h / 2) ^ 0 / ((1 : ℕ) : ℝ)) • y (t + h / 2) + ((h / 2) ^ 1 / (((0 + 1) * 1 : ℕ) : ℝ)) • deriv y (t + h / 2) +
        ((h / 2) ^ 2 / (((1 + 1) * ((0 + 1) * 1) : ℕ) : ℝ)) • iteratedDeriv 2 y (t + h / 2))) -
      (y t - (0 + ((-(h / 2)) ^ 0 / ((1 : ℕ) : ℝ)) • y (t + h / 2) + ((-(h / 2)) ^ 1 / (((0 + 1) * 1 : ℕ) : ℝ)) • deriv y (t + h / 2) +
        ((-(h / 2)) ^ 2 / (((1 + 1) * ((0 + 1) * 1) : ℕ) : ℝ)) • iteratedDeriv 2 y (t + h / 2))) := by
    push_cast
    module
  rw [e]
  refine (norm_sub_le _ _).trans ((add_le_add h1 h2).trans (le_of_eq ?_))
  push_cast
  ring

theorem trapezoid_rule (hy : SmoothPath 3 M y) (ht : 0 ≤ t) (hh : 0 ≤ h) : ‖y (t + h) - (y t + (h / 2) • (deriv y t + deriv y (t + h)))‖ ≤ M * h ^ 3 / 6 := by
  have h0 := midpoint_rule hy ht hh
  have h1 := euler_rule hy.deriv (t := t + h / 2) (h := h / 2) (by positivity) (by positivity)
  have h2 := euler_rule hy.deriv (t := t + h / 2) (h := -(h / 2)) (by positivity) (by linarith)
  rw [show t + h / 2 + h / 2 = t + h by ring] at h1
  rw [show t + h / 2 + -(h / 2) = t by ring] at h2
  have e : y (t + h) - (y t + (h / 2) • (deriv y t + deriv y (t + h))) = (y (t + h) - (y t + h • deriv y (t + h / 2))) -
      (h / 2) • ((deriv y (t + h) - (deriv y (t + h / 2) + (h / 2) • deriv (deriv y) (t + h / 2))) +
        (deriv y t - (deriv y (t + h / 2) + (-(h / 2)) • deriv (deriv y) (t + h / 2)))) := by module
  rw [e]
  refine (norm_sub_le _ _).trans ?_
  rw [norm_smul, Real.norm_of_nonneg (by positivity : 0 ≤ h / 2)]
  have h3 := mul_le_mul_of_nonneg_left ((norm_add_le _ _).trans (add_le_add h1 h2)) (by positivity : 0 ≤ h / 2)
  refine (add_le_add h0 h3).trans (le_of_eq ?_)
  ring

end

/-- Errors that are amplified by at most `exp (L dt)` and to which at most `dt τ` is added in every step, as long as they are below `ρ`. -/
theorem accumulate {e : ℕ → ℝ} {L dt τ ρ ε : ℝ} (hL : 0 ≤ L) (hdt : 0 ≤ dt) (hτ : 0 ≤ τ) (he : ∀ n, 0 ≤ e n) (h0 : e 0 ≤ ε)
    (hstep : ∀ n : ℕ, e n ≤ ρ → e (n + 1) ≤ Real.exp (L * dt) * e n + dt * τ) (n : ℕ) (hρ : Real.exp (L * (n * dt)) * (ε + n * dt * τ) ≤ ρ) :
    e n ≤ Real.exp (L * (n * dt)) * (ε + n * dt * τ) := by
  have hε : 0 ≤ ε := (he 0).trans h0
  induction n with
  | zero => simpa using h0
  | succ n ih =>
    have e1 : Real.exp (L * ((n + 1 : ℕ) * dt)) = Real.exp (L * dt) * Real.exp (L * (n * dt)) := by
      rw [← Real.exp_add]; congr 1; push_cast; ring
    have hge : 1 ≤ Real.exp (L * dt) := Real.one_le_exp (by positivity)
    have hge' : 1 ≤ Real.exp (L * (n * dt)) := Real.one_le_exp (by positivity)
    have hnd : 0 ≤ dt * τ := by positivity
    have hx : 0 ≤ ε + n * dt * τ := by positivity
    have hmono : Real.exp (L * (n * dt)) * (ε + n * dt * τ) ≤ Real.exp (L * ((n + 1 : ℕ) * dt)) * (ε + (n + 1 : ℕ) * dt * τ) := by
      refine mul_le_mul ?_ ?_ hx (Real.exp_pos _).le
      · rw [e1]; exact le_mul_of_one_le_left (Real.exp_pos _).le hge
      · push_cast; nlinarith
    have hn := ih (hmono.trans hρ)
    refine (hstep n (hn.trans (hmono.trans hρ))).trans ?_
    calc Real.exp (L * dt) * e n + dt * τ ≤ Real.exp (L * dt) * (Real.exp (L * (n * dt)) * (ε + n * dt * τ)) + Real.exp (L * dt) * Real.exp (L * (n * dt)) * (dt * τ) := by
          refine add_le_add (mul_le_mul_of_nonneg_left hn (Real.exp_pos _).le) (le_mul_of_one_le_left hnd ?_)
          calc (1 : ℝ) = 1 * 1 := by ring
            _ ≤ _ := mul_le_mul hge hge' zero_le_one (by positivity)
      _ = _ := by rw [e1]; push_cast; ring

end JaxCfd
