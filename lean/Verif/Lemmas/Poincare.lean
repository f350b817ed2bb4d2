import Verif.Lemmas.Poisson
import Mathlib.Algebra.Order.Chebyshev

/-!
A lower bound for the smallest non-zero eigenvalue of the pressure problem: a discrete Poincaré inequality.
-/

set_option linter.unusedSectionVars false

namespace JaxCfd
open VelocityField

/-- Sums over a one-dimensional box. -/
theorem sum_box_one {M : Type*} [AddCommMonoid M] (s : Fin 1 → ℕ) (f : Idx 1 → M) :
    ∑ i ∈ box s, f i = ∑ k ∈ Finset.range (s 0), f (fun _ => (k : ℤ)) := by
  symm
  refine Finset.sum_bij (fun (k : ℕ) _ => (fun _ => (k : ℤ) : Idx 1)) ?_ ?_ ?_ ?_
  · intro k hk
    rw [Finset.mem_range] at hk
    rw [mem_box]
    intro a
    rw [Subsingleton.elim a 0]
    exact ⟨Int.natCast_nonneg k, Int.ofNat_lt.2 hk⟩
  · intro a _ b _ h
    exact_mod_cast congrFun h 0
  · intro i hi
    rw [mem_box] at hi
    obtain ⟨n, hn⟩ := Int.eq_ofNat_of_zero_le (hi 0).1
    refine ⟨n, Finset.mem_range.2 (by have := (hi 0).2; omega), funext fun a => ?_⟩
    rw [Subsingleton.elim a 0]; exact hn.symm
  · intro k _; rfl

/-- Discrete Poincaré inequality for a sequence with mean zero. -/
theorem poincare (n : ℕ) (y : ℕ → ℝ) (h0 : ∑ k ∈ Finset.range n, y k = 0) :
    ∑ k ∈ Finset.range n, y k ^ 2 ≤ (n : ℝ) ^ 2 * ∑ k ∈ Finset.range (n - 1), (y (k + 1) - y k) ^ 2 := by
  have h1 : ∑ k ∈ Finset.range n, y k ^ 2 ≤ ∑ k ∈ Finset.range n, (y k - y 0) ^ 2 := by
    have : ∑ k ∈ Finset.range n, (y k - y 0) ^ 2 = ∑ k ∈ Finset.range n, y k ^ 2 - 2 * y 0 * ∑ k ∈ Finset.range n, y k +
        n * y 0 ^ 2 := by
      have e : ∀ k, (y k - y 0) ^ 2 = y k ^ 2 - 2 * y 0 * y k + y 0 ^ 2 := fun k => by ring
      simp only [e, Finset.sum_add_distrib, Finset.sum_sub_distrib, ← Finset.mul_sum, Finset.sum_const, Finset.card_range,
        nsmul_eq_mul]
    rw [this, h0]
    have : (0 : ℝ) ≤ n * y 0 ^ 2 := by positivity
    linarith
  refine h1.trans ?_
  have h2 : ∀ k ∈ Finset.range n, (y k - y 0) ^ 2 ≤ n * ∑ k ∈ Finset.range (n - 1), (y (k + 1) - y k) ^ 2 := by
    intro k hk
    rw [Finset.mem_range] at hk
    rw [← Finset.sum_range_sub]
    refine (sq_sum_le_card_mul_sum_sq).trans ?_
    rw [Finset.card_range]
    refine mul_le_mul (by exact_mod_cast hk.le) ?_ (Finset.sum_nonneg fun _ _ => sq_nonneg _) (by positivity)
    refine Finset.sum_le_sum_of_subset_of_nonneg (Finset.range_subset_range.2 (by omega)) (fun _ _ _ => sq_nonneg _)
  refine (Finset.sum_le_sum h2).trans (le_of_eq ?_)
  rw [Finset.sum_const, Finset.card_range, nsmul_eq_mul]; ring

variable {d : ℕ} [HasNan ℝ]

namespace VelocityField
variable {g : Grid d ℝ} {v : Fin d → GridVariable d ℝ}

/-- the one-dimensional grid and velocity of one axis -/
def axisGrid (g : Grid d ℝ) (a : Fin d) : Grid 1 ℝ := ⟨fun _ => g.shape a, fun _ => g.domain a⟩
def axisVel (g : Grid d ℝ) (v : Fin d → GridVariable d ℝ) (a : Fin d) : Fin 1 → GridVariable 1 ℝ := fun _ =>
  ⟨⟨⟨fun _ => g.shape a, fun _ => 0⟩, fun _ => 1, axisGrid g a⟩, ⟨.homogeneous, fun _ => (v a).bc.types a, fun _ => (some 0, some 0)⟩⟩

theorem axisVel_field (h : VelocityField g v) (a : Fin d) : VelocityField (axisGrid g a) (axisVel g v a) := by
  refine ⟨fun _ => h.1 a, fun b => ⟨rfl, rfl, fun c => ?_⟩, fun b => ?_⟩
  · rw [if_pos (Subsingleton.elim _ _)]; rfl
  · rcases h.2.2 a with hp | ⟨hd, -⟩
    · exact Or.inl fun _ => hp a
    · refine Or.inr ⟨hd, fun c => ?_⟩
      have e : (axisVel g v a c).bc.types b = (.dirichlet, .dirichlet) := hd
      rw [e]
      exact ⟨Or.inl rfl, Or.inl rfl⟩

/-- The non-zero eigenvalues of one axis are at most `-1 / length²`. -/
theorem eigen_gap (h : VelocityField g v) (hN : ∀ a, 3 ≤ g.shape a) (hlen : ∀ a, (g.domain a).1 < (g.domain a).2)
    {ms : Fin d → Mat ℝ} (hms : laplacianMatrixWB g (fun _ => 1 / 2) (pbc v) = .ok ms) (a : Fin d) {z : ℂ}
    (hz : IsEigenvalue (ms a) z) :
    ∃ l : ℝ, z = (l : ℂ) ∧ (l = 0 ∨ l ≤ -(1 / ((g.domain a).2 - (g.domain a).1) ^ 2)) := by
  obtain ⟨ms', e, hm, -⟩ := h.pressure_matrices hN
  rw [hms] at e
  injection e with e
  subst e
  have H := h.axisVel_field a
  obtain ⟨m1, e1, hm1, hL1⟩ := H.pressure_matrices (fun _ => hN a)
  have hsame : m1 0 = ms a := by
    unfold laplacianMatrixWB at e1 hms
    rw [Except.bind_eq_ok] at e1 hms
    obtain ⟨p1, q1, r1⟩ := e1
    obtain ⟨p2, q2, r2⟩ := hms
    have s1 := (seqFin_eq_ok _ _).1 r1 0
    have s2 := (seqFin_eq_ok _ _).1 r2 a
    have t1 := (seqFin_eq_ok _ _).1 q1 0
    have t2 := (seqFin_eq_ok _ _).1 q2 a
    have hst : (axisGrid g a).step 0 = g.step a := rfl
    rw [hst] at t1 s1
    rw [show (axisGrid g a).shape 0 = g.shape a from rfl, t2] at t1
    injection t1 with t1
    have hty : (pbc (axisVel g v a)).types 0 = (pbc v).types a := rfl
    rw [hty, ← t1, s2] at s1
    injection s1 with s1
    exact s1.symm
  obtain ⟨l, hl, x, ⟨i0, p0, p1, hx0⟩, hx⟩ := (hm a).2.1.real_eigen hz
  refine ⟨l, hl, ?_⟩
  by_cases hl0 : l = 0
  · exact Or.inl hl0
  right
  rw [(hm a).1] at hx p1
  let X : Idx 1 → ℝ := fun i => x (i 0)
  have hXe : ∀ i : Idx 1, InR (axisGrid g a).shape i →
      ∑ b, ((pvar (axisGrid g a) (axisVel g v a) X).above b i + (pvar (axisGrid g a) (axisVel g v a) X).below b i - 2 * X i) /
        (axisGrid g a).step b ^ 2 = l * X i := by
    intro i hi
    rw [← hL1 X i hi]
    unfold kronSum
    rw [Fin.sum_univ_one]
    dsimp only
    rw [hsame]
    simp only [X, Function.update_self]
    exact hx (i 0) (hi 0).1 (hi 0).2
  have hsum : ∑ i ∈ box (axisGrid g a).shape, X i = 0 := by
    have := H.sum_laplacian X
    rw [Finset.sum_congr rfl (fun i hi => hXe i (mem_box.1 hi)), ← Finset.mul_sum] at this
    exact (mul_eq_zero.1 this).resolve_left hl0
  have hen := grad_energy (g := axisGrid g a) (v := axisVel g v a) X
  rw [Fin.sum_univ_one, Finset.sum_congr (s₁ := box (axisGrid g a).shape) (f := fun i => X i * ∑ b, _) (g := fun i => X i * (l * X i)) rfl
    (fun i hi => by rw [hXe i (mem_box.1 hi)])] at hen
  have hn := h.1 a
  have hL0 : 0 < (g.domain a).2 - (g.domain a).1 := sub_pos.2 (hlen a)
  have hnR : (0 : ℝ) < g.shape a := by exact_mod_cast hn
  have hst : g.step a = ((g.domain a).2 - (g.domain a).1) / g.shape a := rfl
  have hstp : 0 < g.step a := by rw [hst]; positivity
  have hP := poincare (g.shape a) (fun k => x (k : ℤ)) (by
    rw [sum_box_one] at hsum; exact hsum)
  have hE : ∑ k ∈ Finset.range (g.shape a - 1), (x ((k + 1 : ℕ) : ℤ) - x (k : ℤ)) ^ 2 ≤
      g.step a ^ 2 * ∑ i ∈ box (axisGrid g a).shape, grad (axisGrid g a) (axisVel g v a) X 0 i ^ 2 := by
    rw [sum_box_one, Finset.mul_sum]
    show _ ≤ ∑ k ∈ Finset.range (g.shape a), _
    refine le_trans (le_of_eq ?_) (Finset.sum_le_sum_of_subset_of_nonneg
      (Finset.range_subset_range.2 (show g.shape a - 1 ≤ g.shape a by omega))
      (fun _ _ _ => mul_nonneg (sq_nonneg _) (sq_nonneg _)))
    refine Finset.sum_congr rfl fun k hk => ?_
    rw [Finset.mem_range] at hk
    rw [← mul_pow]
    congr 1
    unfold grad
    rw [show (axisGrid g a).step 0 = g.step a from rfl, mul_div_cancel₀ _ hstp.ne', pvar_above]
    have : (if (axisVel g v a 0).bc.types 0 = (BCType.periodic, BCType.periodic) then X (rollIdx (axisGrid g a).shape 0 1 fun _ => (k : ℤ))
        else if ((k : ℤ) + 1 < ((axisGrid g a).shape 0 : ℤ)) then X (Function.update (fun _ => (k : ℤ)) 0 ((k : ℤ) + 1)) else X fun _ => (k : ℤ)) =
        x ((k + 1 : ℕ) : ℤ) := by
      have hkk : (k : ℤ) + 1 < ((axisGrid g a).shape 0 : ℤ) := by
        show (k : ℤ) + 1 < (g.shape a : ℤ); omega
      rw [if_pos hkk]
      simp only [X, rollIdx, Function.update_self]
      rw [Int.emod_eq_of_lt (by omega) hkk, ite_self]
      push_cast; rfl
    rw [this]
  have hS : ∑ i ∈ box (axisGrid g a).shape, X i * (l * X i) = l * ∑ k ∈ Finset.range (g.shape a), x (k : ℤ) ^ 2 := by
    rw [sum_box_one, Finset.mul_sum]
    exact Finset.sum_congr rfl fun k _ => by simp only [X]; ring
  rw [hS] at hen
  have hpos : 0 < ∑ k ∈ Finset.range (g.shape a), x (k : ℤ) ^ 2 := by
    obtain ⟨n0, hn0⟩ := Int.eq_ofNat_of_zero_le p0
    refine Finset.sum_pos' (fun _ _ => sq_nonneg _) ⟨n0, Finset.mem_range.2 (by omega), ?_⟩
    rw [show ((n0 : ℕ) : ℤ) = i0 from hn0.symm]
    exact lt_of_le_of_ne (sq_nonneg _) (Ne.symm (pow_ne_zero 2 hx0))
  set S := ∑ k ∈ Finset.range (g.shape a), x (k : ℤ) ^ 2
  rw [hen] at hE
  have h3 : S ≤ (g.shape a : ℝ) ^ 2 * (g.step a ^ 2 * -(l * S)) := hP.trans (mul_le_mul_of_nonneg_left hE (sq_nonneg _))
  have h4 : (g.shape a : ℝ) ^ 2 * g.step a ^ 2 = ((g.domain a).2 - (g.domain a).1) ^ 2 := by
    rw [hst]; field_simp
  have h5 : S ≤ (((g.domain a).2 - (g.domain a).1) ^ 2 * -l) * S := by rw [← h4]; linarith
  have h6 : 1 ≤ ((g.domain a).2 - (g.domain a).1) ^ 2 * -l := le_of_mul_le_mul_right (by linarith) hpos
  rw [le_neg, div_le_iff₀ (by positivity)]
  linarith

/-- A cutoff below `1 / length²` on every axis only discards the eigenvalue zero. -/
theorem cutoff_ok (h : VelocityField g v) (hN : ∀ a, 3 ≤ g.shape a) (hlen : ∀ a, (g.domain a).1 < (g.domain a).2)
    {ms : Fin d → Mat ℝ} (hms : laplacianMatrixWB g (fun _ => 1 / 2) (pbc v) = .ok ms) {cutoff : ℝ}
    (hc : ∀ a, cutoff * ((g.domain a).2 - (g.domain a).1) ^ 2 < 1) {z : ℂ} (hz : IsEigenvalueSum d (List.ofFn ms) z)
    (hzc : ‖z‖ ≤ cutoff) : z = 0 := by
  obtain ⟨ev, hev, rfl⟩ := hz
  obtain ⟨l, hl⟩ := Classical.axiom_of_choice (fun a => h.eigen_gap hN hlen hms a (z := ev a) (by
    have := hev a; rwa [opAt_ofFn] at this))
  have hnp : ∀ a, l a ≤ 0 := by
    intro a
    rcases (hl a).2 with e | e
    · exact e.le
    · refine e.trans (neg_nonpos.2 ?_)
      positivity
  have hsum : ∑ a, ev a = ((∑ a, l a : ℝ) : ℂ) := by
    rw [Complex.ofReal_sum]; exact Finset.sum_congr rfl fun a _ => (hl a).1
  rw [hsum] at hzc ⊢
  rw [Complex.norm_real, Real.norm_eq_abs, abs_of_nonpos (Finset.sum_nonpos fun a _ => hnp a)] at hzc
  by_contra hne
  obtain ⟨a, -, ha⟩ : ∃ a ∈ Finset.univ, l a ≠ 0 := by
    by_contra hall
    push Not at hall
    exact hne (by rw [Finset.sum_eq_zero hall]; simp)
  have h1 := ((hl a).2).resolve_left ha
  have h2 : ∑ b, l b ≤ l a := by
    rw [← Finset.add_sum_erase _ _ (Finset.mem_univ a)]
    linarith [Finset.sum_nonpos fun b (_ : b ∈ Finset.univ.erase a) => hnp b]
  have hL0 : 0 < (g.domain a).2 - (g.domain a).1 := sub_pos.2 (hlen a)
  have h3 : 1 / ((g.domain a).2 - (g.domain a).1) ^ 2 ≤ cutoff := by linarith
  rw [div_le_iff₀ (by positivity)] at h3
  linarith [hc a]

end VelocityField
end JaxCfd
