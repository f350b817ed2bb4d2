import Verif.Lemmas.DiscreteFluid

/-!
# Discrete convection and diffusion in the energy norm
-/

namespace JaxCfd
variable {d : ℕ} {s : Fin d → ℕ} {h : Fin d → ℝ}

theorem roll_back {i : Idx d} (hi : InR s i) (a : Fin d) : rollIdx s a 1 (rollIdx s a (-1) i) = i := by
  rw [rollIdx_add, show (-1 + 1 : ℤ) = 0 by norm_num, rollIdx_zero hi]

theorem roll_forth {i : Idx d} (hi : InR s i) (a : Fin d) : rollIdx s a (-1) (rollIdx s a 1 i) = i := by
  rw [rollIdx_add, show (1 + -1 : ℤ) = 0 by norm_num, rollIdx_zero hi]

/-- The divergence of the averaged transporting velocity is the averaged divergence. -/
theorem mid_dDiv (w : Fin d → Idx d → ℝ) (i : Fin d) (x : Idx d) : ∑ a, (mid s i (w a) x - mid s i (w a) (rollIdx s a (-1) x)) / h a = mid s i (dDiv s h w) x := by
  unfold mid dDiv
  rw [← Finset.sum_add_distrib, Finset.sum_div]
  refine Finset.sum_congr rfl fun a _ => ?_
  rw [rollIdx_comm s i a]
  ring

/-- Flux form and advective form. -/
theorem conv_expand (w q : Fin d → Idx d → ℝ) (i : Fin d) {x : Idx d} (hx : InR s x) :
    conv s h w q i x = ∑ a, (mid s i (w a) x * dGrad s h (q i) a x + mid s i (w a) (rollIdx s a (-1) x) * dGrad s h (q i) a (rollIdx s a (-1) x)) / 2 + q i x * mid s i (dDiv s h w) x := by
  rw [← mid_dDiv, Finset.mul_sum, ← Finset.sum_add_distrib]
  unfold conv
  refine Finset.sum_congr rfl fun a _ => ?_
  unfold dGrad
  rw [show mid s a (q i) (rollIdx s a (-1) x) = (q i (rollIdx s a (-1) x) + q i x) / 2 by unfold mid; rw [roll_back hx], show mid s a (q i) x = (q i x + q i (rollIdx s a 1 x)) / 2 from rfl, roll_back hx]
  ring

/-- Transport by a divergence-free field does no work. -/
theorem conv_skew (w q : Fin d → Idx d → ℝ) (hw : ∀ i, InR s i → dDiv s h w i = 0) : ∑ i, ∑ x ∈ box s, q i x * conv s h w q i x = 0 := by
  refine Finset.sum_eq_zero fun i _ => ?_
  unfold conv
  simp only [Finset.mul_sum]
  rw [Finset.sum_comm]
  have e : ∀ a, ∑ x ∈ box s, q i x * ((mid s a (q i) x * mid s i (w a) x - mid s a (q i) (rollIdx s a (-1) x) * mid s i (w a) (rollIdx s a (-1) x)) / h a) =
      1 / 2 * ∑ x ∈ box s, q i x ^ 2 * ((mid s i (w a) x - mid s i (w a) (rollIdx s a (-1) x)) / h a) := fun a => by
    have h1 := box_by_parts (s := s) a (q i) (fun x => mid s a (q i) x * mid s i (w a) x)
    have h2 := box_by_parts (s := s) a (fun x => q i x ^ 2) (fun x => mid s i (w a) x)
    have h3 : ∑ x ∈ box s, (q i (rollIdx s a 1 x) - q i x) * (mid s a (q i) x * mid s i (w a) x) = 1 / 2 * ∑ x ∈ box s, (q i (rollIdx s a 1 x) ^ 2 - q i x ^ 2) * mid s i (w a) x := by
      rw [Finset.mul_sum]
      refine Finset.sum_congr rfl fun x _ => ?_
      rw [show mid s a (q i) x = (q i x + q i (rollIdx s a 1 x)) / 2 from rfl]
      ring
    have h4 : ∑ x ∈ box s, q i x * (mid s a (q i) x * mid s i (w a) x - mid s a (q i) (rollIdx s a (-1) x) * mid s i (w a) (rollIdx s a (-1) x)) =
        1 / 2 * ∑ x ∈ box s, q i x ^ 2 * (mid s i (w a) x - mid s i (w a) (rollIdx s a (-1) x)) := by rw [h1, h3, h2]; ring
    simp only [← mul_div_assoc]
    rw [← Finset.sum_div, ← Finset.sum_div, h4]
    ring
  rw [Finset.sum_congr rfl fun a _ => e a, ← Finset.mul_sum, Finset.sum_comm]
  rw [Finset.sum_eq_zero fun x hx => ?_, mul_zero]
  rw [← Finset.mul_sum, mid_dDiv]
  unfold mid
  rw [hw x (mem_box.1 hx), hw _ (rollIdx_inR (mem_box.1 hx) i 1)]
  ring

theorem l2_mid_le (a : Fin d) (q : Idx d → ℝ) : l2 (box s) (mid s a q) ≤ l2 (box s) q := by
  have e : l2 (box s) (mid s a q) = 1 / 2 * l2 (box s) (fun i => q i + q (rollIdx s a 1 i)) := by
    have := l2_smul (box s) (1 / 2) (fun i => q i + q (rollIdx s a 1 i))
    rw [abs_of_pos (by norm_num : (0 : ℝ) < 1 / 2)] at this
    rw [← this]
    refine l2_congr fun i _ => ?_
    unfold mid
    ring
  rw [e]
  have h1 := l2_add_le (box s) q (fun i => q (rollIdx s a 1 i))
  rw [l2_roll] at h1
  linarith

theorem abs_mid_le {q : Idx d → ℝ} {U : ℝ} (hq : ∀ i, InR s i → |q i| ≤ U) (a : Fin d) {i : Idx d} (hi : InR s i) : |mid s a q i| ≤ U := by
  have h1 := abs_le.1 (hq i hi)
  have h2 := abs_le.1 (hq _ (rollIdx_inR hi a 1))
  unfold mid
  rw [abs_le]
  constructor <;> linarith [h1.1, h1.2, h2.1, h2.2]

/-- The average of a product over a point and its lower neighbour. -/
theorem l2_pair_le {f g : Idx d → ℝ} {B : ℝ} (hB : 0 ≤ B) (hf : ∀ i, InR s i → |f i| ≤ B) (a : Fin d) :
    l2 (box s) (fun x => (f x * g x + f (rollIdx s a (-1) x) * g (rollIdx s a (-1) x)) / 2) ≤ B * l2 (box s) g := by
  have hm : l2 (box s) (fun x => f x * g x) ≤ B * l2 (box s) g := by
    have := l2_smul (box s) B g
    rw [abs_of_nonneg hB] at this
    rw [← this]
    refine l2_mono fun i hi => ?_
    rw [abs_mul, abs_mul, abs_of_nonneg hB]
    exact mul_le_mul_of_nonneg_right (hf i (mem_box.1 hi)) (abs_nonneg _)
  have h1 := l2_add_le (box s) (fun x => f x * g x) (fun x => f (rollIdx s a (-1) x) * g (rollIdx s a (-1) x))
  rw [l2_roll s a (-1) fun x => f x * g x] at h1
  have h2 := l2_smul (box s) (1 / 2) (fun x => f x * g x + f (rollIdx s a (-1) x) * g (rollIdx s a (-1) x))
  rw [abs_of_pos (by norm_num : (0 : ℝ) < 1 / 2)] at h2
  have e : l2 (box s) (fun x => (f x * g x + f (rollIdx s a (-1) x) * g (rollIdx s a (-1) x)) / 2) =
      l2 (box s) (fun x => 1 / 2 * (f x * g x + f (rollIdx s a (-1) x) * g (rollIdx s a (-1) x))) := l2_congr fun i _ => by ring
  rw [e, h2]
  linarith

/-- Transport by a bounded divergence-free field. -/
theorem conv_bounded {w q : Fin d → Idx d → ℝ} {U : ℝ} (hU : 0 ≤ U) (hwU : ∀ a i, InR s i → |w a i| ≤ U) (hw : ∀ i, InR s i → dDiv s h w i = 0) :
    n2 s (conv s h w q) ≤ U * Real.sqrt d * gn s h q := by
  have key : ∀ i, l2 (box s) (conv s h w q i) ≤ U * Real.sqrt d * n2 s (dGrad s h (q i)) := fun i => by
    have e : l2 (box s) (conv s h w q i) =
        l2 (box s) (fun x => ∑ a, (mid s i (w a) x * dGrad s h (q i) a x + mid s i (w a) (rollIdx s a (-1) x) * dGrad s h (q i) a (rollIdx s a (-1) x)) / 2) := l2_congr fun x hx => by
      rw [conv_expand w q i (mem_box.1 hx)]
      unfold mid
      rw [hw x (mem_box.1 hx), hw _ (rollIdx_inR (mem_box.1 hx) i 1)]
      ring
    rw [e]
    refine (l2_sum_le _ _).trans ((Finset.sum_le_sum fun a _ => l2_pair_le hU (fun x hx => abs_mid_le (hwU a) i hx) a).trans ?_)
    rw [← Finset.mul_sum, mul_assoc, n2_eq]
    exact mul_le_mul_of_nonneg_left (sum_le_sqrt_mul _) hU
  rw [n2_eq]
  unfold gn
  rw [← abs_of_nonneg (mul_nonneg hU (Real.sqrt_nonneg d)), ← l2_smul]
  refine l2_mono fun i _ => ?_
  rw [abs_of_nonneg (l2_nonneg _ _)]
  exact (key i).trans (le_abs_self _)

/-- Transport of a bounded field with bounded differences. -/
theorem conv_of_smooth {z v : Fin d → Idx d → ℝ} {U G : ℝ} (hU : 0 ≤ U) (hG : 0 ≤ G) (hvU : ∀ a i, InR s i → |v a i| ≤ U) (hvG : ∀ i a x, InR s x → |dGrad s h (v i) a x| ≤ G) :
    n2 s (conv s h z v) ≤ d * G * n2 s z + Real.sqrt d * (U * l2 (box s) (dDiv s h z)) := by
  have key : ∀ i, l2 (box s) (conv s h z v i) ≤ G * (Real.sqrt d * n2 s z) + U * l2 (box s) (dDiv s h z) := fun i => by
    have e : l2 (box s) (conv s h z v i) =
        l2 (box s) (fun x => (∑ a, (dGrad s h (v i) a x * mid s i (z a) x + dGrad s h (v i) a (rollIdx s a (-1) x) * mid s i (z a) (rollIdx s a (-1) x)) / 2) + v i x * mid s i (dDiv s h z) x) :=
      l2_congr fun x hx => by
        rw [conv_expand z v i (mem_box.1 hx)]
        congr 1
        exact Finset.sum_congr rfl fun a _ => by ring
    rw [e]
    refine (l2_add_le _ _ _).trans (add_le_add ?_ ?_)
    · refine (l2_sum_le _ _).trans ((Finset.sum_le_sum fun a _ => (l2_pair_le hG (fun x hx => hvG i a x hx) a).trans (mul_le_mul_of_nonneg_left (l2_mid_le i (z a)) hG)).trans ?_)
      rw [← Finset.mul_sum, n2_eq]
      exact mul_le_mul_of_nonneg_left (sum_le_sqrt_mul _) hG
    · have h1 : l2 (box s) (fun x => v i x * mid s i (dDiv s h z) x) ≤ l2 (box s) (fun x => U * mid s i (dDiv s h z) x) := l2_mono fun x hx => by
        rw [abs_mul, abs_mul, abs_of_nonneg hU]
        exact mul_le_mul_of_nonneg_right (hvU i x (mem_box.1 hx)) (abs_nonneg _)
      rw [l2_smul, abs_of_nonneg hU] at h1
      exact h1.trans (mul_le_mul_of_nonneg_left (l2_mid_le i _) hU)
  refine (n2_le_sqrt (by have := n2_nonneg (s := s) z; have := l2_nonneg (box s) (dDiv s h z); positivity) key).trans (le_of_eq ?_)
  have := Real.mul_self_sqrt (Nat.cast_nonneg (α := ℝ) d)
  linear_combination G * n2 s z * this

theorem conv_sub (w v : Fin d → Idx d → ℝ) (i : Fin d) (x : Idx d) :
    conv s h w w i x - conv s h v v i x = conv s h w (fun a x => w a x - v a x) i x + conv s h (fun a x => w a x - v a x) v i x := by
  unfold conv
  rw [← Finset.sum_sub_distrib, ← Finset.sum_add_distrib]
  refine Finset.sum_congr rfl fun a _ => ?_
  unfold mid
  ring

theorem conv_sub_right (w q r : Fin d → Idx d → ℝ) (i : Fin d) (x : Idx d) : conv s h w (fun a x => q a x - r a x) i x = conv s h w q i x - conv s h w r i x := by
  unfold conv
  rw [← Finset.sum_sub_distrib]
  refine Finset.sum_congr rfl fun a _ => ?_
  unfold mid
  ring

theorem conv_congr {w w' q q' : Fin d → Idx d → ℝ} (ew : ∀ a x, InR s x → w a x = w' a x) (eq : ∀ a x, InR s x → q a x = q' a x) (i : Fin d) {x : Idx d} (hx : InR s x) :
    conv s h w q i x = conv s h w' q' i x := by
  unfold conv
  refine Finset.sum_congr rfl fun a _ => ?_
  unfold mid
  have hb := rollIdx_inR hx a (-1)
  rw [ew a x hx, ew a _ (rollIdx_inR hx i 1), ew a _ hb, ew a _ (rollIdx_inR hb i 1), eq i x hx, eq i _ (rollIdx_inR hx a 1), eq i _ hb, eq i _ (rollIdx_inR hb a 1)]

/-! ## Diffusion -/

theorem dLap_sub (q r : Idx d → ℝ) (x : Idx d) : dLap s h (fun x => q x - r x) x = dLap s h q x - dLap s h r x := by
  unfold dLap
  rw [← Finset.sum_sub_distrib]
  exact Finset.sum_congr rfl fun a _ => by ring

theorem dLap_congr {q r : Idx d → ℝ} (e : ∀ x, InR s x → q x = r x) {x : Idx d} (hx : InR s x) : dLap s h q x = dLap s h r x := by
  unfold dLap
  exact Finset.sum_congr rfl fun a _ => by rw [e x hx, e _ (rollIdx_inR hx a 1), e _ (rollIdx_inR hx a (-1))]

theorem gn_sq (q : Fin d → Idx d → ℝ) : gn s h q ^ 2 = ∑ i, n2 s (dGrad s h (q i)) ^ 2 := l2_sq _ _

/-- Diffusion dissipates. -/
theorem diffusion_energy (q : Fin d → Idx d → ℝ) : ∑ i, ∑ x ∈ box s, q i x * dLap s h (q i) x = -gn s h q ^ 2 := by
  rw [gn_sq, ← Finset.sum_neg_distrib]
  refine Finset.sum_congr rfl fun i _ => ?_
  have h1 := grad_adjoint (s := s) (h := h) (dGrad s h (q i)) (q i)
  rw [Finset.sum_congr rfl fun x hx => by rw [← dDiv_dGrad (q i) (mem_box.1 hx)], n2_sq', eq_neg_iff_add_eq_zero, add_comm, ← eq_neg_iff_add_eq_zero, ← h1]
  exact Finset.sum_congr rfl fun a _ => Finset.sum_congr rfl fun x _ => by ring

/-- The Laplacian is bounded by the gradient on the scale of the grid. -/
theorem l2_dLap_sq_le (q : Idx d → ℝ) : l2 (box s) (dLap s h q) ^ 2 ≤ 4 * (∑ a, 1 / h a ^ 2) * n2 s (dGrad s h q) ^ 2 := by
  have h1 : l2 (box s) (dLap s h q) ≤ ∑ a, 2 / |h a| * l2 (box s) (dGrad s h q a) := by
    have e : l2 (box s) (dLap s h q) = l2 (box s) (fun x => ∑ a, (dGrad s h q a x - dGrad s h q a (rollIdx s a (-1) x)) / h a) := l2_congr fun x hx => (dDiv_dGrad q (mem_box.1 hx)).symm
    rw [e]
    refine (l2_sum_le _ _).trans (Finset.sum_le_sum fun a _ => ?_)
    have e2 : l2 (box s) (fun x => (dGrad s h q a x - dGrad s h q a (rollIdx s a (-1) x)) / h a) = |1 / h a| * l2 (box s) (fun x => dGrad s h q a x - dGrad s h q a (rollIdx s a (-1) x)) := by
      rw [← l2_smul]
      exact l2_congr fun x _ => by ring
    have h2 := l2_sub_le (box s) (dGrad s h q a) (fun x => dGrad s h q a (rollIdx s a (-1) x))
    rw [l2_roll] at h2
    rw [e2, abs_div, abs_one]
    have h3 := mul_le_mul_of_nonneg_left h2 (show 0 ≤ 1 / |h a| by positivity)
    refine h3.trans (le_of_eq ?_)
    ring
  have h2 := h1.trans ((le_abs_self _).trans (abs_sum_mul_le Finset.univ _ _))
  rw [← n2_eq] at h2
  have h3 := pow_le_pow_left₀ (l2_nonneg _ _) h2 2
  refine h3.trans (le_of_eq ?_)
  rw [mul_pow, l2_sq, Finset.mul_sum]
  congr 1
  refine Finset.sum_congr rfl fun a _ => ?_
  rw [div_pow, sq_abs]
  ring

theorem dLap_n2_le (q : Fin d → Idx d → ℝ) : n2 s (fun i => dLap s h (q i)) ^ 2 ≤ 4 * (∑ a, 1 / h a ^ 2) * gn s h q ^ 2 := by
  rw [n2_sq, gn_sq, Finset.mul_sum]
  exact Finset.sum_le_sum fun i _ => l2_dLap_sq_le (q i)

/-- The Laplacian commutes with the gradient. -/
theorem dLap_dGrad (q : Idx d → ℝ) (i : Fin d) (x : Idx d) : dLap s h (dGrad s h q i) x = dGrad s h (dLap s h q) i x := by
  unfold dLap dGrad
  rw [← Finset.sum_sub_distrib, Finset.sum_div]
  refine Finset.sum_congr rfl fun a _ => ?_
  rw [rollIdx_comm s i a 1 1, rollIdx_comm s i a 1 (-1)]
  ring

/-- The second differences of a potential are controlled by its Laplacian. -/
theorem gn_dGrad (q : Idx d → ℝ) : gn s h (dGrad s h q) = l2 (box s) (dLap s h q) := by
  refine (sq_eq_sq₀ (l2_nonneg _ _) (l2_nonneg _ _)).1 ?_
  rw [show (l2 Finset.univ fun i => n2 s (dGrad s h (dGrad s h q i))) = gn s h (dGrad s h q) from rfl, gn_sq]
  have h1 : ∀ i, n2 s (dGrad s h (dGrad s h q i)) ^ 2 = -∑ x ∈ box s, dGrad s h q i x * dLap s h (dGrad s h q i) x := fun i => by
    have := grad_adjoint (s := s) (h := h) (dGrad s h (dGrad s h q i)) (dGrad s h q i)
    rw [Finset.sum_congr rfl fun x hx => by rw [← dDiv_dGrad (dGrad s h q i) (mem_box.1 hx)], n2_sq', ← this]
    exact Finset.sum_congr rfl fun a _ => Finset.sum_congr rfl fun x _ => by ring
  rw [Finset.sum_congr rfl fun i _ => h1 i, Finset.sum_neg_distrib]
  have h3 := grad_adjoint (s := s) (h := h) (dGrad s h q) (dLap s h q)
  have h4 : ∑ i, ∑ x ∈ box s, dGrad s h q i x * dLap s h (dGrad s h q i) x = ∑ i, ∑ x ∈ box s, dGrad s h (dLap s h q) i x * dGrad s h q i x :=
    Finset.sum_congr rfl fun i _ => Finset.sum_congr rfl fun x _ => by rw [dLap_dGrad, mul_comm]
  rw [h4, h3, neg_neg, l2_sq]
  exact Finset.sum_congr rfl fun x hx => by rw [dDiv_dGrad q (mem_box.1 hx)]; ring

end JaxCfd
