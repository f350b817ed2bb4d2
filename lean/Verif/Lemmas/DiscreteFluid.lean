import Verif.Lemmas.BoxPoincare
import Mathlib.Algebra.BigOperators.Field

/-!
# Discrete vector calculus on a periodic staggered box
-/

namespace JaxCfd
variable {d : ℕ} (s : Fin d → ℕ) (h : Fin d → ℝ)

/-- The gradient of a scalar at the cell centres: component `a` on the upper faces of axis `a`. -/
noncomputable def dGrad (q : Idx d → ℝ) (a : Fin d) (i : Idx d) : ℝ := (q (rollIdx s a 1 i) - q i) / h a

/-- The divergence of a staggered field, at the cell centres. -/
noncomputable def dDiv (x : Fin d → Idx d → ℝ) (i : Idx d) : ℝ := ∑ a, (x a i - x a (rollIdx s a (-1) i)) / h a

/-- The Laplacian. -/
noncomputable def dLap (q : Idx d → ℝ) (i : Idx d) : ℝ := ∑ a, (q (rollIdx s a 1 i) + q (rollIdx s a (-1) i) - 2 * q i) / h a ^ 2

/-- The average of neighbours along an axis. -/
noncomputable def mid (a : Fin d) (q : Idx d → ℝ) (i : Idx d) : ℝ := (q i + q (rollIdx s a 1 i)) / 2

/-- Centred transport of the staggered field `q` by the staggered field `w`, in flux form. -/
noncomputable def conv (w q : Fin d → Idx d → ℝ) (i : Fin d) (x : Idx d) : ℝ :=
  ∑ a, (mid s a (q i) x * mid s i (w a) x - mid s a (q i) (rollIdx s a (-1) x) * mid s i (w a) (rollIdx s a (-1) x)) / h a

/-- The norm of a staggered field. -/
noncomputable def n2 (x : Fin d → Idx d → ℝ) : ℝ := l2 (Finset.univ ×ˢ box s) fun p => x p.1 p.2

/-- The norm of the gradient of a staggered field. -/
noncomputable def gn (x : Fin d → Idx d → ℝ) : ℝ := l2 Finset.univ fun i => n2 s (dGrad s h (x i))

variable {s h}

theorem n2_sq (x : Fin d → Idx d → ℝ) : n2 s x ^ 2 = ∑ a, l2 (box s) (x a) ^ 2 := by
  unfold n2
  rw [l2_sq, Finset.sum_product]
  exact Finset.sum_congr rfl fun a _ => (l2_sq _ _).symm

theorem n2_sq' (x : Fin d → Idx d → ℝ) : n2 s x ^ 2 = ∑ a, ∑ i ∈ box s, x a i ^ 2 := by
  rw [n2_sq]
  exact Finset.sum_congr rfl fun a _ => l2_sq _ _

theorem n2_nonneg (x : Fin d → Idx d → ℝ) : 0 ≤ n2 s x := l2_nonneg _ _

theorem n2_eq (x : Fin d → Idx d → ℝ) : n2 s x = l2 Finset.univ fun a => l2 (box s) (x a) := by
  have : n2 s x ^ 2 = (l2 Finset.univ fun a => l2 (box s) (x a)) ^ 2 := by rw [n2_sq, l2_sq]
  exact (sq_eq_sq₀ (n2_nonneg _) (l2_nonneg _ _)).1 this

theorem n2_congr {x y : Fin d → Idx d → ℝ} (e : ∀ a i, InR s i → x a i = y a i) : n2 s x = n2 s y :=
  l2_congr fun p hp => e p.1 p.2 (mem_box.1 (Finset.mem_product.1 hp).2)

theorem n2_add_le (x y : Fin d → Idx d → ℝ) : n2 s (fun a i => x a i + y a i) ≤ n2 s x + n2 s y := l2_add_le _ _ _

theorem n2_sub_le (x y : Fin d → Idx d → ℝ) : n2 s (fun a i => x a i - y a i) ≤ n2 s x + n2 s y := l2_sub_le _ _ _

theorem n2_smul (c : ℝ) (x : Fin d → Idx d → ℝ) : n2 s (fun a i => c * x a i) = |c| * n2 s x := l2_smul _ _ _

theorem n2_inner_le (x y : Fin d → Idx d → ℝ) : |∑ a, ∑ i ∈ box s, x a i * y a i| ≤ n2 s x * n2 s y := by
  have := abs_sum_mul_le (Finset.univ ×ˢ box s) (fun p : Fin d × Idx d => x p.1 p.2) (fun p => y p.1 p.2)
  rwa [Finset.sum_product] at this

theorem n2_le_of_bound {x : Fin d → Idx d → ℝ} {ε : ℝ} (hε : 0 ≤ ε) (e : ∀ a i, InR s i → |x a i| ≤ ε) : n2 s x ≤ ε * (Real.sqrt d * Real.sqrt (box s).card) := by
  have := l2_le_of_bound (S := Finset.univ ×ˢ box s) (f := fun p : Fin d × Idx d => x p.1 p.2) hε fun p hp => e p.1 p.2 (mem_box.1 (Finset.mem_product.1 hp).2)
  rw [Finset.card_product, Finset.card_fin] at this
  push_cast at this
  rwa [Real.sqrt_mul (Nat.cast_nonneg d)] at this

/-- A bound on every component bounds the whole. -/
theorem n2_le_sqrt {x : Fin d → Idx d → ℝ} {E : ℝ} (hE : 0 ≤ E) (e : ∀ a, l2 (box s) (x a) ≤ E) : n2 s x ≤ Real.sqrt d * E := by
  rw [n2_eq]
  have := l2_le_of_bound (S := Finset.univ) (f := fun a : Fin d => l2 (box s) (x a)) hE fun a _ => by rw [abs_of_nonneg (l2_nonneg _ _)]; exact e a
  rw [Finset.card_fin] at this
  linarith

theorem sum_le_sqrt_mul (y : Fin d → ℝ) : ∑ a, y a ≤ Real.sqrt d * l2 Finset.univ y := by
  have := (abs_le.1 (abs_sum_mul_le Finset.univ (fun _ : Fin d => (1 : ℝ)) y)).2
  have e : l2 (Finset.univ : Finset (Fin d)) (fun _ => (1 : ℝ)) = Real.sqrt d := by
    unfold l2
    simp
  rw [e] at this
  simpa using this

theorem l2_sum_le {ι : Type*} (S : Finset ι) (f : Fin d → ι → ℝ) : l2 S (fun i => ∑ a, f a i) ≤ ∑ a, l2 S (f a) := by
  have : ∀ T : Finset (Fin d), l2 S (fun i => ∑ a ∈ T, f a i) ≤ ∑ a ∈ T, l2 S (f a) := fun T => by
    induction T using Finset.induction_on with
    | empty => simp [l2]
    | insert a T ha ih =>
      simp only [Finset.sum_insert ha]
      exact (l2_add_le _ _ _).trans (by linarith)
  exact this _

/-! ## Summation by parts -/

theorem box_by_parts (a : Fin d) (q x : Idx d → ℝ) : ∑ i ∈ box s, q i * (x i - x (rollIdx s a (-1) i)) = -∑ i ∈ box s, (q (rollIdx s a 1 i) - q i) * x i := by
  simp only [mul_sub, sub_mul, Finset.sum_sub_distrib]
  have e : ∑ i ∈ box s, q i * x (rollIdx s a (-1) i) = ∑ i ∈ box s, q (rollIdx s a 1 i) * x i := by
    rw [← sum_roll s a 1 fun i => q i * x (rollIdx s a (-1) i)]
    refine Finset.sum_congr rfl fun i hi => ?_
    rw [rollIdx_add, show (1 + -1 : ℤ) = 0 by norm_num, rollIdx_zero (mem_box.1 hi)]
  rw [e]
  ring

theorem grad_adjoint (x : Fin d → Idx d → ℝ) (q : Idx d → ℝ) : ∑ a, ∑ i ∈ box s, dGrad s h q a i * x a i = -∑ i ∈ box s, q i * dDiv s h x i := by
  unfold dDiv
  simp only [Finset.mul_sum]
  rw [Finset.sum_comm (s := box s), ← Finset.sum_neg_distrib]
  refine Finset.sum_congr rfl fun a _ => ?_
  rw [Finset.sum_congr rfl fun i _ => show q i * ((x a i - x a (rollIdx s a (-1) i)) / h a) = q i * (x a i - x a (rollIdx s a (-1) i)) / h a by ring, ← Finset.sum_div, box_by_parts,
    neg_div, neg_neg, Finset.sum_div]
  refine Finset.sum_congr rfl fun i _ => ?_
  unfold dGrad
  ring

theorem dDiv_sub (x y : Fin d → Idx d → ℝ) (i : Idx d) : dDiv s h (fun a i => x a i - y a i) i = dDiv s h x i - dDiv s h y i := by
  unfold dDiv
  rw [← Finset.sum_sub_distrib]
  exact Finset.sum_congr rfl fun a _ => by ring

theorem dDiv_sum (x : Fin d → Idx d → ℝ) : ∑ i ∈ box s, dDiv s h x i = 0 := by
  unfold dDiv
  rw [Finset.sum_comm]
  refine Finset.sum_eq_zero fun a _ => ?_
  rw [← Finset.sum_div, Finset.sum_sub_distrib, sum_roll, sub_self, zero_div]

theorem dDiv_congr {x y : Fin d → Idx d → ℝ} (e : ∀ a i, InR s i → x a i = y a i) {i : Idx d} (hi : InR s i) : dDiv s h x i = dDiv s h y i :=
  Finset.sum_congr rfl fun a _ => by rw [e a i hi, e a _ (rollIdx_inR hi a (-1))]

theorem dGrad_sub (q r : Idx d → ℝ) (a : Fin d) (i : Idx d) : dGrad s h (fun i => q i - r i) a i = dGrad s h q a i - dGrad s h r a i := by
  unfold dGrad
  ring

theorem dDiv_dGrad (q : Idx d → ℝ) {i : Idx d} (hi : InR s i) : dDiv s h (dGrad s h q) i = dLap s h q i := by
  unfold dDiv dLap dGrad
  refine Finset.sum_congr rfl fun a _ => ?_
  rw [rollIdx_add, show (-1 + 1 : ℤ) = 0 by norm_num, rollIdx_zero hi]
  ring

/-- Subtracting a gradient to remove the divergence does not increase the norm. -/
theorem projection_contracts {u p : Fin d → Idx d → ℝ} {q : Idx d → ℝ} (e : ∀ a i, InR s i → p a i = u a i - dGrad s h q a i) (hp : ∀ i, InR s i → dDiv s h p i = 0) :
    n2 s p ≤ n2 s u := by
  refine le_of_sq_le_sq ?_ (n2_nonneg _)
  have horth : ∑ a, ∑ i ∈ box s, dGrad s h q a i * p a i = 0 := by
    rw [grad_adjoint, Finset.sum_eq_zero fun i hi => by rw [hp i (mem_box.1 hi), mul_zero], neg_zero]
  have : n2 s u ^ 2 = n2 s p ^ 2 + n2 s (dGrad s h q) ^ 2 + 2 * ∑ a, ∑ i ∈ box s, dGrad s h q a i * p a i := by
    rw [n2_sq', n2_sq', n2_sq', Finset.mul_sum, ← Finset.sum_add_distrib, ← Finset.sum_add_distrib]
    refine Finset.sum_congr rfl fun a _ => ?_
    rw [Finset.mul_sum, ← Finset.sum_add_distrib, ← Finset.sum_add_distrib]
    refine Finset.sum_congr rfl fun i hi => ?_
    rw [e a i (mem_box.1 hi)]
    ring
  rw [this, horth]
  linarith [sq_nonneg (n2 s (dGrad s h q))]

/-- What the projection removes is bounded by the divergence. -/
theorem projection_near (hh : ∀ a, 0 < h a) {u p : Fin d → Idx d → ℝ} {q : Idx d → ℝ} (e : ∀ a i, InR s i → p a i = u a i - dGrad s h q a i) (hp : ∀ i, InR s i → dDiv s h p i = 0) :
    n2 s (dGrad s h q) ≤ l2 Finset.univ (fun a => h a * s a) * l2 (box s) (dDiv s h u) := by
  have hD : ∀ i, InR s i → dDiv s h (dGrad s h q) i = dDiv s h u i := fun i hi => by
    have := dDiv_sub (s := s) (h := h) u p i
    rw [hp i hi, sub_zero] at this
    rw [← this]
    exact dDiv_congr (fun a i hi => by rw [e a i hi]; ring) hi
  have h1 : n2 s (dGrad s h q) ^ 2 ≤ (l2 Finset.univ (fun a => h a * s a) * n2 s (dGrad s h q)) * l2 (box s) (dDiv s h u) := by
    have e1 : n2 s (dGrad s h q) ^ 2 = -∑ i ∈ box s, q i * dDiv s h u i := by
      have : ∑ i ∈ box s, q i * dDiv s h u i = ∑ i ∈ box s, q i * dDiv s h (dGrad s h q) i := Finset.sum_congr rfl fun i hi => by rw [hD i (mem_box.1 hi)]
      rw [n2_sq', this, ← grad_adjoint]
      exact Finset.sum_congr rfl fun a _ => Finset.sum_congr rfl fun i _ => by ring
    rw [e1]
    refine (neg_le_abs _).trans ((box_poincare s q (dDiv s h u) (dDiv_sum u)).trans (mul_le_mul_of_nonneg_right ?_ (l2_nonneg _ _)))
    have e2 : ∀ a, (s a : ℝ) * l2 (box s) (fun i => q (rollIdx s a 1 i) - q i) = (h a * s a) * l2 (box s) (dGrad s h q a) := fun a => by
      have : l2 (box s) (fun i => q (rollIdx s a 1 i) - q i) = h a * l2 (box s) (dGrad s h q a) := by
        rw [show h a * l2 (box s) (dGrad s h q a) = |h a| * l2 (box s) (dGrad s h q a) by rw [abs_of_pos (hh a)], ← l2_smul]
        refine l2_congr fun i _ => ?_
        unfold dGrad
        have := (hh a).ne'
        field_simp
      rw [this]
      ring
    rw [Finset.sum_congr rfl fun a _ => e2 a, n2_eq]
    exact (le_abs_self _).trans (abs_sum_mul_le _ _ _)
  rcases (n2_nonneg (s := s) (dGrad s h q)).eq_or_lt with h0 | h0
  · rw [← h0]
    exact mul_nonneg (l2_nonneg _ _) (l2_nonneg _ _)
  · rw [sq, mul_right_comm] at h1
    exact le_of_mul_le_mul_right h1 h0

end JaxCfd
