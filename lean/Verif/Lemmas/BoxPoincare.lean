import Verif.Lemmas.FD
import Mathlib.Analysis.SpecialFunctions.Pow.Real
import Mathlib.Algebra.Order.Chebyshev

/-!
# The discrete Poincaré inequality on a periodic box
-/

namespace JaxCfd

section l2
variable {ι : Type*}

/-- The Euclidean norm of `f` over a finite set of indices. -/
noncomputable def l2 (S : Finset ι) (f : ι → ℝ) : ℝ := Real.sqrt (∑ i ∈ S, f i ^ 2)

theorem l2_nonneg (S : Finset ι) (f : ι → ℝ) : 0 ≤ l2 S f := Real.sqrt_nonneg _

theorem l2_sq (S : Finset ι) (f : ι → ℝ) : l2 S f ^ 2 = ∑ i ∈ S, f i ^ 2 := Real.sq_sqrt (Finset.sum_nonneg fun _ _ => sq_nonneg _)

theorem l2_congr {S : Finset ι} {f g : ι → ℝ} (h : ∀ i ∈ S, f i = g i) : l2 S f = l2 S g := by
  unfold l2
  rw [Finset.sum_congr rfl fun i hi => by rw [h i hi]]

theorem abs_sum_mul_le (S : Finset ι) (f g : ι → ℝ) : |∑ i ∈ S, f i * g i| ≤ l2 S f * l2 S g := by
  refine abs_le_of_sq_le_sq ?_ (mul_nonneg (l2_nonneg _ _) (l2_nonneg _ _))
  rw [mul_pow, l2_sq, l2_sq]
  exact Finset.sum_mul_sq_le_sq_mul_sq S f g

theorem l2_add_le (S : Finset ι) (f g : ι → ℝ) : l2 S (fun i => f i + g i) ≤ l2 S f + l2 S g := by
  refine le_of_sq_le_sq ?_ (add_nonneg (l2_nonneg _ _) (l2_nonneg _ _))
  have h := (abs_le.1 (abs_sum_mul_le S f g)).2
  have e : l2 S (fun i => f i + g i) ^ 2 = l2 S f ^ 2 + 2 * ∑ i ∈ S, f i * g i + l2 S g ^ 2 := by
    rw [l2_sq, l2_sq, l2_sq, Finset.mul_sum, ← Finset.sum_add_distrib, ← Finset.sum_add_distrib]
    exact Finset.sum_congr rfl fun i _ => by ring
  rw [e]
  linarith [sq_nonneg (l2 S f)]

theorem l2_smul (S : Finset ι) (c : ℝ) (f : ι → ℝ) : l2 S (fun i => c * f i) = |c| * l2 S f := by
  unfold l2
  rw [← Real.sqrt_sq_eq_abs, ← Real.sqrt_mul (sq_nonneg c), Finset.mul_sum]
  congr 1
  exact Finset.sum_congr rfl fun i _ => by ring

theorem l2_neg (S : Finset ι) (f : ι → ℝ) : l2 S (fun i => -f i) = l2 S f := by
  unfold l2
  rw [Finset.sum_congr rfl fun i _ => by rw [neg_sq]]

theorem l2_sub_le (S : Finset ι) (f g : ι → ℝ) : l2 S (fun i => f i - g i) ≤ l2 S f + l2 S g := by
  have := l2_add_le S f (fun i => -g i)
  rw [l2_neg] at this
  refine le_trans (le_of_eq (l2_congr fun i _ => ?_)) this
  ring

theorem l2_mono {S : Finset ι} {f g : ι → ℝ} (h : ∀ i ∈ S, |f i| ≤ |g i|) : l2 S f ≤ l2 S g :=
  Real.sqrt_le_sqrt (Finset.sum_le_sum fun i hi => sq_le_sq.2 (h i hi))

theorem l2_le_of_bound {S : Finset ι} {f : ι → ℝ} {ε : ℝ} (hε : 0 ≤ ε) (h : ∀ i ∈ S, |f i| ≤ ε) : l2 S f ≤ ε * Real.sqrt S.card := by
  have : l2 S f ≤ l2 S (fun _ => ε) := l2_mono fun i hi => by rw [abs_of_nonneg hε]; exact h i hi
  refine this.trans (le_of_eq ?_)
  unfold l2
  rw [Finset.sum_const, nsmul_eq_mul, mul_comm, Real.sqrt_mul (sq_nonneg ε), Real.sqrt_sq hε]

end l2

variable {d : ℕ}

theorem l2_roll (s : Fin d → ℕ) (a : Fin d) (k : ℤ) (f : Idx d → ℝ) : l2 (box s) (fun i => f (rollIdx s a k i)) = l2 (box s) f := by
  unfold l2
  rw [sum_roll s a k fun i => f i ^ 2]

theorem l2_roll_sub (s : Fin d → ℕ) (a : Fin d) (q : Idx d → ℝ) (k : ℕ) :
    l2 (box s) (fun i => q (rollIdx s a k i) - q i) ≤ k * l2 (box s) (fun i => q (rollIdx s a 1 i) - q i) := by
  induction k with
  | zero =>
    simp only [Nat.cast_zero, zero_mul]
    rw [l2_congr (g := fun _ => 0) fun i hi => by rw [rollIdx_zero (mem_box.1 hi), sub_self]]
    simp [l2]
  | succ k ih =>
    have h1 := l2_add_le (box s) (fun i => q (rollIdx s a k (rollIdx s a 1 i)) - q (rollIdx s a 1 i)) (fun i => q (rollIdx s a 1 i) - q i)
    rw [l2_roll s a 1 (fun i => q (rollIdx s a k i) - q i)] at h1
    have e : l2 (box s) (fun i => q (rollIdx s a ((k + 1 : ℕ) : ℤ) i) - q i) =
        l2 (box s) (fun i => (q (rollIdx s a k (rollIdx s a 1 i)) - q (rollIdx s a 1 i)) + (q (rollIdx s a 1 i) - q i)) := l2_congr fun i _ => by
      rw [rollIdx_add, show (1 + (k : ℤ)) = ((k + 1 : ℕ) : ℤ) by push_cast; ring]
      ring
    rw [e]
    push_cast
    linarith

/-- Rolling along the axes of a list, one after the other. -/
def rollAll (s : Fin d → ℕ) (t : Idx d) (l : List (Fin d)) (i : Idx d) : Idx d := l.foldl (fun i a => rollIdx s a (t a) i) i

theorem l2_rollAll_sub (s : Fin d → ℕ) (q : Idx d → ℝ) (t : Idx d) (ht : InR s t) (l : List (Fin d)) :
    l2 (box s) (fun i => q (rollAll s t l i) - q i) ≤ (l.map fun a => (s a : ℝ) * l2 (box s) (fun i => q (rollIdx s a 1 i) - q i)).sum := by
  induction l with
  | nil => simp [rollAll, l2]
  | cons a l ih =>
    rw [List.map_cons, List.sum_cons]
    have h1 := l2_add_le (box s) (fun i => q (rollAll s t l (rollIdx s a (t a) i)) - q (rollIdx s a (t a) i)) (fun i => q (rollIdx s a (t a) i) - q i)
    rw [l2_roll s a (t a) (fun i => q (rollAll s t l i) - q i)] at h1
    have e : l2 (box s) (fun i => q (rollAll s t (a :: l) i) - q i) =
        l2 (box s) (fun i => (q (rollAll s t l (rollIdx s a (t a) i)) - q (rollIdx s a (t a) i)) + (q (rollIdx s a (t a) i) - q i)) := l2_congr fun i _ => by
      rw [show rollAll s t (a :: l) i = rollAll s t l (rollIdx s a (t a) i) from rfl]
      ring
    rw [e]
    obtain ⟨k, hk⟩ := Int.eq_ofNat_of_zero_le (ht a).1
    have h2 := l2_roll_sub s a q k
    have h3 : (k : ℝ) ≤ s a := by
      have := (ht a).2
      rw [hk] at this
      exact_mod_cast this.le
    have h4 := mul_le_mul_of_nonneg_right h3 (l2_nonneg (box s) fun i => q (rollIdx s a 1 i) - q i)
    rw [hk] at h1 ⊢
    linarith

theorem rollAll_apply (s : Fin d → ℕ) (t : Idx d) (l : List (Fin d)) (hl : l.Nodup) (i : Idx d) (b : Fin d) :
    rollAll s t l i b = if b ∈ l then (i b + t b) % s b else i b := by
  induction l generalizing i with
  | nil => simp [rollAll]
  | cons a l ih =>
    rw [show rollAll s t (a :: l) i = rollAll s t l (rollIdx s a (t a) i) from rfl, ih (List.nodup_cons.1 hl).2]
    have ha := (List.nodup_cons.1 hl).1
    rcases eq_or_ne b a with rfl | hb
    · rw [if_neg ha, if_pos (by simp)]
      simp [rollIdx]
    · have : (b ∈ a :: l) ↔ b ∈ l := by simp [hb]
      simp only [this, rollIdx, Function.update_of_ne hb]

/-- Every cell is reached by exactly one translation. -/
theorem sum_rollAll (s : Fin d → ℕ) (q : Idx d → ℝ) {i : Idx d} (hi : InR s i) : ∑ t ∈ box s, q (rollAll s t (List.finRange d) i) = ∑ j ∈ box s, q j := by
  have e : ∀ t : Idx d, rollAll s t (List.finRange d) i = fun b => (i b + t b) % (s b : ℤ) := fun t => by
    funext b
    rw [rollAll_apply s t _ (List.nodup_finRange d), if_pos (List.mem_finRange b)]
  have hpos : ∀ b, (0 : ℤ) < s b := fun b => by have := hi b; omega
  refine Finset.sum_nbij' (fun t => rollAll s t (List.finRange d) i) (fun j b => (j b - i b) % (s b : ℤ)) ?_ ?_ ?_ ?_ ?_
  · intro t _
    rw [e, mem_box]
    exact fun b => ⟨Int.emod_nonneg _ (hpos b).ne', Int.emod_lt_of_pos _ (hpos b)⟩
  · intro j _
    rw [mem_box]
    exact fun b => ⟨Int.emod_nonneg _ (hpos b).ne', Int.emod_lt_of_pos _ (hpos b)⟩
  · intro t ht
    rw [e]
    funext b
    have := mem_box.1 ht b
    dsimp only
    rw [Int.emod_sub_emod, add_sub_cancel_left, Int.emod_eq_of_lt this.1 this.2]
  · intro j hj
    rw [e]
    funext b
    have := mem_box.1 hj b
    rw [Int.add_emod_emod, add_sub_cancel, Int.emod_eq_of_lt this.1 this.2]
  · intro t _
    rfl

/-- A function with sum 0 tested against `q` sees only the differences of `q` between neighbours. -/
theorem box_poincare (s : Fin d → ℕ) (q δ : Idx d → ℝ) (hδ : ∑ i ∈ box s, δ i = 0) :
    |∑ i ∈ box s, q i * δ i| ≤ (∑ a, (s a : ℝ) * l2 (box s) (fun i => q (rollIdx s a 1 i) - q i)) * l2 (box s) δ := by
  rcases (box s).eq_empty_or_nonempty with h0 | hne
  · rw [h0]
    simp [l2]
  have hN : (0 : ℝ) < (box s).card := by exact_mod_cast hne.card_pos
  set B := ∑ a, (s a : ℝ) * l2 (box s) (fun i => q (rollIdx s a 1 i) - q i) with hB
  have hsum : ∑ t ∈ box s, ∑ i ∈ box s, q (rollAll s t (List.finRange d) i) * δ i = 0 := by
    rw [Finset.sum_comm, Finset.sum_congr rfl fun i hi => by rw [← Finset.sum_mul, sum_rollAll s q (mem_box.1 hi)], ← Finset.mul_sum, hδ, mul_zero]
  have key : ((box s).card : ℝ) * ∑ i ∈ box s, q i * δ i = -∑ t ∈ box s, ∑ i ∈ box s, (q (rollAll s t (List.finRange d) i) - q i) * δ i := by
    simp only [sub_mul, Finset.sum_sub_distrib]
    rw [hsum, Finset.sum_const, nsmul_eq_mul]
    ring
  have hb : |((box s).card : ℝ) * ∑ i ∈ box s, q i * δ i| ≤ (box s).card * (B * l2 (box s) δ) := by
    rw [key, abs_neg]
    refine (Finset.abs_sum_le_sum_abs _ _).trans ?_
    rw [← nsmul_eq_mul]
    refine Finset.sum_le_card_nsmul _ _ _ fun t ht => (abs_sum_mul_le _ _ _).trans (mul_le_mul_of_nonneg_right ?_ (l2_nonneg _ _))
    have := l2_rollAll_sub s q t (mem_box.1 ht) (List.finRange d)
    rwa [← List.ofFn_eq_map, List.sum_ofFn] at this
  rw [abs_mul, abs_of_pos hN] at hb
  exact le_of_mul_le_mul_left hb hN

end JaxCfd
