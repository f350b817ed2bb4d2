import Verif.Lemmas.Order

/-! Finite sums in the order calculus. -/

namespace JaxCfd
variable {V : Type} [NormedAddCommGroup V] [NormedSpace ℝ V]

theorem Ord.zero (k : ℕ) : Ord k fun _ _ => (0 : V) := ⟨0, 1, le_rfl, one_pos, le_rfl, fun h hh _ t _ => by simp⟩

theorem Ord.sum {ι : Type} {k : ℕ} {r : ι → ℝ → ℝ → V} (s : Finset ι) (hr : ∀ j ∈ s, Ord k (r j)) : Ord k fun h t => ∑ j ∈ s, r j h t := by
  classical
  induction s using Finset.induction_on with
  | empty => simpa using Ord.zero k
  | insert j s hj ih =>
    refine ((hr j (Finset.mem_insert_self _ _)).add (ih fun i hi => hr i (Finset.mem_insert_of_mem hi))).congr fun h t _ _ => ?_
    rw [Finset.sum_insert hj]

/-- A common constant and threshold for finitely many quantities of the same order. -/
theorem Ord.uniform {k n : ℕ} {r : ℕ → ℝ → ℝ → V} (hr : ∀ j < n, Ord k (r j)) :
    ∃ C δ : ℝ, 0 ≤ C ∧ 0 < δ ∧ δ ≤ 1 ∧ ∀ j < n, ∀ h, 0 ≤ h → h ≤ δ → ∀ t, 0 ≤ t → ‖r j h t‖ ≤ C * h ^ k := by
  induction n with
  | zero => exact ⟨0, 1, le_rfl, one_pos, le_rfl, fun j hj => absurd hj (Nat.not_lt_zero _)⟩
  | succ n ih =>
    obtain ⟨C, δ, h1, h2, h3, h4⟩ := ih fun j hj => hr j (Nat.lt_succ_of_lt hj)
    obtain ⟨C', δ', h1', h2', h3', h4'⟩ := hr n (Nat.lt_succ_self _)
    refine ⟨max C C', min δ δ', le_max_of_le_left h1, lt_min h2 h2', (min_le_left _ _).trans h3, fun j hj h hh hd t ht => ?_⟩
    rcases Nat.lt_succ_iff_lt_or_eq.1 hj with hj | rfl
    · exact (h4 j hj h hh (hd.trans (min_le_left _ _)) t ht).trans (mul_le_mul_of_nonneg_right (le_max_left _ _) (by positivity))
    · exact (h4' h hh (hd.trans (min_le_right _ _)) t ht).trans (mul_le_mul_of_nonneg_right (le_max_right _ _) (by positivity))

theorem weights_first {ι : Type} (s : Finset ι) (w : ι → ℝ) (x : ι → V) (z : V) :
    ∑ j ∈ s, w j • x j = (∑ j ∈ s, w j) • z + ∑ j ∈ s, w j • (x j - z) := by
  simp only [smul_sub, Finset.sum_sub_distrib, Finset.sum_smul]
  abel

theorem weights_second {ι : Type} (s : Finset ι) (w c : ι → ℝ) (x : ι → V) (z v : V) (h : ℝ) :
    ∑ j ∈ s, w j • x j = (∑ j ∈ s, w j) • z + (h * ∑ j ∈ s, w j * c j) • v + ∑ j ∈ s, w j • (x j - (z + (c j * h) • v)) := by
  simp only [smul_sub, smul_add, Finset.sum_sub_distrib, Finset.sum_add_distrib, Finset.sum_smul, Finset.mul_sum, smul_smul]
  rw [show ∑ j ∈ s, (h * (w j * c j)) • v = ∑ j ∈ s, (w j * (c j * h)) • v from Finset.sum_congr rfl fun j _ => by congr 1; ring]
  abel

/-- A bounded linear operator applied to a smooth path. -/
theorem SmoothPath.comp_linear {y : ℝ → V} {n : ℕ} {M : ℝ} (hy : SmoothPath n M y) (G : V →L[ℝ] V) : SmoothPath n (‖G‖ * M) fun t => G (y t) := by
  refine ⟨G.contDiff.comp hy.1, fun t ht => ?_⟩
  have : iteratedDeriv n (fun s => G (y s)) t = G (iteratedDeriv n y t) := by
    rw [iteratedDeriv_eq_iteratedFDeriv, iteratedDeriv_eq_iteratedFDeriv]
    have := G.iteratedFDeriv_comp_left (hy.1.contDiffAt (x := t)) (i := n) le_rfl
    show iteratedFDeriv ℝ n (G ∘ y) t _ = _
    rw [this]
    rfl
  rw [this]
  exact (G.le_opNorm _).trans (mul_le_mul_of_nonneg_left (hy.2 t ht) (norm_nonneg _))

end JaxCfd
