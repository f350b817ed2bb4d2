import Verif.Lemmas.Filter

/-!
# Parseval's identity for the discrete Fourier transform
-/

namespace JaxCfd
variable {d : ℕ}

theorem axesOp_all {K : Type} [Field K] (s : Fin d → ℕ) (w : Fin d → ℤ → ℤ → K) (x : Idx d → K) (k : Idx d) :
    axesOp s w (List.finRange d) x k = ∑ i ∈ box s, x i * ∏ a, w a (i a) (k a) := by
  rw [axesOp_sum_box _ _ _ (List.nodup_finRange d)]
  have : (Fintype.piFinset fun a : Fin d => if a ∈ List.finRange d then Finset.Ico (0 : ℤ) (s a) else {k a}) = box s := by
    simp [box]
  rw [this]
  refine Finset.sum_congr rfl fun i _ => ?_
  rw [← List.ofFn_eq_map, List.prod_ofFn]

theorem ifftKernel_eq_conj (n : ℕ) (j k : ℤ) : ifftKernel n j k = (starRingEnd ℂ) (fftKernel n k j) / n := by
  rw [fftKernel_conj]
  unfold ifftKernel fftKernel
  congr 2
  push_cast
  ring

theorem inr_of_mem_box {s : Fin d → ℕ} {i : Idx d} (h : i ∈ box s) : InR s i := fun a => by
  have := Fintype.mem_piFinset.1 h a
  rwa [Finset.mem_Ico] at this

/-- Parseval's identity. -/
theorem parseval (s : Fin d → ℕ) (x : Idx d → ℂ) :
    ∑ i ∈ box s, ‖x i‖ ^ 2 = (∑ k ∈ box s, ‖axesOp s (fun a => fftKernel (s a)) (List.finRange d) x k‖ ^ 2) / ∏ a, (s a : ℝ) := by
  set X := axesOp s (fun a => fftKernel (s a)) (List.finRange d) x with hX
  have h1 : ∀ i ∈ box s, x i = ∑ k ∈ box s, X k * ∏ a, ifftKernel (s a) (k a) (i a) := by
    intro i hi
    have h := axesOp_inverse (fft_inverse s) _ (List.nodup_finRange d) x i (inr_of_mem_box hi)
    rw [axesOp_all] at h
    exact h.symm
  have h2 : ∀ k, X k = ∑ i ∈ box s, x i * ∏ a, fftKernel (s a) (i a) (k a) := fun k => axesOp_all _ _ _ _
  have key : ∑ i ∈ box s, x i * (starRingEnd ℂ) (x i) = (∑ k ∈ box s, X k * (starRingEnd ℂ) (X k)) / ∏ a, (s a : ℂ) := by
    have e1 : ∑ i ∈ box s, x i * (starRingEnd ℂ) (x i) =
        ∑ i ∈ box s, ∑ k ∈ box s, X k * (∏ a, ifftKernel (s a) (k a) (i a)) * (starRingEnd ℂ) (x i) :=
      Finset.sum_congr rfl fun i hi => by
        rw [← Finset.sum_mul, ← h1 i hi]
    rw [e1, Finset.sum_comm, Finset.sum_div]
    refine Finset.sum_congr rfl fun k _ => ?_
    rw [h2 k, map_sum, mul_div_assoc, Finset.sum_div, ← h2 k, Finset.mul_sum]
    refine Finset.sum_congr rfl fun i _ => ?_
    rw [map_mul, map_prod]
    have : ∏ a, ifftKernel (s a) (k a) (i a) = (∏ a, (starRingEnd ℂ) (fftKernel (s a) (i a) (k a))) / ∏ a, (s a : ℂ) := by
      rw [← Finset.prod_div_distrib]
      exact Finset.prod_congr rfl fun a _ => ifftKernel_eq_conj _ _ _
    rw [this]
    ring
  have hn : ∀ z : ℂ, z * (starRingEnd ℂ) z = ((‖z‖ ^ 2 : ℝ) : ℂ) := fun z => by
    rw [Complex.mul_conj, Complex.normSq_eq_norm_sq]
  simp only [hn] at key
  exact_mod_cast key

end JaxCfd
