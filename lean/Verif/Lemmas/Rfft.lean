import Verif.Lemmas.Separable
import Verif.Lemmas.Fourier2
import Verif.Lemmas.SpectralUtils

/-!
# `rfftn` and `irfftn` for real data
-/

namespace JaxCfd
variable {k : ℕ}

/-- `irfftn` of the first half of a hermitian spectrum is the full inverse transform. -/
theorem irfftn_hermitian (s : Fin (k + 1) → ℕ) {y : Idx (k + 1) → ℂ} (hy : HSym s Finset.univ y) (he : s (Fin.last k) % 2 = 0)
    (x : NArr (k + 1) ℂ) (hxs : x.shape = Function.update s (Fin.last k) (s (Fin.last k) / 2 + 1))
    (hxd : ∀ i : Idx (k + 1), InR x.shape i → x.data i = y i) :
    (irfftn x).shape = s ∧
      ∀ i : Idx (k + 1), InR s i → ((irfftn x).data i : ℂ) = axesOp s (fun a => ifftKernel (s a)) (List.finRange (k + 1)) y i := by
  have hlast : x.shape (Fin.last k) = s (Fin.last k) / 2 + 1 := by rw [hxs, Function.update_self]
  refine ⟨?_, fun i hi => ?_⟩
  · funext a
    unfold irfftn irfftLast
    dsimp only
    by_cases ha : a = Fin.last k
    · subst ha
      rw [Function.update_self, hlast]; omega
    · rw [Function.update_of_ne ha, hxs, Function.update_of_ne ha]
  have hnd : ((List.finRange k).map Fin.castSucc).Nodup := (List.nodup_finRange k).map (Fin.castSucc_injective k)
  have hZ := hy.ifft_axes ((List.finRange k).map Fin.castSucc) hnd (fun a _ => Finset.mem_univ a)
  have et : (Finset.univ : Finset (Fin (k + 1))) \ ((List.finRange k).map Fin.castSucc).toFinset = {Fin.last k} := by
    ext a
    simp only [Finset.mem_sdiff, Finset.mem_univ, true_and, List.mem_toFinset, List.mem_map, List.mem_finRange,
      Finset.mem_singleton]
    constructor
    · intro h
      by_contra hne
      exact h ⟨a.castPred hne, Fin.castSucc_castPred a hne⟩
    · rintro rfl ⟨b, hb⟩
      exact (Fin.castSucc_lt_last b).ne hb
  rw [et] at hZ
  have hap : axesOp s (fun a => ifftKernel (s a)) (List.finRange (k + 1)) y =
      axisOp (s (Fin.last k)) (Fin.last k) (ifftKernel (s (Fin.last k)))
        (axesOp s (fun a => ifftKernel (s a)) ((List.finRange k).map Fin.castSucc) y) := by
    rw [List.finRange_succ_last]
    unfold axesOp
    rw [List.foldl_append]
    rfl
  rw [hap, ← irfftLast_eq s _ hZ he ⟨x.shape, axesOp s (fun a => ifftKernel (s a)) ((List.finRange k).map Fin.castSucc) y⟩ hlast rfl i hi]
  congr 1
  have hc : ∀ (z : Idx (k + 1) → ℂ), ((List.finRange k).map Fin.castSucc).foldl
        (fun y a => axisOp (x.shape a) a (ifftKernel (x.shape a)) y) z =
      axesOp s (fun a => ifftKernel (s a)) ((List.finRange k).map Fin.castSucc) z := by
    intro z
    unfold axesOp
    rw [List.foldl_map, List.foldl_map]
    congr 1
    funext z a
    have : x.shape a.castSucc = s a.castSucc := by rw [hxs, Function.update_of_ne (Fin.castSucc_lt_last a).ne]
    rw [this]
  have hb : BoxEq x.shape (axesOp s (fun a => ifftKernel (s a)) ((List.finRange k).map Fin.castSucc) x.data)
      (axesOp s (fun a => ifftKernel (s a)) ((List.finRange k).map Fin.castSucc) y) := by
    have h1 := axesOp_congr (s := x.shape) (fun a => ifftKernel (x.shape a)) ((List.finRange k).map Fin.castSucc) (x := x.data) (y := y) hxd
    have e : ∀ z : Idx (k + 1) → ℂ, axesOp x.shape (fun a => ifftKernel (x.shape a)) ((List.finRange k).map Fin.castSucc) z =
        axesOp s (fun a => ifftKernel (s a)) ((List.finRange k).map Fin.castSucc) z := hc
    rw [e, e] at h1
    exact h1
  have hi' := hi (Fin.last k)
  have hn : 2 * (x.shape (Fin.last k) - 1) = s (Fin.last k) := by rw [hlast]; omega
  have hu : ∀ j : ℤ, 0 ≤ j → j ≤ (s (Fin.last k) / 2 : ℕ) → InR x.shape (Function.update i (Fin.last k) j) := by
    intro j h0 h1 a
    by_cases ha : a = Fin.last k
    · subst ha; rw [Function.update_self, hlast]; omega
    · rw [Function.update_of_ne ha, hxs, Function.update_of_ne ha]; exact hi a
  unfold irfftn irfftLast
  dsimp only
  rw [hn, hc, hb _ (hu 0 (by omega) (by omega)), hb _ (hu _ (by omega) (by omega))]
  congr 3
  refine Finset.sum_congr rfl fun j hj => ?_
  rw [Finset.mem_Ico] at hj
  rw [hb _ (hu j (by omega) (by omega))]

/-- The spectrum of real data. -/
theorem hsym_fft (s : Fin (k + 1) → ℕ) (x : Idx (k + 1) → ℝ) :
    HSym s Finset.univ (axesOp s (fun a => fftKernel (s a)) (List.finRange (k + 1)) fun i => (x i : ℂ)) := by
  have := (HSym.real s x).fft_axes (List.finRange (k + 1)) (List.nodup_finRange _) (fun a _ => Finset.notMem_empty a)
  have e : (∅ : Finset (Fin (k + 1))) ∪ (List.finRange (k + 1)).toFinset = Finset.univ := by ext; simp
  rwa [e] at this

theorem rfftn_shape' (x : NArr (k + 1) ℝ) : (rfftn x).shape = Function.update x.shape (Fin.last k) (x.shape (Fin.last k) / 2 + 1) := rfl

theorem rfftn_data (x : NArr (k + 1) ℝ) :
    (rfftn x).data = axesOp x.shape (fun a => fftKernel (x.shape a)) (List.finRange (k + 1)) fun i => (x.data i : ℂ) := rfl

/-- `irfftn(rfftn(x))` is `x` for an even last axis. -/
theorem irfftn_rfftn (x : NArr (k + 1) ℝ) (he : x.shape (Fin.last k) % 2 = 0) : (irfftn (rfftn x)).Eqv x := by
  obtain ⟨h1, h2⟩ := irfftn_hermitian x.shape (hsym_fft x.shape x.data) he (rfftn x) rfl (fun i _ => rfl)
  refine ⟨h1, fun i hi => ?_⟩
  rw [h1] at hi
  have h3 := h2 i hi
  rw [axesOp_inverse (fft_inverse x.shape) _ (List.nodup_finRange _) _ i hi] at h3
  exact_mod_cast h3

/-- `rfftn(irfftn(z))` is `z` for the first half `z` of a hermitian spectrum. -/
theorem rfftn_irfftn (s : Fin (k + 1) → ℕ) {y : Idx (k + 1) → ℂ} (hy : HSym s Finset.univ y) (he : s (Fin.last k) % 2 = 0) (h0 : s (Fin.last k) ≠ 0)
    (x : NArr (k + 1) ℂ) (hxs : x.shape = Function.update s (Fin.last k) (s (Fin.last k) / 2 + 1))
    (hxd : ∀ i : Idx (k + 1), InR x.shape i → x.data i = y i) : (rfftn (irfftn x)).Eqv x := by
  obtain ⟨h1, h2⟩ := irfftn_hermitian s hy he x hxs hxd
  refine ⟨by rw [rfftn_shape', h1, hxs], fun i hi => ?_⟩
  rw [rfftn_shape', h1, ← hxs] at hi
  rw [rfftn_data, h1, hxd i hi]
  have his : InR s i := by
    intro a
    by_cases ha : a = Fin.last k
    · subst ha
      have := hi (Fin.last k)
      rw [hxs, Function.update_self] at this
      omega
    · have := hi a
      rwa [hxs, Function.update_of_ne ha] at this
  have hc := axesOp_congr (s := s) (fun a => fftKernel (s a)) (List.finRange (k + 1)) h2 i his
  rw [hc]
  exact axesOp_inverse (ifft_inverse s) _ (List.nodup_finRange _) _ i his

end JaxCfd
