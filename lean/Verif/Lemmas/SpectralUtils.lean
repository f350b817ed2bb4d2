import Verif.Model.SpectralUtils
import Verif.Lemmas.Fourier
import Mathlib.Tactic.LinearCombination

/-!
# Lemmas on the Fourier padding of `jax_cfd/spectral/utils.py`
-/

namespace JaxCfd

/-- The hermitian spectrum whose nonnegative half is `x` (the imaginary part of the mean is ignored). -/
noncomputable def herm (x : ℤ → ℂ) (p : ℤ) : ℂ :=
  if p = 0 then ((x 0).re : ℂ) else if 0 < p then x p else (starRingEnd ℂ) (x (-p))

/-- The wave `exp(2πi p j / M)`. -/
noncomputable def wave (M : ℕ) (p j : ℤ) : ℂ := Complex.exp (2 * Real.pi * Complex.I * p * j / M)

theorem wave_neg (M : ℕ) (p j : ℤ) : wave M (-p) j = (starRingEnd ℂ) (wave M p j) := by
  unfold wave
  rw [← Complex.exp_conj]
  congr 1
  simp only [map_div₀, map_mul, Complex.conj_ofReal, Complex.conj_I, map_ofNat, map_intCast, map_natCast]
  push_cast
  ring

theorem wave_mul (M : ℕ) (p q j : ℤ) : wave M p j * wave M q j = wave M (p + q) j := by
  unfold wave
  rw [← Complex.exp_add]
  congr 1
  push_cast
  ring

theorem wave_zero (M : ℕ) (j : ℤ) : wave M 0 j = 1 := by simp [wave]

theorem wave_mul_fft (M : ℕ) (p k j : ℤ) : wave M p j * fftKernel M j k = wave M (p - k) j := by
  unfold wave fftKernel
  rw [← Complex.exp_add]
  congr 1
  push_cast
  ring

theorem sum_wave {M : ℕ} (hM : M ≠ 0) (m : ℤ) :
    ∑ j ∈ Finset.Ico (0 : ℤ) M, wave M m j = if (M : ℤ) ∣ m then (M : ℂ) else 0 := sum_exp hM m

/-- The transform of a trigonometric polynomial. -/
theorem fft1_trig {ι : Type} {M : ℕ} (hM : M ≠ 0) (S : Finset ι) (c : ι → ℂ) (f : ι → ℤ) (k : ℤ) :
    fft1 M (fun j => ∑ p ∈ S, c p * wave M (f p) j) k = ∑ p ∈ S, if (M : ℤ) ∣ f p - k then c p * M else 0 := by
  unfold fft1
  simp only [Finset.sum_mul]
  rw [Finset.sum_comm]
  refine Finset.sum_congr rfl fun p _ => ?_
  simp only [mul_assoc, wave_mul_fft]
  rw [← Finset.mul_sum, sum_wave hM]
  split_ifs <;> simp

theorem fft1_congr {M : ℕ} {x y : ℤ → ℂ} (h : ∀ j : ℤ, 0 ≤ j → j < M → x j = y j) (k : ℤ) : fft1 M x k = fft1 M y k :=
  Finset.sum_congr rfl fun j hj => by rw [h j (Finset.mem_Ico.1 hj).1 (Finset.mem_Ico.1 hj).2]

theorem fft1_smul (M : ℕ) (c : ℂ) (x : ℤ → ℂ) (k : ℤ) : fft1 M (fun j => c * x j) k = c * fft1 M x k := by
  unfold fft1
  rw [Finset.mul_sum]
  exact Finset.sum_congr rfl fun j _ => by ring

theorem sum_Ioo_split {n : ℤ} (hn : 1 ≤ n) (f : ℤ → ℂ) :
    ∑ p ∈ Finset.Ioo (-n) n, f p = f 0 + ∑ p ∈ Finset.Ico (1 : ℤ) n, (f p + f (-p)) := by
  have e : Finset.Ioo (-n) n = insert 0 (Finset.Ico 1 n ∪ (Finset.Ico 1 n).image fun p => -p) := by
    ext p
    simp only [Finset.mem_Ioo, Finset.mem_insert, Finset.mem_union, Finset.mem_Ico, Finset.mem_image]
    constructor
    · intro h
      rcases lt_trichotomy p 0 with h0 | h0 | h0
      · exact Or.inr (Or.inr ⟨-p, by omega, by omega⟩)
      · exact Or.inl h0
      · exact Or.inr (Or.inl (by omega))
    · rintro (h | h | ⟨q, h, rfl⟩) <;> omega
  rw [e, Finset.sum_insert, Finset.sum_union, Finset.sum_image, Finset.sum_add_distrib]
  · intro p _ q _ h; simpa using h
  · rw [Finset.disjoint_left]
    intro p hp hq
    simp only [Finset.mem_Ico, Finset.mem_image] at hp hq
    obtain ⟨q, hq, rfl⟩ := hq
    omega
  · simp only [Finset.mem_union, Finset.mem_Ico, Finset.mem_image, not_or]
    refine ⟨by omega, ?_⟩
    rintro ⟨q, hq, h⟩
    omega

/-- `irfft` of a spectrum of `m` entries that vanishes from entry `n` on, `1 ≤ n < m`: the trigonometric polynomial. -/
theorem irfft1_eq {x : Vec ℂ} {n : ℕ} (hn : 1 ≤ n) (hnm : n < x.n) (h0 : ∀ k : ℤ, n ≤ k → k < x.n → x.e k = 0) :
    ∃ y : Vec ℝ, irfft1 x = .ok y ∧ y.n = 2 * (x.n - 1) ∧ ∀ j : ℤ, 0 ≤ j → j < y.n →
      (y.e j : ℂ) = (∑ p ∈ Finset.Ioo (-(n : ℤ)) n, herm x.e p * wave (2 * (x.n - 1)) p j) / (2 * (x.n - 1) : ℕ) := by
  refine ⟨_, by unfold irfft1; rw [if_neg (by omega)], rfl, ?_⟩
  intro j hj0 hj
  have hl : (Fin.last 0 : Fin 1) = 0 := rfl
  simp only [irfftLast, hl, Function.update_self]
  have htop : x.e ((2 * (x.n - 1) / 2 : ℕ) : ℤ) = 0 := h0 _ (by omega) (by omega)
  rw [htop]
  rw [Complex.ofReal_div, Complex.ofReal_natCast]
  congr 1
  simp only [Complex.zero_re, zero_mul, add_zero]
  rw [sum_Ioo_split (by omega)]
  have e0 : herm x.e 0 * wave (2 * (x.n - 1)) 0 j = ((x.e 0).re : ℂ) := by
    rw [wave_zero, mul_one, herm, if_pos rfl]
  rw [e0, Complex.ofReal_add, Complex.ofReal_sum]
  congr 1
  have hsub : Finset.Ico (1 : ℤ) n ⊆ Finset.Ico (1 : ℤ) ((2 * (x.n - 1) / 2 : ℕ) : ℤ) := by
    apply Finset.Ico_subset_Ico_right
    omega
  rw [← Finset.sum_subset hsub]
  · refine Finset.sum_congr rfl fun p hp => ?_
    have hp' := Finset.mem_Ico.1 hp
    rw [herm, if_neg (by omega), if_pos (by omega), herm, if_neg (by omega), if_neg (by omega), neg_neg, wave_neg,
      ← map_mul, Complex.add_conj]
    rfl
  · intro p hp hp'
    simp only [Finset.mem_Ico] at hp hp'
    rw [h0 p (by omega) (by omega)]
    simp

/-- `padded_irfft` of a spectrum of at least two entries. -/
theorem paddedIrfft_eq {x : Vec ℂ} (hn : 2 ≤ x.n) :
    ∃ y : Vec ℝ, paddedIrfft x = .ok y ∧ y.n = 2 * (3 * x.n / 2 - 1) ∧ ∀ j : ℤ, 0 ≤ j → j < y.n →
      (y.e j : ℂ) = ∑ p ∈ Finset.Ioo (-(x.n : ℤ)) x.n, 3 / 2 / y.n * herm x.e p * wave y.n p j := by
  obtain ⟨y, hy, hyn, hye⟩ := irfft1_eq (x := ⟨3 * x.n / 2, fun k => if k < x.n then x.e k else 0⟩) (n := x.n) (by omega)
    (by show x.n < 3 * x.n / 2; omega) (fun k h1 _ => by dsimp only; rw [if_neg (by omega)])
  refine ⟨⟨y.n, fun j => 3 / 2 * y.e j⟩, by simp [paddedIrfft, hy, bind, Except.bind, pure, Except.pure], hyn, ?_⟩
  intro j hj0 hj
  dsimp only at hyn hye ⊢
  rw [Complex.ofReal_mul, hye j hj0 hj, ← hyn, Finset.sum_div, Finset.mul_sum]
  refine Finset.sum_congr rfl fun p hp => ?_
  have hp' := Finset.mem_Ioo.1 hp
  have : herm (fun k => if k < x.n then x.e k else 0) p = herm x.e p := by
    unfold herm
    have a0 : (0 : ℤ) < x.n := by omega
    have a1 : p < (x.n : ℤ) := hp'.2
    have a2 : -p < (x.n : ℤ) := by omega
    beta_reduce
    rw [if_pos a0, if_pos a1, if_pos a2]
  rw [this]
  push_cast
  ring

theorem sum_periodic_shift {n : ℕ} (f : ℤ → ℂ) (hf : ∀ j, f (j + n) = f j) (c : ℤ) :
    ∑ j ∈ Finset.Ico (0 : ℤ) n, f (j + c) = ∑ j ∈ Finset.Ico (0 : ℤ) n, f j := by
  have h1 := sum_reflect (n := n) f hf c
  have hg : ∀ j, (fun j => f (c - j)) (j + n) = (fun j => f (c - j)) j := by
    intro j
    have := hf (c - (j + n))
    simp only
    rw [← this]
    congr 1
    ring
  have h2 := sum_reflect (n := n) (fun j => f (c - j)) hg 0
  simp only [zero_sub, sub_neg_eq_add] at h2
  rw [← h1, ← h2]
  exact Finset.sum_congr rfl fun j _ => by rw [add_comm]

/-- The wavenumber of entry `k` of an `n`-point transform, between `-(n // 2)` and `n - n // 2`. -/
def centred (n : ℕ) (k : ℤ) : ℤ := (k + (n / 2 : ℕ)) % n - (n / 2 : ℕ)

theorem centred_bounds {n : ℕ} (hn : n ≠ 0) (k : ℤ) : -((n / 2 : ℕ) : ℤ) ≤ centred n k ∧ centred n k < n - (n / 2 : ℕ) := by
  unfold centred
  have h1 := Int.emod_nonneg (k + (n / 2 : ℕ)) (b := (n : ℤ)) (by omega)
  have h2 := Int.emod_lt_of_pos (k + (n / 2 : ℕ)) (b := (n : ℤ)) (by omega)
  omega

theorem centred_emod {n : ℕ} (k : ℤ) : centred n k % n = k % n := by
  unfold centred
  rw [Int.sub_emod, Int.emod_emod_of_dvd _ (dvd_refl _), ← Int.sub_emod]
  congr 1
  ring

/-- `padded_ifft_2x`: the trigonometric polynomial with the centred wavenumbers. -/
theorem paddedIfft2x_eq {x : Vec ℂ} (hn : x.n ≠ 0) :
    ∃ y : Vec ℂ, paddedIfft2x x = .ok y ∧ y.n = x.n + 2 * (x.n / 2) ∧ ∀ j : ℤ,
      y.e j = ∑ p ∈ Finset.Ico (-((x.n / 2 : ℕ) : ℤ)) (x.n - (x.n / 2 : ℕ)), 2 / y.n * x.e (p % x.n) * wave y.n p j := by
  refine ⟨_, by unfold paddedIfft2x; rw [if_neg hn], rfl, ?_⟩
  intro j
  dsimp only
  set n := x.n with hnn
  set F := n + 2 * (n / 2) with hF
  have hF2 : F / 2 = 2 * (n / 2) := by omega
  set sm : ℤ → ℂ := fun k => if ((n / 2 : ℕ) : ℤ) ≤ k ∧ k < (n / 2 : ℕ) + n then fftshift n x.e (k - (n / 2 : ℕ)) else 0 with hsm
  unfold ifft1
  have hper : ∀ k, (fun k : ℤ => sm (k % F) * ifftKernel F (k - (F / 2 : ℕ)) j) (k + F) =
      (fun k : ℤ => sm (k % F) * ifftKernel F (k - (F / 2 : ℕ)) j) k := by
    intro k
    beta_reduce
    rw [Int.add_emod_right, show k + (F : ℤ) - (F / 2 : ℕ) = (k - (F / 2 : ℕ)) + F by ring, ifftKernel_period]
  have h1 := sum_periodic_shift (n := F) (fun k : ℤ => sm (k % F) * ifftKernel F (k - (F / 2 : ℕ)) j) hper (F / 2 : ℕ)
  have e1 : ∑ k ∈ Finset.Ico (0 : ℤ) F, ifftshift F sm k * ifftKernel F k j =
      ∑ k ∈ Finset.Ico (0 : ℤ) F, sm (k % F) * ifftKernel F (k - (F / 2 : ℕ)) j := by
    rw [← h1]
    refine Finset.sum_congr rfl fun k _ => ?_
    beta_reduce
    unfold ifftshift
    rw [add_sub_cancel_right]
  rw [e1]
  have hsub : Finset.Ico ((n / 2 : ℕ) : ℤ) ((n / 2 : ℕ) + n) ⊆ Finset.Ico (0 : ℤ) F := by
    apply Finset.Ico_subset_Ico <;> omega
  rw [← Finset.sum_subset hsub]
  · rw [Finset.mul_sum]
    refine Finset.sum_bij (fun k _ => k - (F / 2 : ℕ)) ?_ ?_ ?_ ?_
    · intro k hk
      simp only [Finset.mem_Ico] at hk ⊢
      omega
    · intro a _ b _ h
      simpa using h
    · intro p hp
      simp only [Finset.mem_Ico] at hp
      refine ⟨p + (F / 2 : ℕ), by simp only [Finset.mem_Ico]; omega, by ring⟩
    · intro k hk
      have hk' := Finset.mem_Ico.1 hk
      rw [Int.emod_eq_of_lt (by omega) (by omega)]
      simp only [hsm]
      rw [if_pos hk']
      unfold fftshift ifftKernel wave
      have : (k - ((n / 2 : ℕ) : ℤ) - ((n / 2 : ℕ) : ℤ)) = k - ((F / 2 : ℕ) : ℤ) := by omega
      rw [this]
      ring
  · intro k hk hk'
    simp only [Finset.mem_Ico] at hk hk'
    rw [Int.emod_eq_of_lt (by omega) (by omega)]
    simp only [hsm]
    rw [if_neg (by omega), zero_mul]

theorem fft1_period_mod (n : ℕ) (x : ℤ → ℂ) (k : ℤ) : fft1 n x (k % n) = fft1 n x k := by
  have h : Function.Periodic (fft1 n x) (n : ℤ) := fft1_period n x
  have := h.sub_zsmul_eq (x := k) (k / n)
  rw [← this, Int.emod_def]
  congr 1
  simp only [smul_eq_mul]
  ring

/-- `truncated_fft_2x` of a signal of the length `n + 2 (n // 2)`: half the coefficients with the centred wavenumbers. -/
theorem truncatedFft2x_eq {u : Vec ℂ} {n : ℕ} (hn : 2 ≤ n) (hu : u.n = n + 2 * (n / 2)) :
    ∃ y : Vec ℂ, truncatedFft2x u = .ok y ∧ y.n = n ∧ ∀ k : ℤ, 0 ≤ k → k < n →
      y.e k = fft1 u.n u.e (centred n k) / 2 := by
  have hfin : (u.n + 1) / 2 = n := by omega
  have hstop : (-(n : ℤ) + 1) / 2 = -((n / 2 : ℕ) : ℤ) := by omega
  have hneg : -((n / 2 : ℕ) : ℤ) < 0 := by omega
  have hlen : (max 0 ((u.n : ℤ) + -((n / 2 : ℕ) : ℤ)) - ((n / 2 : ℕ) : ℤ)).toNat = n := by omega
  refine ⟨_, by unfold truncatedFft2x; rw [if_neg (by omega)], ?_, ?_⟩
  · dsimp only
    rw [hfin, hstop, if_pos hneg, hlen]
  · intro k _ _
    dsimp only
    rw [hfin, hstop, if_pos hneg, hlen]
    unfold ifftshift fftshift
    beta_reduce
    rw [fft1_period_mod]
    congr 2
    unfold centred
    omega

end JaxCfd
