import Verif.Lemmas.SpectralUtils
import Mathlib.Tactic.NormNum

/-!
# C46: Fourier padding and truncation

`herm x p` (p any integer) is the full hermitian spectrum that the half spectrum `x` stands for; `centred n k` is the
wavenumber in `[-(n // 2), n - n // 2)` of entry `k` of an `n`-point transform.
-/

namespace JaxCfd

theorem not_dvd_of_abs_lt {M : ℕ} {z : ℤ} (h0 : z ≠ 0) (h1 : -(M : ℤ) < z) (h2 : z < M) : ¬ (M : ℤ) ∣ z := by
  intro h
  exact h0 (Int.eq_zero_of_abs_lt_dvd h (abs_lt.2 ⟨h1, h2⟩))

/-- `truncated_rfft` of a product of padded signals, before the divisibility is resolved. -/
theorem truncatedRfft_eq {x : Vec ℝ} (hx : x.n ≠ 0) :
    ∃ y : Vec ℂ, truncatedRfft x = .ok y ∧ y.n = min (x.n / 2 + 1) (2 * (x.n / 2 + 1) / 3 + 1) ∧
      ∀ k : ℤ, y.e k = 2 / 3 * fft1 x.n (fun j => (x.e j : ℂ)) k := by
  refine ⟨⟨_, _⟩, ?_, rfl, fun k => rfl⟩
  simp [truncatedRfft, rfft1, hx, bind, Except.bind, pure, Except.pure]

/-- **C46** `truncated_rfft(padded_irfft(uhat))`, for every spectrum of `n ≥ 2` modes: every mode is restored (the mean's
imaginary part is dropped), and the result has `n` modes when `n` is odd but one spurious zero mode more when `n` is even. -/
theorem C46_truncate_pad (u : Vec ℂ) (hn : 2 ≤ u.n) :
    ∃ x y, paddedIrfft u = .ok x ∧ truncatedRfft x = .ok y ∧ y.n = (if u.n % 2 = 1 then u.n else u.n + 1) ∧
      (∀ k : ℤ, 0 ≤ k → k < u.n → y.e k = if k = 0 then ((u.e 0).re : ℂ) else u.e k) ∧
      (u.n % 2 = 0 → y.e u.n = 0) := by
  obtain ⟨x, hx, hxn, hxe⟩ := paddedIrfft_eq hn
  obtain ⟨y, hy, hyn, hye⟩ := truncatedRfft_eq (x := x) (by omega)
  have hM : x.n ≠ 0 := by omega
  have hM' : (x.n : ℂ) ≠ 0 := Nat.cast_ne_zero.2 hM
  have key : ∀ k : ℤ, 0 ≤ k → k ≤ u.n → (k = u.n → u.n % 2 = 0) → y.e k = if k < u.n then herm u.e k else 0 := by
    intro k h0 h1 hk
    rw [hye, fft1_congr hxe, fft1_trig hM _ _ (fun p => p)]
    have e : ∀ p ∈ Finset.Ioo (-(u.n : ℤ)) u.n, (if (x.n : ℤ) ∣ p - k then 3 / 2 / (x.n : ℂ) * herm u.e p * x.n else 0) =
        if p = k then 3 / 2 * herm u.e k else 0 := by
      intro p hp
      have hp' := Finset.mem_Ioo.1 hp
      by_cases hpk : p = k
      · subst hpk
        rw [if_pos rfl, if_pos (by simp)]
        field_simp
      · rw [if_neg hpk, if_neg (not_dvd_of_abs_lt (by omega) (by omega) (by omega))]
    rw [Finset.sum_congr rfl e, Finset.sum_ite_eq']
    by_cases hkn : k < u.n
    · rw [if_pos hkn, if_pos (Finset.mem_Ioo.2 ⟨by omega, hkn⟩)]
      ring
    · rw [if_neg hkn, if_neg (by simp only [Finset.mem_Ioo]; omega), mul_zero]
  refine ⟨x, y, hx, hy, ?_, ?_, ?_⟩
  · rw [hyn, hxn]
    split_ifs <;> omega
  · intro k h0 h1
    rw [key k h0 h1.le (by omega), if_pos h1, herm]
    split_ifs with h h'
    · rfl
    · rfl
    · omega
  · intro h
    rw [key u.n (by omega) le_rfl (fun _ => h), if_neg (lt_irrefl _)]

/-- The sizes do not match for an even number of modes (grids of 2, 6, 10, … points): adding the result to a spectrum fails. -/
theorem C46_even_size_defect (u : Vec ℂ) (hn : 2 ≤ u.n) (he : u.n % 2 = 0) :
    ∃ x y, paddedIrfft u = .ok x ∧ truncatedRfft x = .ok y ∧ y.n ≠ u.n := by
  obtain ⟨x, y, h1, h2, h3, _⟩ := C46_truncate_pad u hn
  exact ⟨x, y, h1, h2, by rw [h3, if_neg (by omega)]; omega⟩

/-- **C46** Dealiasing.  For an odd number `n ≥ 3` of modes (a grid of `N = 2 (n - 1)` points), multiplying two padded signals and
truncating gives, in every mode below the last, exactly the truncated convolution of the two spectra - the Fourier-Galerkin
product - with no aliased contribution; the last mode receives the single alias of the product of the two highest modes. -/
theorem C46_dealias (u w : Vec ℂ) (hw : w.n = u.n) (hn : 3 ≤ u.n) (ho : u.n % 2 = 1) :
    ∃ x y z, paddedIrfft u = .ok x ∧ paddedIrfft w = .ok y ∧ x.n = y.n ∧ truncatedRfft ⟨x.n, fun j => x.e j * y.e j⟩ = .ok z ∧
      z.n = u.n ∧ ∀ k : ℤ, 0 ≤ k → k < u.n → z.e k =
        1 / (2 * (u.n - 1) : ℂ) * ((∑ p ∈ Finset.Ioo (-(u.n : ℤ)) u.n, if |k - p| < u.n then herm u.e p * herm w.e (k - p) else 0) +
          if k = u.n - 1 then (starRingEnd ℂ) (u.e k) * (starRingEnd ℂ) (w.e k) else 0) := by
  obtain ⟨x, hx, hxn, hxe⟩ := paddedIrfft_eq (x := u) (by omega)
  obtain ⟨y, hy, hyn, hye⟩ := paddedIrfft_eq (x := w) (by omega)
  have hxy : x.n = y.n := by rw [hxn, hyn, hw]
  obtain ⟨z, hz, hzn, hze⟩ := truncatedRfft_eq (x := ⟨x.n, fun j => x.e j * y.e j⟩) (by show x.n ≠ 0; omega)
  refine ⟨x, y, z, hx, hy, hxy, hz, ?_, ?_⟩
  · rw [hzn]
    dsimp only
    omega
  intro k h0 h1
  have hM : x.n ≠ 0 := by omega
  have hMe : (x.n : ℤ) = 3 * (u.n - 1) := by omega
  have hMc : (x.n : ℂ) = 3 * (u.n - 1) := by exact_mod_cast congrArg (Int.cast : ℤ → ℂ) hMe
  have hM' : (x.n : ℂ) ≠ 0 := Nat.cast_ne_zero.2 hM
  have hn1 : ((u.n : ℂ) - 1) ≠ 0 := by
    intro h; rw [h, mul_zero] at hMc; exact hM' hMc
  rw [hze]
  dsimp only
  set S := Finset.Ioo (-(u.n : ℤ)) u.n with hS
  have hprod : ∀ j : ℤ, 0 ≤ j → j < x.n → ((x.e j * y.e j : ℝ) : ℂ) =
      ∑ a ∈ S ×ˢ S, (3 / 2 / (x.n : ℂ)) ^ 2 * (herm u.e a.1 * herm w.e a.2) * wave x.n (a.1 + a.2) j := by
    intro j hj0 hj
    rw [Complex.ofReal_mul, hxe j hj0 hj, hye j hj0 (hxy ▸ hj), hw, ← hxy, Finset.sum_mul_sum, Finset.sum_product]
    refine Finset.sum_congr rfl fun p _ => Finset.sum_congr rfl fun q _ => ?_
    rw [← wave_mul]
    ring
  rw [fft1_congr hprod, fft1_trig hM, Finset.sum_product]
  have hin : ∀ p ∈ S, (∑ q ∈ S, if (x.n : ℤ) ∣ p + q - k then (3 / 2 / (x.n : ℂ)) ^ 2 * (herm u.e p * herm w.e q) * x.n else 0) =
      (3 / 2) ^ 2 / (x.n : ℂ) * ((if |k - p| < u.n then herm u.e p * herm w.e (k - p) else 0) +
        if p = -(u.n - 1) then (if k = u.n - 1 then herm u.e p * herm w.e p else 0) else 0) := by
    intro p hp
    have hp' := Finset.mem_Ioo.1 hp
    have e : ∀ q ∈ S, (if (x.n : ℤ) ∣ p + q - k then (3 / 2 / (x.n : ℂ)) ^ 2 * (herm u.e p * herm w.e q) * x.n else 0) =
        (3 / 2) ^ 2 / (x.n : ℂ) * ((if q = k - p then herm u.e p * herm w.e (k - p) else 0) +
          if q = p then (if p = -(u.n - 1) ∧ k = u.n - 1 then herm u.e p * herm w.e p else 0) else 0) := by
      intro q hq
      have hq' := Finset.mem_Ioo.1 hq
      by_cases h1' : q = k - p
      · subst h1'
        rw [if_pos (by simp), if_pos rfl]
        have : ¬ (k - p = p ∧ (p = -((u.n : ℤ) - 1) ∧ k = u.n - 1)) := by omega
        rw [show (if k - p = p then (if p = -((u.n : ℤ) - 1) ∧ k = u.n - 1 then herm u.e p * herm w.e p else 0) else 0) = (0 : ℂ) by
          split_ifs with h3 h4
          · exact absurd ⟨h3, h4⟩ this
          · rfl
          · rfl]
        field_simp
        ring
      · by_cases h2' : q = p ∧ p = -((u.n : ℤ) - 1) ∧ k = u.n - 1
        · obtain ⟨rfl, h3, h4⟩ := h2'
          rw [if_pos ⟨-1, by omega⟩, if_neg h1', if_pos rfl, if_pos ⟨h3, h4⟩]
          field_simp
          ring
        · rw [if_neg, if_neg h1']
          · have : (if q = p then (if p = -((u.n : ℤ) - 1) ∧ k = u.n - 1 then herm u.e p * herm w.e p else 0) else 0) = (0 : ℂ) := by
              split_ifs with h3 h4
              · exact absurd ⟨h3, h4⟩ h2'
              · rfl
              · rfl
            rw [this]; ring
          · intro hd
            obtain ⟨c, hc⟩ := hd
            have hc1 : c < 1 := by
              by_contra hcc
              have : (x.n : ℤ) * 1 ≤ x.n * c := by apply mul_le_mul_of_nonneg_left <;> omega
              omega
            have hc2 : -2 < c := by
              by_contra hcc
              have : (x.n : ℤ) * c ≤ x.n * (-2) := by apply mul_le_mul_of_nonneg_left <;> omega
              omega
            have : c = 0 ∨ c = -1 := by omega
            rcases this with rfl | rfl
            · omega
            · apply h2'; omega
    rw [Finset.sum_congr rfl e, ← Finset.mul_sum, Finset.sum_add_distrib, Finset.sum_ite_eq', Finset.sum_ite_eq', if_pos hp]
    have hmem : (k - p ∈ S) ↔ |k - p| < u.n := by rw [hS, Finset.mem_Ioo, abs_lt]
    simp only [hmem]
    congr 2
    split_ifs with h3 h4 h5 <;> first | rfl | (exfalso; tauto)
  rw [Finset.sum_congr rfl hin, ← Finset.mul_sum, Finset.sum_add_distrib, Finset.sum_ite_eq',
    if_pos (by rw [hS, Finset.mem_Ioo]; omega), ← mul_assoc]
  have hc : (2 / 3 * ((3 / 2) ^ 2 / (x.n : ℂ)) : ℂ) = 1 / (2 * (u.n - 1)) := by
    rw [hMc]; field_simp
  rw [hc]
  congr 2
  split_ifs with h3
  · rw [herm, if_neg (by omega), if_neg (by omega), herm, if_neg (by omega), if_neg (by omega), neg_neg, h3]
  · rfl

/-- **C46** `truncated_fft_2x(padded_ifft_2x(uhat)) = uhat` for every complex spectrum of at least two modes. -/
theorem C46_truncate_pad_2x (u : Vec ℂ) (hn : 2 ≤ u.n) :
    ∃ x y, paddedIfft2x u = .ok x ∧ truncatedFft2x x = .ok y ∧ y.Eqv u := by
  obtain ⟨x, hx, hxn, hxe⟩ := paddedIfft2x_eq (x := u) (by omega)
  obtain ⟨y, hy, hyn, hye⟩ := truncatedFft2x_eq (u := x) hn hxn
  refine ⟨x, y, hx, hy, hyn, ?_⟩
  intro k h0 h1
  rw [hyn] at h1
  have hM' : (x.n : ℂ) ≠ 0 := Nat.cast_ne_zero.2 (by omega)
  have hb := centred_bounds (n := u.n) (by omega) k
  rw [hye k h0 h1, fft1_congr (fun j _ _ => hxe j), fft1_trig (by omega) _ _ (fun p => p)]
  have e : ∀ p ∈ Finset.Ico (-((u.n / 2 : ℕ) : ℤ)) (u.n - (u.n / 2 : ℕ)),
      (if (x.n : ℤ) ∣ p - centred u.n k then 2 / (x.n : ℂ) * u.e (p % u.n) * x.n else 0) =
        if p = centred u.n k then 2 * u.e k else 0 := by
    intro p hp
    have hp' := Finset.mem_Ico.1 hp
    by_cases hpk : p = centred u.n k
    · rw [if_pos hpk, if_pos (by simp [hpk]), hpk, centred_emod, Int.emod_eq_of_lt h0 h1]
      field_simp
    · rw [if_neg hpk, if_neg (not_dvd_of_abs_lt (by omega) (by omega) (by omega))]
  rw [Finset.sum_congr rfl e, Finset.sum_ite_eq', if_pos (Finset.mem_Ico.2 hb)]
  ring

/-- **C46** `padded_ifft_2x` interpolates: for an even number of modes, every second sample of the refined signal is the sample
of the signal itself. -/
theorem C46_padded_interpolates (u : Vec ℂ) (hn : u.n ≠ 0) (he : u.n % 2 = 0) :
    ∃ x, paddedIfft2x u = .ok x ∧ x.n = 2 * u.n ∧ ∀ j : ℤ, x.e (2 * j) = ifft1 u.n u.e j := by
  obtain ⟨x, hx, hxn, hxe⟩ := paddedIfft2x_eq (x := u) hn
  have hxn2 : x.n = 2 * u.n := by omega
  refine ⟨x, hx, hxn2, ?_⟩
  intro j
  have hM' : (u.n : ℂ) ≠ 0 := Nat.cast_ne_zero.2 hn
  rw [hxe]
  have hper : ∀ k : ℤ, (fun k : ℤ => u.e (k % u.n) * ifftKernel u.n k j) (k + u.n) = (fun k : ℤ => u.e (k % u.n) * ifftKernel u.n k j) k := by
    intro k
    beta_reduce
    rw [Int.add_emod_right, ifftKernel_period]
  have h1 := sum_periodic_shift (n := u.n) (fun k : ℤ => u.e (k % u.n) * ifftKernel u.n k j) hper (-((u.n / 2 : ℕ) : ℤ))
  have h2 : ifft1 u.n u.e j = ∑ k ∈ Finset.Ico (0 : ℤ) u.n, u.e (k % u.n) * ifftKernel u.n k j := by
    unfold ifft1
    refine Finset.sum_congr rfl fun k hk => ?_
    have hk' := Finset.mem_Ico.1 hk
    rw [Int.emod_eq_of_lt hk'.1 hk'.2]
  rw [h2, ← h1]
  symm
  refine Finset.sum_bij (fun k _ => k + -((u.n / 2 : ℕ) : ℤ)) ?_ ?_ ?_ ?_
  · intro k hk
    simp only [Finset.mem_Ico] at hk ⊢
    omega
  · intro a _ b _ h
    simpa using h
  · intro p hp
    simp only [Finset.mem_Ico] at hp
    exact ⟨p + ((u.n / 2 : ℕ) : ℤ), by simp only [Finset.mem_Ico]; omega, by ring⟩
  · intro k hk
    have hw : wave x.n (k + -((u.n / 2 : ℕ) : ℤ)) (2 * j) = Complex.exp (2 * Real.pi * Complex.I * ((k + -((u.n / 2 : ℕ) : ℤ) : ℤ) : ℂ) * j / u.n) := by
      unfold wave
      congr 1
      rw [hxn2]
      push_cast
      field_simp
    rw [hw, hxn2]
    unfold ifftKernel
    push_cast
    field_simp

/-- **C46** Dealiasing of cubic terms.  For an even number of modes, the truncated transform of `x y conj(z)`, for three padded
signals, is exactly the triple convolution of the spectra: no aliased contribution in any mode. -/
theorem C46_cubic_dealias (u v w : Vec ℂ) (hn : u.n ≠ 0) (he : u.n % 2 = 0) (hv : v.n = u.n) (hw : w.n = u.n) :
    ∃ x y z r, paddedIfft2x u = .ok x ∧ paddedIfft2x v = .ok y ∧ paddedIfft2x w = .ok z ∧ y.n = x.n ∧ z.n = x.n ∧
      truncatedFft2x ⟨x.n, fun j => x.e j * y.e j * (starRingEnd ℂ) (z.e j)⟩ = .ok r ∧ r.n = u.n ∧
      ∀ k : ℤ, 0 ≤ k → k < u.n → r.e k = 1 / (u.n : ℂ) ^ 2 *
        ∑ p ∈ Finset.Ico (-((u.n / 2 : ℕ) : ℤ)) (u.n / 2 : ℕ), ∑ q ∈ Finset.Ico (-((u.n / 2 : ℕ) : ℤ)) (u.n / 2 : ℕ),
          ∑ s ∈ Finset.Ico (-((u.n / 2 : ℕ) : ℤ)) (u.n / 2 : ℕ),
            if p + q - s = centred u.n k then u.e (p % u.n) * v.e (q % u.n) * (starRingEnd ℂ) (w.e (s % u.n)) else 0 := by
  obtain ⟨x, hx, hxn, hxe⟩ := paddedIfft2x_eq (x := u) hn
  obtain ⟨y, hy, hyn, hye⟩ := paddedIfft2x_eq (x := v) (by omega)
  obtain ⟨z, hz, hzn, hze⟩ := paddedIfft2x_eq (x := w) (by omega)
  have hyx : y.n = x.n := by rw [hyn, hxn, hv]
  have hzx : z.n = x.n := by rw [hzn, hxn, hw]
  obtain ⟨r, hr, hrn, hre⟩ := truncatedFft2x_eq (u := ⟨x.n, fun j => x.e j * y.e j * (starRingEnd ℂ) (z.e j)⟩) (n := u.n)
    (by omega) hxn
  refine ⟨x, y, z, r, hx, hy, hz, hyx, hzx, hr, hrn, ?_⟩
  intro k h0 h1
  have hM : x.n ≠ 0 := by omega
  have hM' : (x.n : ℂ) ≠ 0 := Nat.cast_ne_zero.2 hM
  have hMc : (x.n : ℂ) = 2 * u.n := by
    have : x.n = 2 * u.n := by omega
    rw [this]; push_cast; ring
  have hu' : (u.n : ℂ) ≠ 0 := Nat.cast_ne_zero.2 hn
  have hb := centred_bounds (n := u.n) hn k
  rw [hre k h0 h1]
  dsimp only
  have hhalf : (u.n : ℤ) - (u.n / 2 : ℕ) = (u.n / 2 : ℕ) := by omega
  set S := Finset.Ico (-((u.n / 2 : ℕ) : ℤ)) (u.n / 2 : ℕ) with hS
  have hprod : ∀ j : ℤ, 0 ≤ j → j < x.n → x.e j * y.e j * (starRingEnd ℂ) (z.e j) =
      ∑ a ∈ S ×ˢ (S ×ˢ S), (2 / (x.n : ℂ)) ^ 3 * (u.e (a.1 % u.n) * v.e (a.2.1 % u.n) * (starRingEnd ℂ) (w.e (a.2.2 % u.n))) *
        wave x.n (a.1 + a.2.1 - a.2.2) j := by
    intro j _ _
    rw [hxe, hye, hze, hv, hw, hyx, hzx, hhalf, map_sum, Finset.sum_mul_sum, Finset.sum_product, Finset.sum_mul]
    refine Finset.sum_congr rfl fun p _ => ?_
    rw [Finset.sum_mul_sum, Finset.sum_product]
    refine Finset.sum_congr rfl fun q _ => Finset.sum_congr rfl fun s _ => ?_
    rw [sub_eq_add_neg, ← wave_mul, ← wave_mul, wave_neg]
    simp only [map_mul, map_div₀, map_ofNat, map_natCast]
    ring
  rw [fft1_congr hprod, fft1_trig hM, Finset.sum_product]
  have hsc : (1 / (u.n : ℂ) ^ 2) = (2 / (x.n : ℂ)) ^ 3 * x.n / 2 := by
    rw [hMc]; field_simp
  rw [hsc, Finset.sum_div, Finset.mul_sum]
  refine Finset.sum_congr rfl fun p hp => ?_
  rw [Finset.sum_product, Finset.sum_div, Finset.mul_sum]
  refine Finset.sum_congr rfl fun q hq => ?_
  rw [Finset.sum_div, Finset.mul_sum]
  refine Finset.sum_congr rfl fun s hs => ?_
  have hp' := Finset.mem_Ico.1 hp
  have hq' := Finset.mem_Ico.1 hq
  have hs' := Finset.mem_Ico.1 hs
  dsimp only
  by_cases hc : p + q - s = centred u.n k
  · rw [if_pos hc, if_pos (by rw [hc, sub_self]; exact dvd_zero _)]
    ring
  · rw [if_neg hc, if_neg (not_dvd_of_abs_lt (by omega) (by omega) (by omega))]
    ring

/-- Non-vacuity: an odd and an even number of modes. -/
example : (⟨3, fun k => (k : ℂ)⟩ : Vec ℂ).n = 3 ∧ 3 ≤ (⟨3, fun k => (k : ℂ)⟩ : Vec ℂ).n ∧ (⟨3, fun k => (k : ℂ)⟩ : Vec ℂ).n % 2 = 1 ∧
    (⟨4, fun k => (k : ℂ)⟩ : Vec ℂ).n ≠ 0 ∧ (⟨4, fun k => (k : ℂ)⟩ : Vec ℂ).n % 2 = 0 := by
  refine ⟨rfl, ?_, rfl, ?_, rfl⟩ <;> decide

end JaxCfd
