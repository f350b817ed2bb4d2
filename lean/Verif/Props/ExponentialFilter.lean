import Verif.Model.SpectralForcings
import Verif.Lemmas.Parseval
import Verif.Lemmas.Rfft
import Verif.Props.Filters
import Mathlib.Analysis.SpecialFunctions.Pow.Real

/-!
# C64: the exponential smoothing filter
-/

namespace JaxCfd

/-- The squared frequency of mode `k`, in cycles per grid point, of an `n × n` array. -/
noncomputable def frequencySq (n : ℕ) (k : Idx 2) : ℝ := ((centred n (k 0) : ℝ) / n) ^ 2 + ((centred n (k 1) : ℝ) / n) ^ 2

theorem frequencySq_nonneg (n : ℕ) (k : Idx 2) : 0 ≤ frequencySq n k := by unfold frequencySq; positivity

theorem frequencySq_zero (n : ℕ) (hn : n ≠ 0) : frequencySq n 0 = 0 := by
  have : centred n 0 = 0 := (centred_eq_zero le_rfl (by omega)).2 rfl
  simp [frequencySq, this]

theorem frequencySq_HSym {n : ℕ} (hn : n ≠ 0) (f : ℝ → ℝ) : HSym (fun _ : Fin 2 => n) Finset.univ fun k => ((f (frequencySq n k) : ℝ) : ℂ) := by
  constructor
  · intro k
    rw [Complex.conj_ofReal]
    have : frequencySq n (negOn Finset.univ k) = frequencySq n k := by
      have hs : ∀ j : ℤ, ((centred n (-j) : ℤ) : ℝ) ^ 2 = (centred n j : ℝ) ^ 2 := fun j => by exact_mod_cast centred_neg_sq n hn j
      have e : ∀ a, negOn Finset.univ k a = -k a := fun a => by simp [negOn]
      unfold frequencySq
      rw [e, e, div_pow, div_pow, hs, hs, div_pow, div_pow]
    simp only [this]
  · intro a _ k
    have : frequencySq n (Function.update k a (k a + n)) = frequencySq n k := by
      unfold frequencySq
      fin_cases a
      · simp only [Fin.zero_eta, Function.update_self]
        rw [JaxCfd.centred_add, Function.update_of_ne (by decide)]
      · simp only [Fin.mk_one, Function.update_self]
        rw [JaxCfd.centred_add, Function.update_of_ne (by decide)]
    simp only [this]

theorem gain_eq {alpha : ℝ} (ha : 0 < alpha) (order : ℕ) {n : ℕ} (he : n % 2 = 0) (hn : n ≠ 0) {i : Idx 2} (h0 : 0 ≤ i 0) (h1 : i 0 < n)
    (h2 : 0 ≤ i 1) (h3 : i 1 ≤ (n / 2 : ℕ)) : exponentialGain alpha order n (i 0) (i 1) = alpha ^ (frequencySq n i ^ order) := by
  unfold exponentialGain
  have e1 : fftfreq n 1 (i 0) = (centred n (i 0) : ℝ) / n := by
    have := centred_fftfreq h0 h1
    unfold fftfreq
    rw [this, mul_one]
  have e2 : rfftfreq n 1 (i 1) ^ 2 = ((centred n (i 1) : ℝ) / n) ^ 2 := by
    unfold rfftfreq
    rw [mul_one, div_pow, div_pow]
    congr 1
    rcases lt_or_ge (2 * i 1) n with h | h
    · have : centred n (i 1) = i 1 := by unfold centred; rw [Int.emod_eq_of_lt (by omega) (by omega)]; ring
      rw [this]
    · have hh : i 1 = (n / 2 : ℕ) := by omega
      have : centred n (i 1) = -i 1 := by
        unfold centred
        rw [hh, show ((n / 2 : ℕ) : ℤ) + (n / 2 : ℕ) = n by omega, Int.emod_self]; ring
      rw [this]; push_cast; ring
  dsimp only
  rw [e1, e2, pow_mul, Real.sq_sqrt (by positivity), Real.rpow_def_of_pos ha]
  unfold frequencySq
  congr 1
  ring

/-- **C64.** `exponential_filter` of a square array with an even number of points per axis multiplies the Fourier coefficient of every
mode by `alpha ^ (|f| ^ (2 * order))`, `f` being the frequency of the mode in cycles per grid point, and returns an array of the same
shape. -/
theorem C64_exponential_filter {alpha : ℝ} (ha : 0 < alpha) (order : ℕ) {n : ℕ} (he : n % 2 = 0) (hn : n ≠ 0) (s : NArr 2 ℝ) (hs : s.shape = fun _ => n) :
    ∃ y, exponentialFilter alpha order s = .ok y ∧ y.shape = s.shape ∧ ∀ k : Idx 2, InR s.shape k →
      spectrum y k = ((alpha ^ (frequencySq n k ^ order) : ℝ) : ℂ) * spectrum s k := by
  obtain ⟨sh, xd⟩ := s
  simp only at hs
  subst hs
  have hsh : (rfftn (k := 1) ⟨fun _ => n, xd⟩).shape = ![n, n / 2 + 1] := by
    rw [rfftn_shape']
    funext b
    fin_cases b <;> rfl
  unfold exponentialFilter
  rw [if_neg (by dsimp only; omega)]
  dsimp only
  rw [if_neg (by rw [hsh]; simp)]
  refine ⟨_, rfl, ?_⟩
  have hy := (frequencySq_HSym hn fun f => alpha ^ (f ^ order)).mul (hsym_fft (k := 1) (fun _ => n) xd)
  obtain ⟨h1, h2⟩ := irfftn_hermitian (k := 1) (fun _ => n) hy he
    ⟨(rfftn (k := 1) ⟨fun _ => n, xd⟩).shape, fun i => (exponentialGain alpha order n (i 0) (i 1) : ℂ) * (rfftn (k := 1) ⟨fun _ => n, xd⟩).data i⟩
    (rfftn_shape' _) (fun i hi => by
      dsimp only at hi
      rw [hsh] at hi
      have a0 := hi 0
      have a1 := hi 1
      simp only [Matrix.cons_val_zero, Matrix.cons_val_one] at a0 a1
      dsimp only
      rw [gain_eq ha order he hn a0.1 a0.2 a1.1 (by push_cast at a1 ⊢; omega)]
      rfl)
  refine ⟨h1, fun k hk => ?_⟩
  unfold spectrum
  rw [fftn_eq, fftn_eq]
  simp only [NArr.map, h1]
  refine (axesOp_congr (s := fun _ => n) (fun a => fftKernel n) (List.finRange 2) h2 k hk).trans ?_
  exact axesOp_inverse (ifft_inverse fun _ : Fin 2 => n) _ (List.nodup_finRange _) _ k hk

theorem spectrum_zero {d : ℕ} (x : NArr d ℝ) : spectrum x 0 = (x.sum : ℂ) := by
  unfold spectrum
  rw [fftn_zero]
  unfold NArr.sum
  push_cast
  rfl

theorem inR_zero {d : ℕ} {s : Fin d → ℕ} (h : ∀ a, s a ≠ 0) : InR s 0 := fun a => ⟨le_rfl, by have := h a; simp; omega⟩

/-- **C64.** The filter does not change the sum of the array (for `order ≥ 1`). -/
theorem C64_exponential_filter_mean {alpha : ℝ} (ha : 0 < alpha) (order : ℕ) (ho : order ≠ 0) {n : ℕ} (he : n % 2 = 0) (hn : n ≠ 0)
    (s y : NArr 2 ℝ) (hs : s.shape = fun _ => n) (hy : exponentialFilter alpha order s = .ok y) : y.sum = s.sum := by
  obtain ⟨y', hy', _, hk⟩ := C64_exponential_filter ha order he hn s hs
  rw [hy'] at hy
  injection hy with hy
  subst hy
  have h := hk 0 (inR_zero (by rw [hs]; exact fun _ => hn))
  rw [spectrum_zero, spectrum_zero, frequencySq_zero n hn, zero_pow ho, Real.rpow_zero, Complex.ofReal_one, one_mul] at h
  exact_mod_cast h

/-- The sum of the squares of the entries. -/
noncomputable def sumSq {d : ℕ} (x : NArr d ℝ) : ℝ := ∑ i ∈ box x.shape, x.data i ^ 2

theorem sumSq_spectrum {d : ℕ} (x : NArr d ℝ) : sumSq x = (∑ k ∈ box x.shape, ‖spectrum x k‖ ^ 2) / ∏ a, (x.shape a : ℝ) := by
  have h := parseval x.shape fun i => (x.data i : ℂ)
  unfold sumSq spectrum
  rw [fftn_eq]
  refine Eq.trans ?_ h
  exact Finset.sum_congr rfl fun i _ => by rw [Complex.norm_real, Real.norm_eq_abs, sq_abs]

/-- **C64.** The filter never increases the sum of squares, for every `0 < alpha ≤ 1`. -/
theorem C64_exponential_filter_contracts {alpha : ℝ} (ha : 0 < alpha) (h1 : alpha ≤ 1) (order : ℕ) {n : ℕ} (he : n % 2 = 0) (hn : n ≠ 0)
    (s y : NArr 2 ℝ) (hs : s.shape = fun _ => n) (hy : exponentialFilter alpha order s = .ok y) : sumSq y ≤ sumSq s := by
  obtain ⟨y', hy', hys, hk⟩ := C64_exponential_filter ha order he hn s hs
  rw [hy'] at hy
  injection hy with hy
  subst hy
  rw [sumSq_spectrum, sumSq_spectrum, hys]
  refine div_le_div_of_nonneg_right (Finset.sum_le_sum fun k hkb => ?_) (by positivity)
  rw [hk k (inr_of_mem_box hkb), norm_mul, Complex.norm_real, Real.norm_eq_abs, abs_of_pos (Real.rpow_pos_of_pos ha _), mul_pow]
  have : alpha ^ (frequencySq n k ^ order) ≤ 1 := Real.rpow_le_one ha.le h1 (pow_nonneg (frequencySq_nonneg n k) _)
  have h0 : 0 ≤ alpha ^ (frequencySq n k ^ order) := (Real.rpow_pos_of_pos ha _).le
  nlinarith [sq_nonneg ‖spectrum s k‖, pow_le_one₀ h0 this (n := 2)]

/-- **C64.** Filtering with `beta` and then with `alpha` is filtering with `alpha * beta`; `alpha = 1` changes nothing. -/
theorem C64_exponential_filter_compose {alpha beta : ℝ} (ha : 0 < alpha) (hb : 0 < beta) (order : ℕ) {n : ℕ} (he : n % 2 = 0) (hn : n ≠ 0)
    (s : NArr 2 ℝ) (hs : s.shape = fun _ => n) :
    (∃ y z w, exponentialFilter beta order s = .ok y ∧ exponentialFilter alpha order y = .ok z ∧
      exponentialFilter (alpha * beta) order s = .ok w ∧ z.Eqv w) ∧
    ∃ y, exponentialFilter 1 order s = .ok y ∧ y.Eqv s := by
  constructor
  · obtain ⟨y, hy, hys, hyk⟩ := C64_exponential_filter hb order he hn s hs
    obtain ⟨z, hz, hzs, hzk⟩ := C64_exponential_filter ha order he hn y (hys.trans hs)
    obtain ⟨w, hw, hws, hwk⟩ := C64_exponential_filter (mul_pos ha hb) order he hn s hs
    refine ⟨y, z, w, hy, hz, hw, (hzs.trans hys).trans hws.symm, fun i hi =>
      spectrum_injective (s := s.shape) (hzs.trans hys) hws (fun k hk => ?_) i (by rw [← hys, ← hzs]; exact hi)⟩
    rw [hzk k (by rw [hys]; exact hk), hwk k hk, hyk k hk, Real.mul_rpow ha.le hb.le]
    push_cast
    ring
  · obtain ⟨y, hy, hys, hyk⟩ := C64_exponential_filter one_pos order he hn s hs
    refine ⟨y, hy, hys, fun i hi => spectrum_injective (s := s.shape) hys rfl (fun k hk => ?_) i (by rw [← hys]; exact hi)⟩
    rw [hyk k hk, Real.one_rpow]
    simp

/-- The findings about `exponential_filter`: arrays with different sizes (up to an odd extra column) are rejected, and an odd number of
columns loses one point. -/
theorem C64_exponential_filter_shape_defect (alpha : ℝ) (order : ℕ) (s : NArr 2 ℝ) (h0 : 2 ≤ s.shape 0) (h1 : 2 ≤ s.shape 1) :
    (s.shape 0 / 2 ≠ s.shape 1 / 2 → exponentialFilter alpha order s = .error .type) ∧
    (s.shape 0 / 2 = s.shape 1 / 2 → s.shape 1 % 2 = 1 → ∃ y, exponentialFilter alpha order s = .ok y ∧ y.shape = ![s.shape 0, s.shape 1 - 1]) := by
  have hsh : (rfftn (k := 1) s).shape = ![s.shape 0, s.shape 1 / 2 + 1] := by
    rw [rfftn_shape']
    funext b
    fin_cases b <;> rfl
  unfold exponentialFilter
  rw [if_neg (by omega)]
  dsimp only
  rw [hsh]
  constructor
  · intro h
    rw [if_pos]
    intro e
    have := congrFun e 1
    simp only [Matrix.cons_val_one] at this
    have : s.shape 1 / 2 + 1 = s.shape 0 / 2 + 1 := this
    omega
  · intro h ho
    rw [if_neg (by rw [h]; simp)]
    refine ⟨_, rfl, ?_⟩
    funext b
    fin_cases b
    · rfl
    · show 2 * (s.shape 1 / 2 + 1 - 1) = s.shape 1 - 1
      omega

/-- Non-vacuity: a checkerboard on a 2 × 2 array, its Nyquist mode damped by `10⁻⁶` to the power `(1/2)²`. -/
example : frequencySq 2 ![1, 1] ^ 2 = 1 / 4 ∧ ∃ y, exponentialFilter (1 / 10 ^ 6) 2 ⟨fun _ => 2, fun i => (-1) ^ (i 0 + i 1).toNat⟩ = .ok y ∧ sumSq y ≤ 4 := by
  constructor
  · have : centred 2 1 = -1 := by decide
    simp [frequencySq, this]; norm_num
  · obtain ⟨y, hy, _⟩ := C64_exponential_filter (alpha := 1 / 10 ^ 6) (by norm_num) 2 (n := 2) rfl (by decide) ⟨fun _ => 2, fun i => (-1) ^ (i 0 + i 1).toNat⟩ rfl
    refine ⟨y, hy, (C64_exponential_filter_contracts (by norm_num) (by norm_num) 2 rfl (by decide) _ y rfl hy).trans ?_⟩
    unfold sumSq
    have hc : (box (fun _ : Fin 2 => 2)).card = 4 := by simp [box]
    calc _ ≤ ∑ i ∈ box (fun _ : Fin 2 => 2), (1 : ℝ) := Finset.sum_le_sum fun i _ => by
          dsimp only; rw [← pow_mul, mul_comm, pow_mul]; simp
      _ = 4 := by rw [Finset.sum_const, hc]; norm_num

end JaxCfd
