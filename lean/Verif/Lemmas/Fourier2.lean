import Verif.Lemmas.SpectralUtils
import Verif.Model.SpectralEquations

/-!
# Two-dimensional real Fourier transforms
-/

namespace JaxCfd

/-- `exp(2πi (p j / N + q l / M))` -/
noncomputable def wave2 (N M : ℕ) (p j : ℤ × ℤ) : ℂ := wave N p.1 j.1 * wave M p.2 j.2

theorem wave2_add (N M : ℕ) (p q j : ℤ × ℤ) : wave2 N M (p + q) j = wave2 N M p j * wave2 N M q j := by
  unfold wave2
  rw [Prod.fst_add, Prod.snd_add, ← wave_mul, ← wave_mul]
  ring

theorem wave2_neg (N M : ℕ) (p j : ℤ × ℤ) : wave2 N M (-p) j = (starRingEnd ℂ) (wave2 N M p j) := by
  unfold wave2
  rw [Prod.fst_neg, Prod.snd_neg, wave_neg, wave_neg, map_mul]

/-- The points of an `N × M` grid. -/
noncomputable def points (N M : ℕ) : Finset (ℤ × ℤ) := Finset.Ico (0 : ℤ) N ×ˢ Finset.Ico (0 : ℤ) M

theorem sum_wave2 {N M : ℕ} (hN : N ≠ 0) (hM : M ≠ 0) (p : ℤ × ℤ) :
    ∑ j ∈ points N M, wave2 N M p j = if (N : ℤ) ∣ p.1 ∧ (M : ℤ) ∣ p.2 then (N : ℂ) * M else 0 := by
  unfold points wave2
  rw [Finset.sum_product]
  simp only [← Finset.mul_sum]
  rw [← Finset.sum_mul, sum_wave hN, sum_wave hM]
  by_cases h1 : (N : ℤ) ∣ p.1 <;> by_cases h2 : (M : ℤ) ∣ p.2 <;> simp [h1, h2]

/-- A one-dimensional wave is `N`-periodic in its wavenumber. -/
theorem wave_period {N : ℕ} {p q : ℤ} (h : (N : ℤ) ∣ p - q) (j : ℤ) : wave N p j = wave N q j := by
  obtain ⟨t, ht⟩ := h
  have hp : p = q + N * t := by omega
  by_cases hN : N = 0
  · subst hN
    simp at ht
    rw [show p = q by omega]
  rw [hp, ← wave_mul]
  have : wave N (N * t) j = 1 := by
    unfold wave
    rw [Complex.exp_eq_one_iff]
    refine ⟨t * j, ?_⟩
    have : (N : ℂ) ≠ 0 := by exact_mod_cast hN
    push_cast
    field_simp
  rw [this, mul_one]

/-- The weight of column `c` of a half spectrum. -/
noncomputable def colWeight (M : ℕ) (c : ℤ) : ℝ := if c = 0 ∨ 2 * c = M then 1 else 2

theorem update_zero (i : Idx 2) (j : ℤ) : Function.update i 0 j = ![j, i 1] := by
  funext b
  fin_cases b <;> rfl

theorem update_one (i : Idx 2) (j : ℤ) : Function.update i 1 j = ![i 0, j] := by
  funext b
  fin_cases b <;> rfl

theorem irfftn2_shape {N M : ℕ} (hM : M % 2 = 0) {x : NArr 2 ℂ} (hx : x.shape = ![N, M / 2 + 1]) :
    (irfftn (k := 1) x).shape = ![N, M] := by
  show Function.update x.shape 1 (2 * (x.shape 1 - 1)) = _
  rw [hx]
  funext b
  fin_cases b
  · rfl
  · show 2 * (M / 2 + 1 - 1) = M
    omega

/-- `irfftn` of a half spectrum in two dimensions, for an even last axis. -/
theorem irfftn2 {N M : ℕ} (hM : M % 2 = 0) (h0 : M ≠ 0) {x : NArr 2 ℂ} (hx : x.shape = ![N, M / 2 + 1]) (i : Idx 2) (hi : 0 ≤ i 1) :
    (irfftn (k := 1) x).data i =
      (∑ r ∈ Finset.Ico (0 : ℤ) N, ∑ c ∈ Finset.Icc (0 : ℤ) (M / 2 : ℕ),
        colWeight M c * x.data ![r, c] * wave2 N M (r, c) (i 0, i 1)).re / (N * M) := by
  have hn : 2 * (x.shape 1 - 1) = M := by
    rw [hx]
    show 2 * (M / 2 + 1 - 1) = M
    omega
  have hN : x.shape 0 = N := by rw [hx]; rfl
  have hM' : (M : ℂ) ≠ 0 := by exact_mod_cast h0
  -- the transform along axis 0
  have hY : ∀ j : ℤ, ∀ i0 : ℤ, axisOp (x.shape 0) 0 (ifftKernel (x.shape 0)) x.data ![i0, j] =
      (∑ r ∈ Finset.Ico (0 : ℤ) N, x.data ![r, j] * wave N r i0) / N := by
    intro j i0
    unfold axisOp
    rw [hN, Finset.sum_div]
    refine Finset.sum_congr rfl fun r _ => ?_
    rw [update_zero]
    show x.data ![r, j] * (Complex.exp _ / N) = _
    unfold wave
    exact (mul_div_assoc _ _ _).symm
  set Y := axisOp (x.shape 0) 0 (ifftKernel (x.shape 0)) x.data with hYdef
  have hdata : (irfftn (k := 1) x).data i =
      ((Y (Function.update i 1 0)).re +
        (∑ j ∈ Finset.Ico (1 : ℤ) ((2 * (x.shape 1 - 1) / 2 : ℕ) : ℤ), 2 * ((Y (Function.update i 1 j)) *
          Complex.exp (2 * Real.pi * Complex.I * j * i 1 / ((2 * (x.shape 1 - 1) : ℕ) : ℂ))).re) +
        ((Y (Function.update i 1 ((2 * (x.shape 1 - 1) / 2 : ℕ) : ℤ))).re * (-1) ^ (i 1).toNat)) / ((2 * (x.shape 1 - 1) : ℕ) : ℝ) := rfl
  rw [hdata, hn]
  simp only [update_one]
  have hlast : wave M ((M / 2 : ℕ) : ℤ) (i 1) = (((-1) ^ (i 1).toNat : ℝ) : ℂ) := by
    obtain ⟨m, hm⟩ := Int.eq_ofNat_of_zero_le hi
    rw [hm, Int.toNat_natCast]
    have h2 : (2 : ℂ) * (M / 2 : ℕ) = M := by
      have : 2 * (M / 2) = M := by omega
      exact_mod_cast this
    have e : wave M ((M / 2 : ℕ) : ℤ) (m : ℤ) = Complex.exp (Real.pi * Complex.I) ^ m := by
      generalize M / 2 = h at h2
      unfold wave
      rw [← Complex.exp_nat_mul]
      congr 1
      rw [div_eq_iff hM']
      push_cast
      linear_combination (Real.pi * Complex.I * m : ℂ) * h2
    rw [e, Complex.exp_pi_mul_I]
    push_cast
    rfl
  have hre : ∀ c : ℤ, (∑ r ∈ Finset.Ico (0 : ℤ) N, colWeight M c * x.data ![r, c] * wave2 N M (r, c) (i 0, i 1)) =
      colWeight M c * (N * Y ![i 0, c]) * wave M c (i 1) := by
    intro c
    rw [hY]
    by_cases hN0 : N = 0
    · subst hN0; simp
    have : (N : ℂ) ≠ 0 := by exact_mod_cast hN0
    rw [mul_div_cancel₀ _ this, Finset.mul_sum, Finset.sum_mul]
    refine Finset.sum_congr rfl fun r _ => ?_
    unfold wave2
    ring
  have hsplit : ∀ f : ℤ → ℂ, ∑ c ∈ Finset.Icc (0 : ℤ) (M / 2 : ℕ), f c =
      f 0 + ∑ c ∈ Finset.Ico (1 : ℤ) (M / 2 : ℕ), f c + f (M / 2 : ℕ) := by
    intro f
    have e : Finset.Icc (0 : ℤ) (M / 2 : ℕ) = insert 0 (insert ((M / 2 : ℕ) : ℤ) (Finset.Ico (1 : ℤ) (M / 2 : ℕ))) := by
      ext c
      simp only [Finset.mem_Icc, Finset.mem_insert, Finset.mem_Ico]
      omega
    rw [e, Finset.sum_insert (by simp only [Finset.mem_insert, Finset.mem_Ico]; omega), Finset.sum_insert (by simp)]
    ring
  rw [Finset.sum_comm, Finset.sum_congr rfl fun c _ => hre c, hsplit]
  have w0 : colWeight M 0 = 1 := if_pos (Or.inl rfl)
  have w1 : colWeight M ((M / 2 : ℕ) : ℤ) = 1 := if_pos (Or.inr (by omega))
  rw [w0, w1, hlast, wave_zero]
  by_cases hN0 : N = 0
  · have hz : ∀ j, Y ![i 0, j] = 0 := fun j => by rw [hY, hN0]; simp
    simp [hz]
  have hN' : (N : ℝ) ≠ 0 := by exact_mod_cast hN0
  have hM'' : (M : ℝ) ≠ 0 := by exact_mod_cast h0
  have hmid : (∑ c ∈ Finset.Ico (1 : ℤ) (M / 2 : ℕ), (colWeight M c : ℂ) * (N * Y ![i 0, c]) * wave M c (i 1)) =
      ((N : ℝ) : ℂ) * ∑ c ∈ Finset.Ico (1 : ℤ) (M / 2 : ℕ), ((2 : ℝ) : ℂ) * (Y ![i 0, c] * wave M c (i 1)) := by
    rw [Finset.mul_sum]
    refine Finset.sum_congr rfl fun c hc => ?_
    have hc := Finset.mem_Ico.1 hc
    have : colWeight M c = 2 := if_neg (by omega)
    rw [this]
    push_cast
    ring
  rw [hmid, Complex.add_re, Complex.add_re, Complex.re_ofReal_mul, Complex.re_sum]
  simp only [Complex.re_ofReal_mul]
  have e1 : (((1 : ℝ) : ℂ) * (N * Y ![i 0, 0]) * 1).re = N * (Y ![i 0, 0]).re := by
    rw [Complex.ofReal_one, one_mul, mul_one, ← Complex.ofReal_natCast, Complex.re_ofReal_mul]
  have e2 : (((1 : ℝ) : ℂ) * (N * Y ![i 0, (M / 2 : ℕ)]) * (((-1) ^ (i 1).toNat : ℝ) : ℂ)).re =
      N * ((Y ![i 0, (M / 2 : ℕ)]).re * (-1) ^ (i 1).toNat) := by
    rw [Complex.ofReal_one, one_mul, Complex.re_mul_ofReal, ← Complex.ofReal_natCast, Complex.re_ofReal_mul]
    ring
  rw [e1, e2]
  have hw : ∀ j : ℤ, Complex.exp (2 * Real.pi * Complex.I * j * i 1 / M) = wave M j (i 1) := fun _ => rfl
  simp only [hw]
  field_simp

theorem rfftn2_shape {N M : ℕ} {x : NArr 2 ℝ} (hx : x.shape = ![N, M]) : (rfftn (k := 1) x).shape = ![N, M / 2 + 1] := by
  show Function.update x.shape 1 (x.shape 1 / 2 + 1) = _
  rw [hx]
  funext b
  fin_cases b <;> rfl

/-- `rfftn` in two dimensions. -/
theorem rfftn2 {N M : ℕ} {x : NArr 2 ℝ} (hx : x.shape = ![N, M]) (i : Idx 2) :
    (rfftn (k := 1) x).data i = ∑ j ∈ points N M, (x.data ![j.1, j.2] : ℂ) * (starRingEnd ℂ) (wave2 N M (i 0, i 1) j) := by
  have h : (rfftn (k := 1) x).data i = axisOp (x.shape 1) 1 (fftKernel (x.shape 1))
      (axisOp (x.shape 0) 0 (fftKernel (x.shape 0)) fun i => ((x.data i : ℝ) : ℂ)) i := rfl
  have h0 : x.shape 0 = N := by rw [hx]; rfl
  have h1 : x.shape 1 = M := by rw [hx]; rfl
  rw [h, h0, h1]
  unfold axisOp points wave2
  rw [Finset.sum_product_right]
  refine Finset.sum_congr rfl fun l _ => ?_
  rw [Finset.sum_mul]
  refine Finset.sum_congr rfl fun j _ => ?_
  have e := fun (M : ℕ) (p j : ℤ) => wave_mul_fft M 0 p j
  simp only [wave_zero, one_mul, zero_sub, wave_neg] at e
  rw [update_one, update_zero, e, e, map_mul]
  simp only [Matrix.cons_val_zero, Matrix.cons_val_one]
  ring

end JaxCfd
