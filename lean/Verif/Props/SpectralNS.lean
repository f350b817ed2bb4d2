import Verif.Lemmas.Fourier2
import Verif.Props.SpectralVelocity
import Verif.Props.SpectralEquations

/-!
# C48: the advection of `NavierStokes2D`
-/

namespace JaxCfd

/-- The wavenumbers between `-P` and `P` along the first axis and `-Q` and `Q` along the second. -/
noncomputable def band (P Q : ℕ) : Finset (ℤ × ℤ) := Finset.Icc (-(P : ℤ)) P ×ˢ Finset.Icc (-(Q : ℤ)) Q

theorem mem_band {P Q : ℕ} {p : ℤ × ℤ} : p ∈ band P Q ↔ (-(P : ℤ) ≤ p.1 ∧ p.1 ≤ P) ∧ -(Q : ℤ) ≤ p.2 ∧ p.2 ≤ Q := by
  unfold band
  rw [Finset.mem_product, Finset.mem_Icc, Finset.mem_Icc]

theorem neg_mem_band {P Q : ℕ} {p : ℤ × ℤ} : -p ∈ band P Q ↔ p ∈ band P Q := by
  rw [mem_band, mem_band, Prod.fst_neg, Prod.snd_neg]
  omega

theorem sum_band_neg {P Q : ℕ} (t : ℤ × ℤ → ℂ) : ∑ p ∈ band P Q, t (-p) = ∑ p ∈ band P Q, t p :=
  Finset.sum_nbij' (fun p => -p) (fun p => -p) (fun _ h => neg_mem_band.2 h) (fun _ h => neg_mem_band.2 h) (by simp) (by simp) (by simp)

/-- Half of a hermitian sum. -/
theorem half_sum {P Q M : ℕ} (hQ : 2 * Q < M) (t : ℤ × ℤ → ℂ) (ht : ∀ p, t (-p) = (starRingEnd ℂ) (t p)) :
    ((∑ p ∈ Finset.Icc (-(P : ℤ)) P, ∑ c ∈ Finset.Icc (0 : ℤ) Q, (colWeight M c : ℂ) * t (p, c)).re : ℂ) = ∑ p ∈ band P Q, t p := by
  have hconj : (starRingEnd ℂ) (∑ p ∈ Finset.Icc (-(P : ℤ)) P, ∑ c ∈ Finset.Icc (0 : ℤ) Q, (colWeight M c : ℂ) * t (p, c)) =
      ∑ p ∈ Finset.Icc (-(P : ℤ)) P, ∑ c ∈ Finset.Icc (-(Q : ℤ)) 0, (colWeight M (-c) : ℂ) * t (p, c) := by
    rw [map_sum]
    refine Finset.sum_nbij' (fun p => -p) (fun p => -p) (by simp; omega) (by simp; omega) (by simp) (by simp) ?_
    intro p _
    rw [map_sum]
    refine Finset.sum_nbij' (fun p => -p) (fun p => -p) (by simp; omega) (by simp; omega) (by simp) (by simp) ?_
    intro c _
    have := ht (p, c)
    rw [Prod.neg_mk] at this
    rw [map_mul, Complex.conj_ofReal, ← this, neg_neg]
  rw [Complex.re_eq_add_conj, hconj, ← Finset.sum_add_distrib, div_eq_iff two_ne_zero]
  unfold band
  rw [Finset.sum_product, Finset.sum_mul]
  refine Finset.sum_congr rfl fun p _ => ?_
  have w0 : colWeight M 0 = 1 := if_pos (Or.inl rfl)
  have e1 : Finset.Icc (0 : ℤ) Q = insert 0 (Finset.Icc (1 : ℤ) Q) := by
    ext c; simp only [Finset.mem_insert, Finset.mem_Icc]; omega
  have e2 : Finset.Icc (-(Q : ℤ)) 0 = insert 0 (Finset.Icc (-(Q : ℤ)) (-1)) := by
    ext c; simp only [Finset.mem_insert, Finset.mem_Icc]; omega
  have e3 : Finset.Icc (-(Q : ℤ)) Q = insert 0 (Finset.Icc (1 : ℤ) Q ∪ Finset.Icc (-(Q : ℤ)) (-1)) := by
    ext c; simp only [Finset.mem_insert, Finset.mem_Icc, Finset.mem_union]; omega
  have hd : Disjoint (Finset.Icc (1 : ℤ) Q) (Finset.Icc (-(Q : ℤ)) (-1)) := by
    rw [Finset.disjoint_left]
    intro c h1 h2
    rw [Finset.mem_Icc] at h1 h2
    omega
  have s1 : ∑ c ∈ Finset.Icc (1 : ℤ) Q, (colWeight M c : ℂ) * t (p, c) = 2 * ∑ c ∈ Finset.Icc (1 : ℤ) Q, t (p, c) := by
    rw [Finset.mul_sum]
    refine Finset.sum_congr rfl fun c hc => ?_
    rw [Finset.mem_Icc] at hc
    have : colWeight M c = 2 := if_neg (by omega)
    rw [this]; push_cast; rfl
  have s2 : ∑ c ∈ Finset.Icc (-(Q : ℤ)) (-1), (colWeight M (-c) : ℂ) * t (p, c) = 2 * ∑ c ∈ Finset.Icc (-(Q : ℤ)) (-1), t (p, c) := by
    rw [Finset.mul_sum]
    refine Finset.sum_congr rfl fun c hc => ?_
    rw [Finset.mem_Icc] at hc
    have : colWeight M (-c) = 2 := if_neg (by omega)
    rw [this]; push_cast; rfl
  rw [e1, e2, e3, Finset.sum_insert (by simp), Finset.sum_insert (by simp), Finset.sum_insert (by simp), Finset.sum_union hd, s1, s2, neg_zero, w0]
  push_cast
  ring

/-- A sum over the rows of a spectrum that vanishes outside the band. -/
theorem sum_rows {N P : ℕ} (hP : 2 * P < N) (f : ℤ → ℤ → ℂ) (hf : ∀ r p : ℤ, 0 ≤ r → r < N → p = centred N r → ¬ (-(P : ℤ) ≤ p ∧ p ≤ P) → f r p = 0) :
    ∑ r ∈ Finset.Ico (0 : ℤ) N, f r (centred N r) = ∑ p ∈ Finset.Icc (-(P : ℤ)) P, f (p % N) p := by
  rw [sum_centred (by omega)]
  symm
  refine Finset.sum_subset (fun p hp => ?_) fun p hp hp' => ?_
  · rw [Finset.mem_Icc] at hp
    rw [Finset.mem_Ico]
    omega
  · rw [Finset.mem_Icc] at hp'
    rw [Finset.mem_Ico] at hp
    refine hf _ _ (Int.emod_nonneg _ (by omega)) (Int.emod_lt_of_pos _ (by omega)) ?_ hp'
    unfold centred
    rw [Int.add_emod, Int.emod_emod_of_dvd _ (dvd_refl _), ← Int.add_emod, Int.emod_eq_of_lt (by omega) (by omega)]
    ring

theorem centred_of_band {N P : ℕ} (hP : 2 * P < N) {p : ℤ} (h : -(P : ℤ) ≤ p ∧ p ≤ P) : centred N (p % N) = p := by
  unfold centred
  rw [Int.add_emod, Int.emod_emod_of_dvd _ (dvd_refl _), ← Int.add_emod, Int.emod_eq_of_lt (by omega) (by omega)]
  ring

/-- `C` is the spectrum of a real field with no content outside the band. -/
structure BandSpectrum (P Q : ℕ) (C : ℤ × ℤ → ℂ) : Prop where
  herm : ∀ p, C (-p) = (starRingEnd ℂ) (C p)
  supp : ∀ p, p ∉ band P Q → C p = 0

/-- The half spectrum `x` represents the full spectrum `C`. -/
def Represents (N M : ℕ) (x : NArr 2 ℂ) (C : ℤ × ℤ → ℂ) : Prop :=
  x.shape = ![N, M / 2 + 1] ∧ ∀ r c : ℤ, 0 ≤ r → r < N → 0 ≤ c → c ≤ (M / 2 : ℕ) → x.data ![r, c] = C (centred N r, c)

/-- Sums over a half spectrum whose summand vanishes outside the band. -/
theorem half_spectrum {N M P Q : ℕ} (hP : 2 * P < N) (hQ : 2 * Q < M) (hM : M % 2 = 0) (f : ℤ → ℤ → ℂ) (t : ℤ × ℤ → ℂ)
    (ht : ∀ p, t (-p) = (starRingEnd ℂ) (t p))
    (hf : ∀ p c : ℤ, -(P : ℤ) ≤ p → p ≤ P → 0 ≤ c → c ≤ Q → f (p % N) c = t (p, c))
    (h0 : ∀ r c : ℤ, 0 ≤ r → r < N → 0 ≤ c → c ≤ (M / 2 : ℕ) → (centred N r, c) ∉ band P Q → f r c = 0) :
    ((∑ r ∈ Finset.Ico (0 : ℤ) N, ∑ c ∈ Finset.Icc (0 : ℤ) (M / 2 : ℕ), (colWeight M c : ℂ) * f r c).re : ℂ) = ∑ p ∈ band P Q, t p := by
  rw [← half_sum hQ t ht]
  congr 2
  rw [sum_rows hP (fun r p => ∑ c ∈ Finset.Icc (0 : ℤ) (M / 2 : ℕ), (colWeight M c : ℂ) * f r c)]
  · refine Finset.sum_congr rfl fun p hp => ?_
    rw [Finset.mem_Icc] at hp
    symm
    refine Finset.sum_subset_zero_on_sdiff (fun c hc => ?_) (fun c hc => ?_) fun c hc => ?_
    · rw [Finset.mem_Icc] at hc ⊢; omega
    · rw [Finset.mem_sdiff, Finset.mem_Icc, Finset.mem_Icc] at hc
      rw [h0 _ _ (Int.emod_nonneg _ (by omega)) (Int.emod_lt_of_pos _ (by omega)) hc.1.1 hc.1.2, mul_zero]
      rw [centred_of_band hP hp, mem_band]
      dsimp only
      omega
    · rw [Finset.mem_Icc] at hc
      rw [hf p c hp.1 hp.2 hc.1 hc.2]
  · intro r p h1 h2 hp hn
    refine Finset.sum_eq_zero fun c hc => ?_
    rw [Finset.mem_Icc] at hc
    rw [h0 r c h1 h2 hc.1 hc.2, mul_zero]
    rw [mem_band, ← hp]
    exact fun h => hn h.1

/-- The inverse transform of the spectrum of a band-limited field: its Fourier series. -/
theorem irfftn_band {N M P Q : ℕ} (hP : 2 * P < N) (hQ : 2 * Q < M) (hM : M % 2 = 0) {C : ℤ × ℤ → ℂ} (hC : BandSpectrum P Q C) {x : NArr 2 ℂ}
    (hx : Represents N M x C) (j : ℤ × ℤ) (hj : 0 ≤ j.2) :
    (((irfftn (k := 1) x).data ![j.1, j.2] : ℝ) : ℂ) = (∑ p ∈ band P Q, C p * wave2 N M p j) / (N * M) := by
  rw [irfftn2 hM (by omega) hx.1 _ hj]
  push_cast
  congr 1
  simp only [mul_assoc]
  refine half_spectrum hP hQ hM (fun r c => x.data ![r, c] * wave2 N M (r, c) j) (fun p => C p * wave2 N M p j) ?_ ?_ ?_
  · intro p
    rw [hC.herm, wave2_neg, map_mul]
  · intro p c h1 h2 h3 h4
    rw [hx.2 _ _ (Int.emod_nonneg _ (by omega)) (Int.emod_lt_of_pos _ (by omega)) h3 (by omega), centred_of_band hP ⟨h1, h2⟩]
    unfold wave2
    rw [wave_period (p := p % N) (q := p) (by
      have := Int.emod_add_mul_ediv p N
      exact ⟨-(p / N), by linarith⟩)]
  · intro r c h1 h2 h3 h4 h5
    rw [hx.2 _ _ h1 h2 h3 h4, hC.supp _ h5, zero_mul]

/-- Pairing a band-limited field with the inverse transform of any spectrum. -/
theorem pair_irfftn {N M P Q : ℕ} (hP : 2 * P < N) (hQ : 2 * Q < M) (hM : M % 2 = 0) {C Z : ℤ × ℤ → ℂ} (hC : BandSpectrum P Q C)
    (hZ : ∀ p, Z (-p) = (starRingEnd ℂ) (Z p)) {y : NArr 2 ℂ} (hy : y.shape = ![N, M / 2 + 1])
    (hyZ : ∀ p c : ℤ, (p, c) ∈ band P Q → 0 ≤ c → y.data ![p % N, c] = Z (p, c)) :
    ∑ j ∈ points N M, (∑ p ∈ band P Q, C p * wave2 N M p j) * (((irfftn (k := 1) y).data ![j.1, j.2] : ℝ) : ℂ) =
      ∑ p ∈ band P Q, Z p * (starRingEnd ℂ) (C p) := by
  have hN0 : (N : ℂ) ≠ 0 := by exact_mod_cast (by omega : N ≠ 0)
  have hM0 : (M : ℂ) ≠ 0 := by exact_mod_cast (by omega : M ≠ 0)
  -- the field is real
  have hreal : ∀ j, ((∑ p ∈ band P Q, C p * wave2 N M p j).re : ℂ) = ∑ p ∈ band P Q, C p * wave2 N M p j := by
    intro j
    rw [Complex.re_eq_add_conj, map_sum, div_eq_iff two_ne_zero, mul_two]
    congr 1
    rw [← sum_band_neg]
    refine Finset.sum_congr rfl fun p _ => ?_
    rw [hC.herm, wave2_neg, ← map_mul, Complex.conj_conj]
  set f : ℤ × ℤ → ℝ := fun j => (∑ p ∈ band P Q, C p * wave2 N M p j).re with hf
  have key : ∑ j ∈ points N M, f j * (irfftn (k := 1) y).data ![j.1, j.2] =
      (∑ r ∈ Finset.Ico (0 : ℤ) N, ∑ c ∈ Finset.Icc (0 : ℤ) (M / 2 : ℕ), (colWeight M c : ℂ) *
        (y.data ![r, c] * ((∑ j ∈ points N M, (f j : ℂ) * wave2 N M (r, c) j) / (N * M)))).re := by
    have e : (∑ r ∈ Finset.Ico (0 : ℤ) N, ∑ c ∈ Finset.Icc (0 : ℤ) (M / 2 : ℕ), (colWeight M c : ℂ) *
        (y.data ![r, c] * ((∑ j ∈ points N M, (f j : ℂ) * wave2 N M (r, c) j) / (N * M)))) =
        ∑ j ∈ points N M, ((f j / (N * M) : ℝ) : ℂ) * ∑ r ∈ Finset.Ico (0 : ℤ) N, ∑ c ∈ Finset.Icc (0 : ℤ) (M / 2 : ℕ),
          (colWeight M c : ℂ) * y.data ![r, c] * wave2 N M (r, c) j := by
      simp only [Finset.mul_sum, Finset.sum_div]
      symm
      rw [Finset.sum_comm]
      refine Finset.sum_congr rfl fun r _ => ?_
      rw [Finset.sum_comm]
      refine Finset.sum_congr rfl fun c _ => Finset.sum_congr rfl fun j _ => ?_
      push_cast
      ring
    rw [e, Complex.re_sum]
    refine Finset.sum_congr rfl fun j hj => ?_
    unfold points at hj
    rw [Finset.mem_product, Finset.mem_Ico, Finset.mem_Ico] at hj
    rw [irfftn2 hM (by omega) hy _ hj.2.1, Complex.re_ofReal_mul]
    simp only [Matrix.cons_val_zero, Matrix.cons_val_one]
    ring
  have hpair : ∀ r c : ℤ, (∑ j ∈ points N M, (f j : ℂ) * wave2 N M (r, c) j) / (N * M) =
      ∑ p ∈ band P Q, if (N : ℤ) ∣ p.1 + r ∧ (M : ℤ) ∣ p.2 + c then C p else 0 := by
    intro r c
    simp only [hf, hreal, Finset.sum_mul]
    rw [Finset.sum_comm, Finset.sum_div]
    refine Finset.sum_congr rfl fun p _ => ?_
    simp only [mul_assoc, ← wave2_add]
    rw [← Finset.mul_sum, sum_wave2 (by omega) (by omega), Prod.fst_add, Prod.snd_add]
    split_ifs
    · field_simp
    · simp
  have hdvd : ∀ p c r : ℤ, 0 ≤ r → r < N → 0 ≤ c → c ≤ (M / 2 : ℕ) → ∀ p' ∈ band P Q,
      ((N : ℤ) ∣ p'.1 + r ∧ (M : ℤ) ∣ p'.2 + c) → p' = (-centred N r, -c) := by
    intro p c r h1 h2 h3 h4 p' hp' ⟨⟨s, hs⟩, ⟨t, ht⟩⟩
    rw [mem_band] at hp'
    have ht0 : t = 0 := by
      have a1 : (M : ℤ) * t < M * 1 := by omega
      have a2 : (M : ℤ) * (-1) < M * t := by omega
      have b1 := lt_of_mul_lt_mul_left a1 (by omega)
      have b2 := lt_of_mul_lt_mul_left a2 (by omega)
      omega
    have hc : centred N r = -p'.1 := by
      rw [← centred_of_band hP (p := -p'.1) (by omega)]
      have e : -p'.1 = r - N * s := by linarith
      rw [e]
      unfold centred
      congr 1
      rw [Int.sub_mul_emod_self_left, Int.emod_add_emod]
    subst ht0
    exact Prod.ext (by dsimp only; omega) (by dsimp only; omega)
  have hpair' : ∀ r c : ℤ, 0 ≤ r → r < N → 0 ≤ c → c ≤ (M / 2 : ℕ) →
      (∑ p ∈ band P Q, if (N : ℤ) ∣ p.1 + r ∧ (M : ℤ) ∣ p.2 + c then C p else 0) = (starRingEnd ℂ) (C (centred N r, c)) := by
    intro r c h1 h2 h3 h4
    rw [← hC.herm, Prod.neg_mk]
    by_cases hb : (-centred N r, -c) ∈ band P Q
    · rw [Finset.sum_eq_single_of_mem _ hb]
      · rw [if_pos]
        refine ⟨?_, by simp⟩
        dsimp only
        have := Int.emod_emod_of_dvd r (dvd_refl (N : ℤ))
        have h := centred_emod (n := N) r
        have := Int.emod_emod_of_dvd r (dvd_refl (N : ℤ))
        rw [neg_add_eq_sub]
        exact Int.dvd_of_emod_eq_zero (Int.emod_eq_emod_iff_emod_sub_eq_zero.1 h.symm)
      · intro p hp hne
        rw [if_neg fun h => hne (hdvd 0 c r h1 h2 h3 h4 p hp h)]
    · rw [hC.supp _ hb]
      refine Finset.sum_eq_zero fun p hp => if_neg fun h => hb ?_
      rw [← hdvd 0 c r h1 h2 h3 h4 p hp h]
      exact hp
  have hlhs : ∑ j ∈ points N M, (∑ p ∈ band P Q, C p * wave2 N M p j) * (((irfftn (k := 1) y).data ![j.1, j.2] : ℝ) : ℂ) =
      ((∑ j ∈ points N M, f j * (irfftn (k := 1) y).data ![j.1, j.2] : ℝ) : ℂ) := by
    push_cast
    exact Finset.sum_congr rfl fun j _ => by rw [← hreal]
  rw [hlhs, key]
  refine half_spectrum hP hQ hM _ (fun p => Z p * (starRingEnd ℂ) (C p)) ?_ ?_ ?_
  · intro p
    rw [hZ, hC.herm, map_mul]
  · intro p c h1 h2 h3 h4
    rw [hpair, hpair' _ _ (Int.emod_nonneg _ (by omega)) (Int.emod_lt_of_pos _ (by omega)) h3 (by omega), centred_of_band hP ⟨h1, h2⟩,
      hyZ p c (mem_band.2 ⟨⟨h1, h2⟩, by dsimp only; omega⟩) h3]
  · intro r c h1 h2 h3 h4 h5
    rw [hpair, hpair' r c h1 h2 h3 h4, hC.supp _ h5, map_zero, mul_zero]

/-! ### The specification: advection of a Fourier series -/

/-- The angular wavenumber `2π p / L` of mode `p` along the first axis, a domain of length `L`. -/
noncomputable def waveX (g : Grid 2 ℝ) (p : ℤ × ℤ) : ℝ := 2 * Real.pi * p.1 / ((g.domain 0).2 - (g.domain 0).1)

/-- The angular wavenumber along the second axis. -/
noncomputable def waveY (g : Grid 2 ℝ) (p : ℤ × ℤ) : ℝ := 2 * Real.pi * p.2 / ((g.domain 1).2 - (g.domain 1).1)

/-- The stream function of the vorticity with Fourier coefficients `W`: `-Δψ = ω`. -/
noncomputable def streamCoef (g : Grid 2 ℝ) (W : ℤ × ℤ → ℂ) (p : ℤ × ℤ) : ℂ := W p / ((waveX g p ^ 2 + waveY g p ^ 2 : ℝ) : ℂ)

/-- The velocity `(∂ψ/∂y, -∂ψ/∂x)`. -/
noncomputable def velXCoef (g : Grid 2 ℝ) (W : ℤ × ℤ → ℂ) (p : ℤ × ℤ) : ℂ := Complex.I * waveY g p * streamCoef g W p

noncomputable def velYCoef (g : Grid 2 ℝ) (W : ℤ × ℤ → ℂ) (p : ℤ × ℤ) : ℂ := -(Complex.I * waveX g p * streamCoef g W p)

/-- Mode `k` of `-(u ∂ω/∂x + v ∂ω/∂y)`, for the Fourier series `ω = Σ_{p ∈ S} W p exp(i ..)` and its velocity. -/
noncomputable def advectionCoef (g : Grid 2 ℝ) (S : Finset (ℤ × ℤ)) (W : ℤ × ℤ → ℂ) (k : ℤ × ℤ) : ℂ :=
  -∑ a ∈ S, ∑ b ∈ S, if a + b = k then
    velXCoef g W a * (Complex.I * waveX g b * W b) + velYCoef g W a * (Complex.I * waveY g b * W b) else 0

/-! ### Proofs -/

theorem waveX_neg (g : Grid 2 ℝ) (p : ℤ × ℤ) : waveX g (-p) = -waveX g p := by
  unfold waveX
  rw [Prod.fst_neg]
  push_cast
  ring

theorem waveY_neg (g : Grid 2 ℝ) (p : ℤ × ℤ) : waveY g (-p) = -waveY g p := by
  unfold waveY
  rw [Prod.snd_neg]
  push_cast
  ring

theorem waveX_add (g : Grid 2 ℝ) (p q : ℤ × ℤ) : waveX g (p + q) = waveX g p + waveX g q := by
  unfold waveX
  rw [Prod.fst_add]
  push_cast
  ring

theorem waveY_add (g : Grid 2 ℝ) (p q : ℤ × ℤ) : waveY g (p + q) = waveY g p + waveY g q := by
  unfold waveY
  rw [Prod.snd_add]
  push_cast
  ring

/-- **C46** `fftfreq(n, d)[k]` is the wavenumber `m / (n d)` of the integer `m` congruent to `k` modulo `n` with `-n/2 ≤ m < n/2`. -/
theorem C46_fftfreq (n : ℕ) (d : ℝ) (k : ℤ) (h0 : 0 ≤ k) (h1 : k < n) :
    ∃ m : ℤ, fftfreq n d k = m / (n * d) ∧ (n : ℤ) ∣ m - k ∧ -(n : ℤ) ≤ 2 * m ∧ 2 * m < n := by
  unfold fftfreq
  by_cases h : k ≤ (n - 1 : ℤ) / 2
  · rw [if_pos h]
    exact ⟨k, rfl, by simp, by omega, by omega⟩
  · rw [if_neg h]
    exact ⟨k - n, by push_cast; rfl, ⟨-1, by ring⟩, by omega, by omega⟩

theorem fftfreq_centred (n : ℕ) (d : ℝ) (k : ℤ) (h0 : 0 ≤ k) (h1 : k < n) : fftfreq n d k = centred n k / (n * d) := by
  obtain ⟨m, hm, ⟨t, ht⟩, h2, h3⟩ := C46_fftfreq n d k h0 h1
  rw [hm]
  congr 2
  unfold centred
  have e : k + (n / 2 : ℕ) = (m + (n / 2 : ℕ)) - n * t := by linarith
  rw [e, Int.sub_mul_emod_self_left, Int.emod_eq_of_lt (by omega) (by omega)]
  ring

theorem Grid.Proper.size_step {g : Grid 2 ℝ} (hg : g.Proper) (a : Fin 2) : (g.shape a : ℝ) * g.step a = (g.domain a).2 - (g.domain a).1 := by
  have : (g.shape a : ℝ) ≠ 0 := by exact_mod_cast (hg a).1
  unfold Grid.step
  field_simp

theorem deriv_x {g : Grid 2 ℝ} (hg : g.Proper) (r c : ℤ) (h0 : 0 ≤ r) (h1 : r < g.shape 0) :
    twoPiI * (((rfftMesh g r c).1 : ℝ) : ℂ) = Complex.I * waveX g (centred (g.shape 0) r, c) := by
  unfold rfftMesh waveX twoPiI
  dsimp only
  rw [fftfreq_centred _ _ _ h0 h1, hg.size_step]
  push_cast
  ring

theorem deriv_y {g : Grid 2 ℝ} (hg : g.Proper) (r c : ℤ) :
    twoPiI * (((rfftMesh g r c).2 : ℝ) : ℂ) = Complex.I * waveY g (centred (g.shape 0) r, c) := by
  unfold rfftMesh waveY twoPiI rfftfreq
  dsimp only
  rw [hg.size_step]
  push_cast
  ring

/-- The spectral velocity in terms of the specification. -/
theorem v2v_coef {g : Grid 2 ℝ} (hg : g.Proper) (w : ℤ → ℤ → ℂ) (C : ℤ × ℤ → ℂ) (r c : ℤ) (h0 : 0 ≤ r) (h1 : r < g.shape 0)
    (hw : w r c = C (centred (g.shape 0) r, c)) :
    vorticityToVelocity g w r c = (velXCoef g C (centred (g.shape 0) r, c), velYCoef g C (centred (g.shape 0) r, c)) := by
  have hx := deriv_x hg r c h0 h1
  have hy := deriv_y hg r c
  unfold vorticityToVelocity velXCoef velYCoef
  dsimp only
  rw [neg_mul, hx, hy, hw]
  have hpsi : ∀ F : ℝ, (F = waveX g (centred (g.shape 0) r, c) ∨ F = waveY g (centred (g.shape 0) r, c)) →
      (F : ℂ) * (-1 / v2vLaplace g r c * C (centred (g.shape 0) r, c)) = F * streamCoef g C (centred (g.shape 0) r, c) := by
    intro F hF
    unfold v2vLaplace
    by_cases h : r = 0 ∧ c = 0
    · obtain ⟨rfl, rfl⟩ := h
      have hc : centred (g.shape 0) 0 = 0 := by
        unfold centred
        have := (hg 0).1
        rw [zero_add, Int.emod_eq_of_lt (by omega) (by omega)]
        ring
      have hF0 : F = 0 := by
        rw [hc] at hF
        rcases hF with h | h
        · rw [h]; unfold waveX; simp
        · rw [h]; unfold waveY; simp
      rw [hF0]; simp
    · rw [if_neg h]
      have e : twoPiI ^ 2 * (((|(rfftMesh g r c).1| ^ 2 : ℝ) : ℂ) + ((|(rfftMesh g r c).2| ^ 2 : ℝ) : ℂ)) =
          -((waveX g (centred (g.shape 0) r, c) ^ 2 + waveY g (centred (g.shape 0) r, c) ^ 2 : ℝ) : ℂ) := by
        rw [sq_abs, sq_abs]
        have hx2 := congrArg (· ^ 2) hx
        have hy2 := congrArg (· ^ 2) hy
        simp only [mul_pow, Complex.I_sq] at hx2 hy2
        push_cast
        linear_combination hx2 + hy2
      rw [e, neg_div_neg_eq]
      unfold streamCoef
      rw [one_div, div_eq_mul_inv]
      ring
  refine Prod.ext ?_ ?_
  · dsimp only
    rw [mul_assoc, hpsi _ (Or.inr rfl), ← mul_assoc]
  · dsimp only
    rw [neg_mul, mul_assoc, hpsi _ (Or.inl rfl), ← mul_assoc]

theorem BandSpectrum.smul {P Q : ℕ} {C : ℤ × ℤ → ℂ} (h : BandSpectrum P Q C) (m : ℤ × ℤ → ℂ) (hm : ∀ p, m (-p) = (starRingEnd ℂ) (m p)) :
    BandSpectrum P Q fun p => m p * C p :=
  ⟨fun p => by rw [hm, h.herm, map_mul], fun p hp => by rw [h.supp p hp, mul_zero]⟩

theorem mulX_conj (g : Grid 2 ℝ) (p : ℤ × ℤ) : Complex.I * (waveX g (-p) : ℂ) = (starRingEnd ℂ) (Complex.I * waveX g p) := by
  rw [map_mul, Complex.conj_I, Complex.conj_ofReal, waveX_neg]; push_cast; ring

theorem mulY_conj (g : Grid 2 ℝ) (p : ℤ × ℤ) : Complex.I * (waveY g (-p) : ℂ) = (starRingEnd ℂ) (Complex.I * waveY g p) := by
  rw [map_mul, Complex.conj_I, Complex.conj_ofReal, waveY_neg]; push_cast; ring

theorem BandSpectrum.stream {P Q : ℕ} {C : ℤ × ℤ → ℂ} (g : Grid 2 ℝ) (h : BandSpectrum P Q C) : BandSpectrum P Q (streamCoef g C) :=
  ⟨fun p => by
    unfold streamCoef
    rw [h.herm, waveX_neg, waveY_neg, neg_sq, neg_sq, map_div₀, Complex.conj_ofReal],
  fun p hp => by unfold streamCoef; rw [h.supp p hp, zero_div]⟩

theorem BandSpectrum.velX {P Q : ℕ} {C : ℤ × ℤ → ℂ} (g : Grid 2 ℝ) (h : BandSpectrum P Q C) : BandSpectrum P Q (velXCoef g C) :=
  (h.stream g).smul (fun p => Complex.I * waveY g p) (mulY_conj g)

theorem BandSpectrum.velY {P Q : ℕ} {C : ℤ × ℤ → ℂ} (g : Grid 2 ℝ) (h : BandSpectrum P Q C) : BandSpectrum P Q (velYCoef g C) := by
  have := (h.stream g).smul (fun p => -(Complex.I * waveX g p)) (fun p => by rw [mulX_conj, map_neg])
  refine ⟨fun p => ?_, fun p hp => ?_⟩
  · have h := this.herm p
    unfold velYCoef
    simpa only [neg_mul] using h
  · have h := this.supp p hp
    unfold velYCoef
    simpa only [neg_mul] using h

/-- The transform of a product of two band-limited fields. -/
theorem sum_prod_wave {N M : ℕ} (hN : N ≠ 0) (hM : M ≠ 0) (S : Finset (ℤ × ℤ)) (A B : ℤ × ℤ → ℂ) (k : ℤ × ℤ) :
    ∑ j ∈ points N M, (∑ p ∈ S, B p * wave2 N M p j) * (∑ p ∈ S, A p * wave2 N M p j) * (starRingEnd ℂ) (wave2 N M k j) =
      (N * M) * ∑ a ∈ S, ∑ b ∈ S, if (N : ℤ) ∣ a.1 + b.1 - k.1 ∧ (M : ℤ) ∣ a.2 + b.2 - k.2 then A a * B b else 0 := by
  simp only [Finset.sum_mul, Finset.mul_sum]
  rw [Finset.sum_comm]
  refine Finset.sum_congr rfl fun a _ => ?_
  rw [Finset.sum_comm]
  refine Finset.sum_congr rfl fun b _ => ?_
  have e : ∀ j, B b * wave2 N M b j * (A a * wave2 N M a j) * (starRingEnd ℂ) (wave2 N M k j) = A a * B b * wave2 N M (a + b + -k) j := by
    intro j
    rw [wave2_add, wave2_add, wave2_neg]
    ring
  simp only [e]
  rw [← Finset.mul_sum, sum_wave2 hN hM]
  show A a * B b * (if (N : ℤ) ∣ a.1 + b.1 - k.1 ∧ (M : ℤ) ∣ a.2 + b.2 - k.2 then (N : ℂ) * M else 0) = _
  split_ifs
  · ring
  · simp

/-- Inside the band there is no aliasing. -/
theorem no_alias {N M P Q : ℕ} (hP : 3 * P < N) (hQ : 3 * Q < M) {a b k : ℤ × ℤ} (ha : a ∈ band P Q) (hb : b ∈ band P Q) (hk : k ∈ band P Q) :
    ((N : ℤ) ∣ a.1 + b.1 - k.1 % N ∧ (M : ℤ) ∣ a.2 + b.2 - k.2) ↔ a + b = k := by
  rw [mem_band] at ha hb hk
  have hk1 : k.1 % N = k.1 - N * (k.1 / N) := by have := Int.emod_add_mul_ediv k.1 N; linarith
  have small : ∀ (n : ℕ) (x t : ℤ), x = n * t → -(n : ℤ) < x → x < n → x = 0 := by
    intro n x t h h1 h2
    have a1 : (n : ℤ) * t < n * 1 := by omega
    have a2 : (n : ℤ) * (-1) < n * t := by omega
    have b1 := lt_of_mul_lt_mul_left a1 (by omega)
    have b2 := lt_of_mul_lt_mul_left a2 (by omega)
    have : t = 0 := by omega
    rw [h, this, mul_zero]
  constructor
  · rintro ⟨⟨s, hs⟩, ⟨t, ht⟩⟩
    have h1 := small N (a.1 + b.1 - k.1) (s - k.1 / N) (by rw [hk1] at hs; linarith) (by omega) (by omega)
    have h2 := small M _ t ht (by omega) (by omega)
    exact Prod.ext (by rw [Prod.fst_add]; omega) (by rw [Prod.snd_add]; omega)
  · rintro rfl
    rw [hk1, Prod.fst_add, Prod.snd_add]
    exact ⟨⟨(a.1 + b.1) / N, by ring⟩, by simp⟩

/-- A vorticity spectrum of the size of the grid's, that of a real field with the Fourier coefficients `W`, all of them inside the band kept
by the 2/3 filter. -/
structure BandResolved (g : Grid 2 ℝ) (w : NArr 2 ℂ) (P Q : ℕ) (W : ℤ × ℤ → ℂ) : Prop where
  proper : g.Proper
  even : g.shape 1 % 2 = 0
  hP : P < 2 * g.shape 0 / 3 / 2
  hQ : Q < 2 * (g.shape 1 / 2 + 1) / 3
  real : BandSpectrum P Q W
  rep : Represents (g.shape 0) (g.shape 1) w fun p => g.shape 0 * g.shape 1 * W p

theorem filter_band {g : Grid 2 ℝ} {P Q : ℕ} (hP : P < 2 * g.shape 0 / 3 / 2) (hQ : Q < 2 * (g.shape 1 / 2 + 1) / 3) {p c : ℤ}
    (h1 : -(P : ℤ) ≤ p) (h2 : p ≤ P) (h4 : c ≤ Q) : brickWallFilter (g.shape 0) (g.shape 1) (p % g.shape 0) c = 1 := by
  unfold brickWallFilter
  dsimp only
  refine if_pos ⟨by omega, ?_⟩
  by_cases hp : 0 ≤ p
  · left
    rw [Int.emod_eq_of_lt hp (by omega)]
    omega
  · right
    have : p % (g.shape 0 : ℤ) = p + g.shape 0 := by
      rw [← Int.add_emod_right, Int.emod_eq_of_lt (by omega) (by omega)]
    rw [this, if_pos (by omega)]
    omega

/-- **C48** Navier-Stokes: for a vorticity inside the band of the 2/3 filter, with or without filter, every mode of the band of
`explicit_terms` is that of `-(u ∂ω/∂x + v ∂ω/∂y)`, `u = ∂ψ/∂y`, `v = -∂ψ/∂x`, `-Δψ = ω`, of the Fourier series: there is no aliasing. -/
theorem C48_ns_explicit (g : Grid 2 ℝ) (smooth : Option Bool) (w : NArr 2 ℂ) (P Q : ℕ) (W : ℤ × ℤ → ℂ) (h : BandResolved g w P Q W) :
    ∃ z, nsExplicit g smooth none w = .ok z ∧ z.shape = rfftShape2 g ∧
      ∀ k ∈ band P Q, 0 ≤ k.2 → z.data ![k.1 % g.shape 0, k.2] = g.shape 0 * g.shape 1 * advectionCoef g (band P Q) W k := by
  obtain ⟨hg, hM, hP, hQ, hW, hrep⟩ := h
  have hN0 : g.shape 0 ≠ 0 := (hg 0).1
  have hM0 : g.shape 1 ≠ 0 := (hg 1).1
  set N := g.shape 0 with hN
  set M := g.shape 1 with hMd
  have h3P : 3 * P < N := by omega
  have h3Q : 3 * Q < M := by omega
  have hNC : (N : ℂ) ≠ 0 := by exact_mod_cast hN0
  have hMC : (M : ℂ) ≠ 0 := by exact_mod_cast hM0
  have hshape : w.shape = rfftShape2 g := hrep.1
  have hC : BandSpectrum P Q fun p => (N : ℂ) * M * W p := hW.smul (fun _ => (N : ℂ) * M) fun p => by simp
  -- the four fields
  have hmulc : ∀ (A : (ℤ × ℤ → ℂ) → ℤ × ℤ → ℂ) (hA : ∀ p, A (fun p => (N : ℂ) * M * W p) p = N * M * A W p) (x : NArr 2 ℂ)
      (hb : BandSpectrum P Q (A fun p => (N : ℂ) * M * W p)) (hx : Represents N M x (A fun p => (N : ℂ) * M * W p)) (j : ℤ × ℤ) (hj : j ∈ points N M),
      (((irfftn (k := 1) x).data ![j.1, j.2] : ℝ) : ℂ) = ∑ p ∈ band P Q, A W p * wave2 N M p j := by
    intro A hA x hb hx j hj
    unfold points at hj
    rw [Finset.mem_product, Finset.mem_Ico, Finset.mem_Ico] at hj
    rw [irfftn_band (by omega) (by omega) hM hb hx j hj.2.1, Finset.sum_div]
    refine Finset.sum_congr rfl fun p _ => ?_
    rw [hA]
    field_simp
  have hstream : ∀ p, streamCoef g (fun p => (N : ℂ) * M * W p) p = N * M * streamCoef g W p := fun p => by
    unfold streamCoef; rw [mul_div_assoc]
  have hvx := hmulc (velXCoef g) (fun p => by unfold velXCoef; rw [hstream]; ring)
    ⟨w.shape, fun i => (vorticityToVelocity g (fun r c => w.data ![r, c]) (i 0) (i 1)).1⟩ (hC.velX g) ⟨hrep.1, fun r c h1 h2 h3 h4 => by
      rw [← hN] at *
      exact congrArg Prod.fst (v2v_coef hg (fun r c => w.data ![r, c]) _ r c h1 h2 (hrep.2 r c h1 h2 h3 h4))⟩
  have hvy := hmulc (velYCoef g) (fun p => by unfold velYCoef; rw [hstream]; ring)
    ⟨w.shape, fun i => (vorticityToVelocity g (fun r c => w.data ![r, c]) (i 0) (i 1)).2⟩ (hC.velY g) ⟨hrep.1, fun r c h1 h2 h3 h4 => by
      exact congrArg Prod.snd (v2v_coef hg (fun r c => w.data ![r, c]) _ r c h1 h2 (hrep.2 r c h1 h2 h3 h4))⟩
  have hgx := hmulc (fun W p => Complex.I * waveX g p * W p) (fun p => by ring)
    ⟨w.shape, fun i => twoPiI * ((rfftMesh g (i 0) (i 1)).1 : ℝ) * w.data i⟩ (hC.smul _ (mulX_conj g)) ⟨hrep.1, fun r c h1 h2 h3 h4 => by
      show twoPiI * (((rfftMesh g r c).1 : ℝ) : ℂ) * w.data ![r, c] = _
      rw [deriv_x hg r c h1 h2, hrep.2 r c h1 h2 h3 h4]⟩
  have hgy := hmulc (fun W p => Complex.I * waveY g p * W p) (fun p => by ring)
    ⟨w.shape, fun i => twoPiI * ((rfftMesh g (i 0) (i 1)).2 : ℝ) * w.data i⟩ (hC.smul _ (mulY_conj g)) ⟨hrep.1, fun r c h1 h2 h3 h4 => by
      show twoPiI * (((rfftMesh g r c).2 : ℝ) : ℂ) * w.data ![r, c] = _
      rw [deriv_y hg r c, hrep.2 r c h1 h2 h3 h4]⟩
  set vx := irfftn (k := 1) ⟨w.shape, fun i => (vorticityToVelocity g (fun r c => w.data ![r, c]) (i 0) (i 1)).1⟩ with hvxd
  set vy := irfftn (k := 1) ⟨w.shape, fun i => (vorticityToVelocity g (fun r c => w.data ![r, c]) (i 0) (i 1)).2⟩ with hvyd
  set gx := irfftn (k := 1) ⟨w.shape, fun i => twoPiI * ((rfftMesh g (i 0) (i 1)).1 : ℝ) * w.data i⟩ with hgxd
  set gy := irfftn (k := 1) ⟨w.shape, fun i => twoPiI * ((rfftMesh g (i 0) (i 1)).2 : ℝ) * w.data i⟩ with hgyd
  have hvs : vx.shape = ![N, M] := irfftn2_shape hM hrep.1
  set hat := rfftn (k := 1) ⟨vx.shape, fun i => -(gx.data i * vx.data i + gy.data i * vy.data i)⟩ with hhat
  have hhs : hat.shape = rfftShape2 g := rfftn2_shape hvs
  have hval : ∀ k ∈ band P Q, hat.data ![k.1 % N, k.2] = N * M * advectionCoef g (band P Q) W k := by
    intro k hk
    rw [hhat, rfftn2 (x := ⟨vx.shape, fun i => -(gx.data i * vx.data i + gy.data i * vy.data i)⟩) hvs]
    have e : ∀ j ∈ points N M, ((-(gx.data ![j.1, j.2] * vx.data ![j.1, j.2] + gy.data ![j.1, j.2] * vy.data ![j.1, j.2]) : ℝ) : ℂ) *
        (starRingEnd ℂ) (wave2 N M (![k.1 % N, k.2] 0, ![k.1 % N, k.2] 1) j) =
        -((∑ p ∈ band P Q, (Complex.I * waveX g p * W p) * wave2 N M p j) * (∑ p ∈ band P Q, velXCoef g W p * wave2 N M p j) *
            (starRingEnd ℂ) (wave2 N M (k.1 % N, k.2) j)) +
        -((∑ p ∈ band P Q, (Complex.I * waveY g p * W p) * wave2 N M p j) * (∑ p ∈ band P Q, velYCoef g W p * wave2 N M p j) *
            (starRingEnd ℂ) (wave2 N M (k.1 % N, k.2) j)) := by
      intro j hj
      rw [← hvx j hj, ← hvy j hj, ← hgx j hj, ← hgy j hj]
      push_cast
      show _ * (starRingEnd ℂ) (wave2 N M (k.1 % N, k.2) j) = _
      ring
    rw [Finset.sum_congr rfl e, Finset.sum_add_distrib, Finset.sum_neg_distrib, Finset.sum_neg_distrib, sum_prod_wave hN0 hM0, sum_prod_wave hN0 hM0]
    unfold advectionCoef
    rw [mul_neg, ← neg_add, ← mul_add, ← Finset.sum_add_distrib]
    congr 2
    refine Finset.sum_congr rfl fun a ha => ?_
    rw [← Finset.sum_add_distrib]
    refine Finset.sum_congr rfl fun b hb => ?_
    dsimp only
    simp only [no_alias h3P h3Q ha hb hk]
    split_ifs
    · rfl
    · exact add_zero 0
  have hadv : nsAdvection g smooth w = match smooth with
      | none => .ok hat
      | some _ => .ok ⟨hat.shape, fun i => hat.data i * (brickWallFilter N M (i 0) (i 1) : ℝ)⟩ := by
    unfold nsAdvection
    rw [if_neg (by simp [hshape])]
    cases smooth with
    | none => rfl
    | some b => exact if_pos hhs
  cases smooth with
  | none =>
    refine ⟨hat, ?_, hhs, fun k hk _ => hval k hk⟩
    unfold nsExplicit
    rw [hadv]
    rfl
  | some b =>
    refine ⟨⟨hat.shape, fun i => hat.data i * (brickWallFilter N M (i 0) (i 1) : ℝ)⟩, ?_, hhs, fun k hk _ => ?_⟩
    · unfold nsExplicit
      rw [hadv]
      rfl
    · have hk' := mem_band.1 hk
      show hat.data ![k.1 % N, k.2] * ((brickWallFilter N M (k.1 % N) k.2 : ℝ) : ℂ) = _
      rw [filter_band hP hQ hk'.1.1 hk'.1.2 hk'.2.2, hval k hk]
      simp

/-! ### Conservation -/

/-- `a × b` of the wave vectors. -/
noncomputable def waveCross (g : Grid 2 ℝ) (a b : ℤ × ℤ) : ℝ := waveX g a * waveY g b - waveY g a * waveX g b

theorem advectionCoef_eq (g : Grid 2 ℝ) (S : Finset (ℤ × ℤ)) (W : ℤ × ℤ → ℂ) (k : ℤ × ℤ) :
    advectionCoef g S W k = -∑ a ∈ S, ∑ b ∈ S, if a + b = k then waveCross g a b * (streamCoef g W a * W b) else 0 := by
  unfold advectionCoef
  congr 1
  refine Finset.sum_congr rfl fun a _ => Finset.sum_congr rfl fun b _ => ?_
  split_ifs
  · unfold velXCoef velYCoef waveCross
    push_cast
    linear_combination (waveY g a * waveX g b - waveX g a * waveY g b : ℂ) * (streamCoef g W a * W b) * Complex.I_sq
  · rfl

theorem advectionCoef_conj {P Q : ℕ} {W : ℤ × ℤ → ℂ} (g : Grid 2 ℝ) (h : BandSpectrum P Q W) (k : ℤ × ℤ) :
    advectionCoef g (band P Q) W (-k) = (starRingEnd ℂ) (advectionCoef g (band P Q) W k) := by
  rw [advectionCoef_eq, advectionCoef_eq, map_neg, map_sum, ← sum_band_neg]
  congr 1
  refine Finset.sum_congr rfl fun a _ => ?_
  rw [map_sum, ← sum_band_neg]
  refine Finset.sum_congr rfl fun b _ => ?_
  have e : -a + -b = -k ↔ a + b = k := by rw [← neg_add, neg_inj]
  simp only [e]
  split_ifs
  · rw [(h.stream g).herm, h.herm, map_mul, map_mul, Complex.conj_ofReal]
    unfold waveCross
    rw [waveX_neg, waveX_neg, waveY_neg, waveY_neg]
    ring_nf
  · simp

/-- Triads: a sum over `a + b + c = 0`. -/
theorem triads {P Q : ℕ} (g : Grid 2 ℝ) (A B C : ℤ × ℤ → ℂ) (hC : ∀ p, C (-p) = (starRingEnd ℂ) (C p)) :
    ∑ k ∈ band P Q, (∑ a ∈ band P Q, ∑ b ∈ band P Q, if a + b = k then (waveCross g a b : ℂ) * (A a * B b) else 0) * (starRingEnd ℂ) (C k) =
      ∑ a ∈ band P Q, ∑ b ∈ band P Q, ∑ c ∈ band P Q, if a + b + c = 0 then (waveCross g a b : ℂ) * (A a * B b * C c) else 0 := by
  rw [← sum_band_neg]
  simp only [Finset.sum_mul]
  rw [Finset.sum_comm]
  refine Finset.sum_congr rfl fun a _ => ?_
  rw [Finset.sum_comm]
  refine Finset.sum_congr rfl fun b _ => Finset.sum_congr rfl fun c _ => ?_
  have e : a + b = -c ↔ a + b + c = 0 := by rw [eq_neg_iff_add_eq_zero]
  simp only [e, hC, Complex.conj_conj]
  split_ifs
  · ring
  · simp

theorem cross_right (g : Grid 2 ℝ) {a b c : ℤ × ℤ} (h : a + b + c = 0) : waveCross g a c = -waveCross g a b := by
  have hc : c = -(a + b) := by rw [eq_neg_iff_add_eq_zero, add_comm]; exact h
  unfold waveCross
  rw [hc, waveX_neg, waveY_neg, waveX_add, waveY_add]
  ring

theorem cross_left (g : Grid 2 ℝ) {a b c : ℤ × ℤ} (h : a + b + c = 0) : waveCross g c b = -waveCross g a b := by
  have hc : c = -(a + b) := by rw [eq_neg_iff_add_eq_zero, add_comm]; exact h
  unfold waveCross
  rw [hc, waveX_neg, waveY_neg, waveX_add, waveY_add]
  ring

theorem enstrophy_triads {P Q : ℕ} {W : ℤ × ℤ → ℂ} (g : Grid 2 ℝ) (h : BandSpectrum P Q W) :
    ∑ k ∈ band P Q, advectionCoef g (band P Q) W k * (starRingEnd ℂ) (W k) = 0 := by
  simp only [advectionCoef_eq, neg_mul]
  rw [Finset.sum_neg_distrib, triads g _ W W h.herm, neg_eq_zero, ← self_eq_neg]
  conv_rhs => rw [← Finset.sum_neg_distrib]
  refine Finset.sum_congr rfl fun a _ => ?_
  conv_lhs => rw [Finset.sum_comm]
  rw [← Finset.sum_neg_distrib]
  refine Finset.sum_congr rfl fun b _ => ?_
  rw [← Finset.sum_neg_distrib]
  refine Finset.sum_congr rfl fun c _ => ?_
  have e : a + c + b = 0 ↔ a + b + c = 0 := by rw [add_right_comm]
  simp only [e]
  split_ifs with h0
  · rw [cross_right g h0]
    push_cast
    ring
  · simp

theorem energy_triads {P Q : ℕ} {W : ℤ × ℤ → ℂ} (g : Grid 2 ℝ) (h : BandSpectrum P Q W) :
    ∑ k ∈ band P Q, advectionCoef g (band P Q) W k * (starRingEnd ℂ) (streamCoef g W k) = 0 := by
  simp only [advectionCoef_eq, neg_mul]
  rw [Finset.sum_neg_distrib, triads g _ W (streamCoef g W) (h.stream g).herm, neg_eq_zero, ← self_eq_neg]
  have swap : ∀ F : ℤ × ℤ → ℤ × ℤ → ℤ × ℤ → ℂ, ∑ a ∈ band P Q, ∑ b ∈ band P Q, ∑ c ∈ band P Q, F a b c =
      ∑ a ∈ band P Q, ∑ b ∈ band P Q, ∑ c ∈ band P Q, F c b a := by
    intro F
    rw [Finset.sum_comm]
    conv_rhs => rw [Finset.sum_comm]
    refine Finset.sum_congr rfl fun b _ => ?_
    rw [Finset.sum_comm]
  conv_lhs => rw [swap]
  rw [← Finset.sum_neg_distrib]
  refine Finset.sum_congr rfl fun a _ => ?_
  rw [← Finset.sum_neg_distrib]
  refine Finset.sum_congr rfl fun b _ => ?_
  rw [← Finset.sum_neg_distrib]
  refine Finset.sum_congr rfl fun c _ => ?_
  have e : c + b + a = 0 ↔ a + b + c = 0 := by rw [show c + b + a = a + b + c by abel]
  simp only [e]
  split_ifs with h0
  · rw [cross_left g h0]
    push_cast
    ring
  · simp

theorem mean_triads {P Q : ℕ} (W : ℤ × ℤ → ℂ) (g : Grid 2 ℝ) : advectionCoef g (band P Q) W 0 = 0 := by
  rw [advectionCoef_eq, neg_eq_zero]
  refine Finset.sum_eq_zero fun a _ => Finset.sum_eq_zero fun b _ => ?_
  split_ifs with h
  · have hb : b = -a := by rw [eq_neg_iff_add_eq_zero, add_comm]; exact h
    have : waveCross g a b = 0 := by
      unfold waveCross
      rw [hb, waveX_neg, waveY_neg]
      ring
    rw [this]
    simp
  · rfl

/-- The values at the grid points of the field with spectrum `x`. -/
noncomputable def fieldOf (x : NArr 2 ℂ) (j : ℤ × ℤ) : ℝ := (irfftn (k := 1) x).data ![j.1, j.2]

/-- The spectra of the velocity of the vorticity with spectrum `x`. -/
noncomputable def velocitySpectrum (g : Grid 2 ℝ) (x : NArr 2 ℂ) : NArr 2 ℂ × NArr 2 ℂ :=
  (⟨x.shape, fun i => (vorticityToVelocity g (fun r c => x.data ![r, c]) (i 0) (i 1)).1⟩,
    ⟨x.shape, fun i => (vorticityToVelocity g (fun r c => x.data ![r, c]) (i 0) (i 1)).2⟩)

/-- **C48** Navier-Stokes: the advection conserves, at every state inside the band of the 2/3 filter, the total vorticity
(`Σ ∂ω/∂t = 0`), the enstrophy (`Σ ω ∂ω/∂t = 0`) and the kinetic energy (`Σ v · ∂v/∂t = 0`), the sums being over the grid points, with the
velocity computed by `vorticity_to_velocity`. -/
theorem C48_ns_conserves (g : Grid 2 ℝ) (smooth : Option Bool) (w z : NArr 2 ℂ) (P Q : ℕ) (W : ℤ × ℤ → ℂ) (h : BandResolved g w P Q W)
    (hz : nsExplicit g smooth none w = .ok z) :
    ∑ j ∈ points (g.shape 0) (g.shape 1), fieldOf z j = 0 ∧
    ∑ j ∈ points (g.shape 0) (g.shape 1), fieldOf w j * fieldOf z j = 0 ∧
    ∑ j ∈ points (g.shape 0) (g.shape 1), (fieldOf (velocitySpectrum g w).1 j * fieldOf (velocitySpectrum g z).1 j +
      fieldOf (velocitySpectrum g w).2 j * fieldOf (velocitySpectrum g z).2 j) = 0 := by
  obtain ⟨z', hz', hzs, hzv⟩ := C48_ns_explicit g smooth w P Q W h
  rw [hz'] at hz
  injection hz with hz
  subst hz
  obtain ⟨hg, hM, hP, hQ, hW, hrep⟩ := h
  have hN0 : g.shape 0 ≠ 0 := (hg 0).1
  have hM0 : g.shape 1 ≠ 0 := (hg 1).1
  set N := g.shape 0 with hN
  set M := g.shape 1 with hMd
  have hNC : (N : ℂ) ≠ 0 := by exact_mod_cast hN0
  have hMC : (M : ℂ) ≠ 0 := by exact_mod_cast hM0
  have hC : BandSpectrum P Q fun p => (N : ℂ) * M * W p := hW.smul (fun _ => (N : ℂ) * M) fun p => by simp
  have h2P : 2 * P < N := by omega
  have h2Q : 2 * Q < M := by omega
  set Z : ℤ × ℤ → ℂ := fun p => N * M * advectionCoef g (band P Q) W p with hZ
  have hZherm : ∀ p, Z (-p) = (starRingEnd ℂ) (Z p) := fun p => by
    simp only [hZ]
    rw [advectionCoef_conj g hW, map_mul, map_mul, map_natCast, map_natCast]
  -- pairing
  have pair : ∀ (A : (ℤ × ℤ → ℂ) → ℤ × ℤ → ℂ) (hA : ∀ p, A (fun p => (N : ℂ) * M * W p) p = N * M * A W p) (x y : NArr 2 ℂ)
      (hb : BandSpectrum P Q (A fun p => (N : ℂ) * M * W p)) (hx : Represents N M x (A fun p => (N : ℂ) * M * W p)) (Y : ℤ × ℤ → ℂ)
      (hY : ∀ p, Y (-p) = (starRingEnd ℂ) (Y p)) (hys : y.shape = ![N, M / 2 + 1])
      (hy : ∀ p c : ℤ, (p, c) ∈ band P Q → 0 ≤ c → y.data ![p % N, c] = Y (p, c)),
      ((∑ j ∈ points N M, fieldOf x j * fieldOf y j : ℝ) : ℂ) = ∑ p ∈ band P Q, Y p * (starRingEnd ℂ) (A W p) := by
    intro A hA x y hb hx Y hY hys hy
    have e := pair_irfftn h2P h2Q hM hb hY hys hy
    have e2 : ((∑ j ∈ points N M, fieldOf x j * fieldOf y j : ℝ) : ℂ) = (∑ j ∈ points N M, (∑ p ∈ band P Q,
        A (fun p => (N : ℂ) * M * W p) p * wave2 N M p j) * (((irfftn (k := 1) y).data ![j.1, j.2] : ℝ) : ℂ)) / (N * M) := by
      push_cast
      rw [Finset.sum_div]
      refine Finset.sum_congr rfl fun j hj => ?_
      unfold points at hj
      rw [Finset.mem_product, Finset.mem_Ico, Finset.mem_Ico] at hj
      unfold fieldOf
      rw [irfftn_band h2P h2Q hM hb hx j hj.2.1]
      ring
    rw [e2, e, Finset.sum_div]
    refine Finset.sum_congr rfl fun p _ => ?_
    rw [hA, map_mul, map_mul, map_natCast, map_natCast]
    field_simp
  have hzv' : ∀ p c : ℤ, (p, c) ∈ band P Q → 0 ≤ c → z'.data ![p % N, c] = Z (p, c) := fun p c hp hc => hzv (p, c) hp hc
  refine ⟨?_, ?_, ?_⟩
  · -- the constant field 1
    have hd : BandSpectrum P Q fun p => if p = 0 then 1 else 0 := by
      refine ⟨fun p => ?_, fun p hp => if_neg fun h0 => hp ?_⟩
      · simp only [neg_eq_zero]
        split_ifs <;> simp
      · rw [h0, mem_band]
        simp
    have e := pair_irfftn h2P h2Q hM hd hZherm (y := z') hzs hzv'
    have h0mem : (0 : ℤ × ℤ) ∈ band P Q := by rw [mem_band]; simp
    have e1 : ∀ j, ∑ p ∈ band P Q, (if p = 0 then (1 : ℂ) else 0) * wave2 N M p j = 1 := by
      intro j
      rw [Finset.sum_eq_single_of_mem _ h0mem (fun p _ hp => by rw [if_neg hp, zero_mul]), if_pos rfl, one_mul]
      unfold wave2
      rw [Prod.fst_zero, Prod.snd_zero, wave_zero, wave_zero, one_mul]
    have e2 : ∑ p ∈ band P Q, Z p * (starRingEnd ℂ) (if p = 0 then (1 : ℂ) else 0) = 0 := by
      refine Finset.sum_eq_zero fun p _ => ?_
      split_ifs with hp
      · rw [hp, hZ]
        simp only [mean_triads, mul_zero, zero_mul]
      · simp
    rw [e2] at e
    simp only [e1, one_mul] at e
    exact_mod_cast e
  · have e := pair (fun W => W) (fun p => rfl) w z' hC hrep Z hZherm hzs hzv'
    rw [Finset.sum_congr rfl fun p _ => show Z p * (starRingEnd ℂ) (W p) = N * M * (advectionCoef g (band P Q) W p * (starRingEnd ℂ) (W p)) by
      simp only [hZ]; ring, ← Finset.mul_sum, enstrophy_triads g hW, mul_zero] at e
    exact_mod_cast e
  · have hstream : ∀ p, streamCoef g (fun p => (N : ℂ) * M * W p) p = N * M * streamCoef g W p := fun p => by
      unfold streamCoef; rw [mul_div_assoc]
    have hsZ : ∀ p, streamCoef g Z (-p) = (starRingEnd ℂ) (streamCoef g Z p) := fun p => by
      unfold streamCoef
      rw [hZherm, waveX_neg, waveY_neg, neg_sq, neg_sq, map_div₀, Complex.conj_ofReal]
    have hv2 : ∀ p c : ℤ, (p, c) ∈ band P Q → 0 ≤ c → vorticityToVelocity g (fun r c => z'.data ![r, c]) (p % N) c =
        (velXCoef g Z (p, c), velYCoef g Z (p, c)) := by
      intro p c hp hc
      have hp' := (mem_band.1 hp).1
      have e := v2v_coef hg (fun r c => z'.data ![r, c]) Z (p % N) c (Int.emod_nonneg _ (by omega)) (Int.emod_lt_of_pos _ (by omega))
        (by rw [← hN, centred_of_band h2P hp']; exact hzv' p c hp hc)
      rw [← hN, centred_of_band h2P hp'] at e
      exact e
    have ex := pair (velXCoef g) (fun p => by unfold velXCoef; rw [hstream]; ring) (velocitySpectrum g w).1 (velocitySpectrum g z').1 (hC.velX g)
      ⟨hrep.1, fun r c h1 h2 h3 h4 => by
        exact congrArg Prod.fst (v2v_coef hg (fun r c => w.data ![r, c]) _ r c h1 h2 (hrep.2 r c h1 h2 h3 h4))⟩
      (velXCoef g Z) (fun p => by unfold velXCoef; rw [hsZ, mulY_conj, map_mul (starRingEnd ℂ) (Complex.I * _)]) hzs
      (fun p c hp hc => by exact congrArg Prod.fst (hv2 p c hp hc))
    have ey := pair (velYCoef g) (fun p => by unfold velYCoef; rw [hstream]; ring) (velocitySpectrum g w).2 (velocitySpectrum g z').2 (hC.velY g)
      ⟨hrep.1, fun r c h1 h2 h3 h4 => by
        exact congrArg Prod.snd (v2v_coef hg (fun r c => w.data ![r, c]) _ r c h1 h2 (hrep.2 r c h1 h2 h3 h4))⟩
      (velYCoef g Z) (fun p => by unfold velYCoef; rw [hsZ, mulX_conj, map_neg, map_mul (starRingEnd ℂ) (Complex.I * _)]) hzs
      (fun p c hp hc => by exact congrArg Prod.snd (hv2 p c hp hc))
    have hsum : ∀ p, velXCoef g Z p * (starRingEnd ℂ) (velXCoef g W p) + velYCoef g Z p * (starRingEnd ℂ) (velYCoef g W p) =
        N * M * (advectionCoef g (band P Q) W p * (starRingEnd ℂ) (streamCoef g W p)) := by
      intro p
      unfold velXCoef velYCoef
      simp only [map_neg, map_mul, Complex.conj_I, Complex.conj_ofReal]
      by_cases h0 : waveX g p ^ 2 + waveY g p ^ 2 = 0
      · unfold streamCoef
        rw [h0]
        simp
      · have h0' : ((waveX g p ^ 2 + waveY g p ^ 2 : ℝ) : ℂ) ≠ 0 := by exact_mod_cast h0
        have e : ((waveX g p ^ 2 + waveY g p ^ 2 : ℝ) : ℂ) * streamCoef g Z p = Z p := by
          unfold streamCoef
          field_simp
        have e' : Z p = N * M * advectionCoef g (band P Q) W p := rfl
        push_cast at e
        linear_combination (starRingEnd ℂ) (streamCoef g W p) * (e + e') -
          (waveX g p ^ 2 + waveY g p ^ 2 : ℂ) * streamCoef g Z p * (starRingEnd ℂ) (streamCoef g W p) * Complex.I_sq
    have tot : ((∑ j ∈ points N M, (fieldOf (velocitySpectrum g w).1 j * fieldOf (velocitySpectrum g z').1 j +
      fieldOf (velocitySpectrum g w).2 j * fieldOf (velocitySpectrum g z').2 j) : ℝ) : ℂ) = 0 := by
      rw [Finset.sum_add_distrib, Complex.ofReal_add, ex, ey, ← Finset.sum_add_distrib, Finset.sum_congr rfl fun p _ => hsum p, ← Finset.mul_sum,
        energy_triads g hW, mul_zero]
    exact_mod_cast tot

/-- **C48** Navier-Stokes with forcing: the curl `∂f_y/∂x - ∂f_x/∂y` of the forcing, evaluated at the velocity of the state, is added to the
explicit terms, and is not filtered. -/
theorem C48_ns_forcing (g : Grid 2 ℝ) (hg : g.Proper) (smooth : Option Bool) (f : NArr 2 ℝ → NArr 2 ℝ → NArr 2 ℝ × NArr 2 ℝ) (w z₀ : NArr 2 ℂ)
    (h₀ : nsExplicit g smooth none w = .ok z₀) (hs : z₀.shape = rfftShape2 g)
    (hf : ∀ u v, (f u v).1.shape = ![g.shape 0, g.shape 1] ∧ (f u v).2.shape = ![g.shape 0, g.shape 1]) :
    ∃ z, nsExplicit g smooth (some f) w = .ok z ∧ z.shape = z₀.shape ∧ ∀ r c : ℤ, 0 ≤ r → r < g.shape 0 →
      z.data ![r, c] = z₀.data ![r, c] +
        (Complex.I * waveX g (centred (g.shape 0) r, c) *
            (rfftn (k := 1) (f (irfftn (k := 1) (velocitySpectrum g w).1) (irfftn (k := 1) (velocitySpectrum g w).2)).2).data ![r, c] -
          Complex.I * waveY g (centred (g.shape 0) r, c) *
            (rfftn (k := 1) (f (irfftn (k := 1) (velocitySpectrum g w).1) (irfftn (k := 1) (velocitySpectrum g w).2)).1).data ![r, c]) := by
  have ha : nsAdvection g smooth w = .ok z₀ := by
    unfold nsExplicit at h₀
    cases h : nsAdvection g smooth w with
    | error e => rw [h] at h₀; exact absurd h₀ (by simp [bind, Except.bind])
    | ok z => rw [h] at h₀; exact h₀
  have h1 := (hf (irfftn (k := 1) (velocitySpectrum g w).1) (irfftn (k := 1) (velocitySpectrum g w).2)).1
  have h2 := (hf (irfftn (k := 1) (velocitySpectrum g w).1) (irfftn (k := 1) (velocitySpectrum g w).2)).2
  set fx := (f (irfftn (k := 1) (velocitySpectrum g w).1) (irfftn (k := 1) (velocitySpectrum g w).2)).1 with hfx
  set fy := (f (irfftn (k := 1) (velocitySpectrum g w).1) (irfftn (k := 1) (velocitySpectrum g w).2)).2 with hfy
  refine ⟨⟨z₀.shape, fun i => z₀.data i + spectralCurl2d g (fun r c => ((rfftn (k := 1) fx).data ![r, c], (rfftn (k := 1) fy).data ![r, c])) (i 0) (i 1)⟩,
    ?_, rfl, fun r c h3 h4 => ?_⟩
  · unfold nsExplicit
    rw [ha]
    show (if (rfftn (k := 1) fx).shape ≠ z₀.shape ∨ (rfftn (k := 1) fy).shape ≠ z₀.shape ∨ z₀.shape ≠ rfftShape2 g then _ else _) = _
    rw [if_neg]
    · rfl
    · rw [hs, rfftn2_shape h1, rfftn2_shape h2]
      rintro (h | h | h) <;> exact h rfl
  · show z₀.data ![r, c] + spectralCurl2d g _ r c = _
    unfold spectralCurl2d
    rw [← deriv_x hg r c h3 h4, ← deriv_y hg r c]
    ring

/-! ### An example meeting the hypotheses -/

/-- Two waves along the axes: the Fourier coefficients of `ω = 2 cos x + cos y`. -/
noncomputable def twoWaves (p : ℤ × ℤ) : ℂ :=
  if p = (1, 0) ∨ p = (-1, 0) then 1 else if p = (0, 1) ∨ p = (0, -1) then 1 / 2 else 0

theorem twoWaves_band : BandSpectrum 1 1 twoWaves := by
  refine ⟨fun p => ?_, fun p hp => ?_⟩
  · have e : ∀ a b : ℤ, -p = (a, b) ↔ p = (-a, -b) := fun a b => by rw [neg_eq_iff_eq_neg, Prod.neg_mk]
    unfold twoWaves
    simp only [e, neg_neg, neg_zero]
    have c1 : (p = (-1, 0) ∨ p = (1, 0)) ↔ (p = (1, 0) ∨ p = (-1, 0)) := or_comm
    have c2 : (p = (0, -1) ∨ p = (0, 1)) ↔ (p = (0, 1) ∨ p = (0, -1)) := or_comm
    simp only [c1, c2]
    split_ifs
    · simp
    · rw [map_div₀, map_one, map_ofNat]
    · simp
  · rw [mem_band] at hp
    unfold twoWaves
    rw [if_neg, if_neg]
    · rintro (rfl | rfl) <;> simp at hp
    · rintro (rfl | rfl) <;> simp at hp

/-- the hypotheses of the Navier-Stokes theorems are met on a 6 × 8 grid on `[0, 1] × [0, 2]` -/
example : BandResolved ⟨![6, 8], ![(0, 1), (0, 2)]⟩ ⟨![6, 5], fun i => 6 * 8 * twoWaves (centred 6 (i 0), i 1)⟩ 1 1 twoWaves where
  proper := fun a => by fin_cases a <;> simp
  even := by rfl
  hP := by decide
  hQ := by decide
  real := twoWaves_band
  rep := ⟨rfl, fun r c _ _ _ _ => by
    show (6 : ℂ) * 8 * _ = ((6 : ℕ) : ℂ) * ((8 : ℕ) : ℂ) * _
    push_cast
    rfl⟩

end JaxCfd
