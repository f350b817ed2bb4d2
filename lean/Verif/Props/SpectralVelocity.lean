import Verif.Model.SpectralEquations
import Verif.Lemmas.SpectralUtils
import Mathlib.Tactic.NormNum
import Mathlib.Tactic.Positivity
import Mathlib.Tactic.IntervalCases

/-!
# C46 (filters, `downsample_spectral`) and C47 (`vorticity_to_velocity`)
-/

namespace JaxCfd

/-- A two-dimensional grid with points and a nonempty domain, as the constructor produces. -/
def Grid.Proper {d : ℕ} (g : Grid d ℝ) : Prop := ∀ a, g.shape a ≠ 0 ∧ (g.domain a).1 < (g.domain a).2

theorem Grid.Proper.step_pos {d : ℕ} {g : Grid d ℝ} (h : g.Proper) (a : Fin d) : 0 < g.step a := by
  obtain ⟨h1, h2⟩ := h a
  unfold Grid.step
  have : (0 : ℝ) < g.shape a := by exact_mod_cast Nat.pos_of_ne_zero h1
  exact div_pos (by linarith) this

theorem fftfreq_eq_zero {n : ℕ} {d : ℝ} (hd : 0 < d) {k : ℤ} (h0 : 0 ≤ k) (h1 : k < n) : fftfreq n d k = 0 ↔ k = 0 := by
  have hn : (0 : ℝ) < n := by exact_mod_cast (by omega : 0 < n)
  unfold fftfreq
  rw [div_eq_zero_iff]
  constructor
  · rintro (h | h)
    · split_ifs at h with hk
      · exact_mod_cast h
      · have : ((k - n : ℤ) : ℝ) = 0 := by push_cast; exact h
        have : k - n = 0 := by exact_mod_cast this
        omega
    · exact absurd h (by positivity)
  · rintro rfl
    left
    rw [if_pos (by omega)]
    simp

theorem rfftfreq_eq_zero {n : ℕ} {d : ℝ} (hd : 0 < d) (hn : n ≠ 0) {k : ℤ} : rfftfreq n d k = 0 ↔ k = 0 := by
  have hn' : (0 : ℝ) < n := by exact_mod_cast Nat.pos_of_ne_zero hn
  unfold rfftfreq
  rw [div_eq_zero_iff]
  constructor
  · rintro (h | h)
    · exact_mod_cast h
    · exact absurd h (by positivity)
  · rintro rfl
    left; simp

theorem twoPiI_ne : twoPiI ≠ 0 := by
  unfold twoPiI
  simp [Real.pi_ne_zero]

theorem sumsq_ne {g : Grid 2 ℝ} (hg : g.Proper) {r c : ℤ} (hr0 : 0 ≤ r) (hr : r < g.shape 0) (h : ¬(r = 0 ∧ c = 0)) :
    (rfftMesh g r c).1 ^ 2 + (rfftMesh g r c).2 ^ 2 ≠ 0 := by
  intro h0
  have h1 : (rfftMesh g r c).1 = 0 := by nlinarith [sq_nonneg (rfftMesh g r c).1, sq_nonneg (rfftMesh g r c).2]
  have h2 : (rfftMesh g r c).2 = 0 := by nlinarith [sq_nonneg (rfftMesh g r c).1, sq_nonneg (rfftMesh g r c).2]
  exact h ⟨(fftfreq_eq_zero (hg.step_pos 0) hr0 hr).1 h1, (rfftfreq_eq_zero (hg.step_pos 1) (hg 1).1).1 h2⟩

/-- **C47** The velocity computed from any vorticity spectrum is divergence free: `kx vx + ky vy = 0` in every mode. -/
theorem C47_divergence_free (g : Grid 2 ℝ) (w : ℤ → ℤ → ℂ) (r c : ℤ) :
    ((rfftMesh g r c).1 : ℂ) * (vorticityToVelocity g w r c).1 + ((rfftMesh g r c).2 : ℂ) * (vorticityToVelocity g w r c).2 = 0 := by
  unfold vorticityToVelocity
  ring

/-- **C47** The curl of that velocity is the vorticity in every mode of the grid except the mean, where it is zero. -/
theorem C47_curl (g : Grid 2 ℝ) (hg : g.Proper) (w : ℤ → ℤ → ℂ) (r c : ℤ) (hr0 : 0 ≤ r) (hr : r < g.shape 0) :
    spectralCurl2d g (vorticityToVelocity g w) r c = if r = 0 ∧ c = 0 then 0 else w r c := by
  by_cases h : r = 0 ∧ c = 0
  · rw [if_pos h]
    obtain ⟨rfl, rfl⟩ := h
    have h1 : (rfftMesh g 0 0).1 = 0 := (fftfreq_eq_zero (hg.step_pos 0) le_rfl hr).2 rfl
    have h2 : (rfftMesh g 0 0).2 = 0 := (rfftfreq_eq_zero (hg.step_pos 1) (hg 1).1).2 rfl
    unfold spectralCurl2d
    rw [h1, h2]
    simp
  · rw [if_neg h]
    have hs := sumsq_ne hg (c := c) hr0 hr h
    unfold spectralCurl2d vorticityToVelocity v2vLaplace
    rw [if_neg h]
    simp only [sq_abs]
    have hs' : (((rfftMesh g r c).1 : ℂ) ^ 2 + ((rfftMesh g r c).2 : ℂ) ^ 2) ≠ 0 := by exact_mod_cast hs
    have hp := twoPiI_ne
    push_cast
    field_simp
    ring

/-- **C47** The two maps are inverse on divergence-free fields without a mean flow: such a velocity is recovered from its curl. -/
theorem C47_left_inverse (g : Grid 2 ℝ) (hg : g.Proper) (v : ℤ → ℤ → ℂ × ℂ) (h0 : v 0 0 = (0, 0))
    (hdiv : ∀ r c : ℤ, ((rfftMesh g r c).1 : ℂ) * (v r c).1 + ((rfftMesh g r c).2 : ℂ) * (v r c).2 = 0)
    (r c : ℤ) (hr0 : 0 ≤ r) (hr : r < g.shape 0) :
    vorticityToVelocity g (spectralCurl2d g v) r c = v r c := by
  by_cases h : r = 0 ∧ c = 0
  · obtain ⟨rfl, rfl⟩ := h
    have h1 : (rfftMesh g 0 0).1 = 0 := (fftfreq_eq_zero (hg.step_pos 0) le_rfl hr).2 rfl
    have h2 : (rfftMesh g 0 0).2 = 0 := (rfftfreq_eq_zero (hg.step_pos 1) (hg 1).1).2 rfl
    unfold vorticityToVelocity
    rw [h1, h2, h0]
    simp
  · have hs := sumsq_ne hg (c := c) hr0 hr h
    have hs' : (((rfftMesh g r c).1 : ℂ) ^ 2 + ((rfftMesh g r c).2 : ℂ) ^ 2) ≠ 0 := by exact_mod_cast hs
    have hp := twoPiI_ne
    have hd := hdiv r c
    unfold vorticityToVelocity spectralCurl2d v2vLaplace
    rw [if_neg h]
    simp only [sq_abs]
    push_cast
    set kx : ℂ := ((rfftMesh g r c).1 : ℂ)
    set ky : ℂ := ((rfftMesh g r c).2 : ℂ)
    refine Prod.ext ?_ ?_
    · dsimp only
      field_simp
      linear_combination (-kx) * hd
    · dsimp only
      field_simp
      linear_combination (-ky) * hd

/-- **C47** Each mode's kinetic energy is its enstrophy divided by `(2π)² (kx² + ky²)`. -/
theorem C47_energy (g : Grid 2 ℝ) (hg : g.Proper) (w : ℤ → ℤ → ℂ) (r c : ℤ) (hr0 : 0 ≤ r) (hr : r < g.shape 0)
    (h : ¬(r = 0 ∧ c = 0)) :
    ‖(vorticityToVelocity g w r c).1‖ ^ 2 + ‖(vorticityToVelocity g w r c).2‖ ^ 2 =
      ‖w r c‖ ^ 2 / ((2 * Real.pi) ^ 2 * ((rfftMesh g r c).1 ^ 2 + (rfftMesh g r c).2 ^ 2)) := by
  have hs := sumsq_ne hg (c := c) hr0 hr h
  have hpi := Real.pi_ne_zero
  have ht : ‖twoPiI‖ = 2 * Real.pi := by
    unfold twoPiI
    simp [abs_of_pos Real.pi_pos]
  unfold vorticityToVelocity v2vLaplace
  rw [if_neg h]
  simp only [sq_abs, norm_mul, norm_div, norm_neg, norm_one, norm_pow, Complex.norm_real, ht, ← Complex.ofReal_add,
    mul_pow, div_pow, Real.norm_eq_abs, one_pow]
  set kx := (rfftMesh g r c).1
  set ky := (rfftMesh g r c).2
  field_simp
  ring

/-- Non-vacuity: the 4 × 4 grid of the unit square. -/
example : (⟨fun _ => 4, fun _ => (0, 1)⟩ : Grid 2 ℝ).Proper := fun a => ⟨by show (4 : ℕ) ≠ 0; decide, by norm_num⟩

/-! ### Filters -/

/-- **C46** The brick-wall filter is a 0/1 mask that keeps the mean (grids with at least three rows and three columns) … -/
theorem C46_brick_wall_mask (n m : ℕ) (r c : ℤ) : brickWallFilter n m r c = 0 ∨ brickWallFilter n m r c = 1 := by
  unfold brickWallFilter
  dsimp only
  split_ifs <;> simp

theorem C46_brick_wall_mean (n m : ℕ) (hn : 3 ≤ n) (hm : 2 ≤ m) : brickWallFilter n m 0 0 = 1 := by
  unfold brickWallFilter
  dsimp only
  rw [if_pos]
  exact ⟨by omega, Or.inl (by omega)⟩

/-- … and removes every mode above two thirds of the resolved wavenumbers: kept modes satisfy `3 |kx| ≤ n + 3/2` and
`3 ky < 2 (m // 2 + 1)` in units of the fundamental wavenumber. -/
theorem C46_brick_wall_cutoff (n m : ℕ) (r c : ℤ) (hn : 2 ≤ n) (hr0 : 0 ≤ r) (hr : r < n)
    (h : brickWallFilter n m r c ≠ 0) : 6 * |centred n r| ≤ 2 * n + 3 ∧ 3 * c < 2 * (m / 2 + 1 : ℕ) := by
  unfold brickWallFilter at h
  dsimp only at h
  have hneg : -((2 * n / 3 : ℕ) : ℤ) / 2 < 0 := by omega
  rw [if_pos hneg] at h
  by_cases hc : c < ((2 * (m / 2 + 1) / 3 : ℕ) : ℤ) ∧ (r < ((2 * n / 3 / 2 : ℕ) : ℤ) ∨ max 0 ((n : ℤ) + -((2 * n / 3 : ℕ) : ℤ) / 2) ≤ r)
  · obtain ⟨h1, h2⟩ := hc
    refine ⟨?_, by omega⟩
    rcases h2 with h2 | h2
    · have : centred n r = r := by
        unfold centred
        rw [Int.emod_eq_of_lt (by omega) (by omega)]
        ring
      rw [this, abs_of_nonneg hr0]
      omega
    · have : centred n r = r - n := by
        unfold centred
        have e : r + (n / 2 : ℕ) = (r + (n / 2 : ℕ) - n) + n := by ring
        rw [e, Int.add_emod_right, Int.emod_eq_of_lt (by omega) (by omega)]
        ring
      rw [this, abs_of_nonpos (by omega)]
      omega
  · rw [if_neg hc] at h
    exact absurd rfl h

/-- **C46** The circular filter lies in `(0, 1]`, is 1 in the mean mode and in every mode within 65% of the largest wavenumber of
the last axis. -/
theorem C46_circular_filter (g : Grid 2 ℝ) (r c : ℤ) : 0 < circularFilter g r c ∧ circularFilter g r c ≤ 1 := by
  unfold circularFilter
  dsimp only
  split_ifs
  · exact ⟨one_pos, le_rfl⟩
  · refine ⟨Real.exp_pos _, Real.exp_le_one_iff.2 ?_⟩
    have := pow_nonneg (sq_nonneg (Real.sqrt ((rfftMesh g r c).1 ^ 2 + (rfftMesh g r c).2 ^ 2) -
      65 / 100 * (rfftMesh g ((g.shape 0 : ℤ) - 1) (g.shape 1 / 2 : ℕ)).2)) 2
    rw [← pow_mul] at this
    norm_num at this ⊢
    exact this

theorem C46_circular_keeps (g : Grid 2 ℝ) (r c : ℤ)
    (h : Real.sqrt ((rfftMesh g r c).1 ^ 2 + (rfftMesh g r c).2 ^ 2) ≤
      65 / 100 * rfftfreq (g.shape 1) (g.step 1) (g.shape 1 / 2 : ℕ)) : circularFilter g r c = 1 := by
  unfold circularFilter
  exact if_pos h

theorem C46_circular_mean (g : Grid 2 ℝ) (hg : g.Proper) : circularFilter g 0 0 = 1 := by
  apply C46_circular_keeps
  have h1 : (rfftMesh g 0 0).1 = 0 :=
    (fftfreq_eq_zero (hg.step_pos 0) le_rfl (by have := (hg 0).1; omega)).2 rfl
  have h2 : (rfftMesh g 0 0).2 = 0 := (rfftfreq_eq_zero (hg.step_pos 1) (hg 1).1).2 rfl
  rw [h1, h2]
  have := hg.step_pos 1
  simp only [ne_eq, OfNat.ofNat_ne_zero, not_false_eq_true, zero_pow, add_zero, Real.sqrt_zero]
  unfold rfftfreq
  positivity

/-! ### `downsample_spectral` -/

theorem fftn2_eq (x : NArr 2 ℂ) (k : Idx 2) :
    (fftn x).data k = ∑ j ∈ Finset.Ico (0 : ℤ) (x.shape 1), (∑ i ∈ Finset.Ico (0 : ℤ) (x.shape 0),
      x.data ![i, j] * fftKernel (x.shape 0) i (k 0)) * fftKernel (x.shape 1) j (k 1) := by
  have hl : List.finRange 2 = [0, 1] := by decide
  unfold fftn
  simp only [hl, List.foldl_cons, List.foldl_nil]
  unfold axisOp
  refine Finset.sum_congr rfl fun j _ => ?_
  congr 1
  refine Finset.sum_congr rfl fun i _ => ?_
  have e1 : Function.update (Function.update k 1 j) 0 i = ![i, j] := by
    funext a; fin_cases a <;> simp
  rw [e1]
  simp

/-- Decimation in one axis: the transform of every `f`-th sample is the mean of the `f` aliases. -/
theorem fft1_decimate {n f : ℕ} (hn : n ≠ 0) (hf : f ≠ 0) (x : ℤ → ℂ) (k : ℤ) :
    fft1 n (fun i => x (f * i)) k = (∑ a ∈ Finset.Ico (0 : ℤ) f, fft1 (f * n) x (k + a * n)) / f := by
  have hn' : (n : ℂ) ≠ 0 := Nat.cast_ne_zero.2 hn
  have hf' : (f : ℂ) ≠ 0 := Nat.cast_ne_zero.2 hf
  have hN : f * n ≠ 0 := Nat.mul_ne_zero hf hn
  unfold fft1
  rw [Finset.sum_comm]
  have e : ∀ j ∈ Finset.Ico (0 : ℤ) (f * n : ℕ), (∑ a ∈ Finset.Ico (0 : ℤ) f, x j * fftKernel (f * n) j (k + a * n)) =
      if (f : ℤ) ∣ j then x j * fftKernel (f * n) j k * f else 0 := by
    intro j _
    have h1 : ∀ a ∈ Finset.Ico (0 : ℤ) f, x j * fftKernel (f * n) j (k + a * n) =
        x j * fftKernel (f * n) j k * Complex.exp (2 * Real.pi * Complex.I * ((-j : ℤ) : ℂ) * a / f) := by
      intro a _
      rw [mul_assoc]
      congr 1
      unfold fftKernel
      rw [← Complex.exp_add]
      congr 1
      push_cast
      field_simp
      ring
    rw [Finset.sum_congr rfl h1, ← Finset.mul_sum, sum_exp hf]
    simp only [dvd_neg]
    split_ifs <;> simp
  rw [Finset.sum_congr rfl e, eq_div_iff hf', Finset.sum_mul, ← Finset.sum_filter]
  refine Finset.sum_bij (fun i _ => f * i) ?_ ?_ ?_ ?_
  · intro i hi
    simp only [Finset.mem_Ico, Finset.mem_filter] at hi ⊢
    refine ⟨⟨mul_nonneg (by omega) hi.1, ?_⟩, dvd_mul_right _ _⟩
    push_cast
    exact mul_lt_mul_of_pos_left hi.2 (by omega)
  · intro a _ b _ h
    exact mul_left_cancel₀ (by exact_mod_cast hf : (f : ℤ) ≠ 0) h
  · intro j hj
    simp only [Finset.mem_Ico, Finset.mem_filter] at hj
    obtain ⟨⟨h0, h1⟩, c, rfl⟩ := hj
    push_cast at h1
    have hfp : (0 : ℤ) < f := by omega
    refine ⟨c, Finset.mem_Ico.2 ⟨?_, lt_of_mul_lt_mul_left h1 hfp.le⟩, rfl⟩
    by_contra hc
    have : (f : ℤ) * c < 0 := mul_neg_of_pos_of_neg hfp (by omega)
    omega
  · intro i _
    congr 2
    unfold fftKernel
    congr 1
    push_cast
    field_simp

/-- The 2-D transform of a decimated signal. -/
theorem fftn2_decimate {n m f : ℕ} (hn : n ≠ 0) (hm : m ≠ 0) (hf : f ≠ 0) (x : Idx 2 → ℂ) (k : Idx 2) :
    (fftn (⟨![n, m], fun i => x ![f * i 0, f * i 1]⟩ : NArr 2 ℂ)).data k =
      (∑ b ∈ Finset.Ico (0 : ℤ) f, ∑ a ∈ Finset.Ico (0 : ℤ) f,
        (fftn (⟨![f * n, f * m], x⟩ : NArr 2 ℂ)).data ![k 0 + a * n, k 1 + b * m]) / (f : ℂ) ^ 2 := by
  have hf' : (f : ℂ) ≠ 0 := Nat.cast_ne_zero.2 hf
  have h1 : (fftn (⟨![n, m], fun i => x ![f * i 0, f * i 1]⟩ : NArr 2 ℂ)).data k =
      fft1 m (fun j => (fun j' => fft1 n (fun i => x ![f * i, j']) (k 0)) (f * j)) (k 1) := by
    rw [fftn2_eq]
    simp only [Matrix.cons_val_zero, Matrix.cons_val_one]
    rfl
  rw [h1, fft1_decimate hm hf (fun j' => fft1 n (fun i => x ![f * i, j']) (k 0))]
  have h2 : ∀ b ∈ Finset.Ico (0 : ℤ) f, fft1 (f * m) (fun j' => fft1 n (fun i => x ![f * i, j']) (k 0)) (k 1 + b * m) =
      (∑ a ∈ Finset.Ico (0 : ℤ) f, (fftn (⟨![f * n, f * m], x⟩ : NArr 2 ℂ)).data ![k 0 + a * n, k 1 + b * m]) / f := by
    intro b _
    have h3 : ∀ j : ℤ, fft1 n (fun i => x ![f * i, j]) (k 0) =
        (∑ a ∈ Finset.Ico (0 : ℤ) f, fft1 (f * n) (fun i => x ![i, j]) (k 0 + a * n)) / f :=
      fun j => fft1_decimate hn hf (fun i => x ![i, j]) (k 0)
    simp only [h3]
    unfold fft1
    rw [eq_div_iff hf', Finset.sum_mul]
    have h4 : ∀ a ∈ Finset.Ico (0 : ℤ) f, (fftn (⟨![f * n, f * m], x⟩ : NArr 2 ℂ)).data ![k 0 + a * n, k 1 + b * m] =
        ∑ j ∈ Finset.Ico (0 : ℤ) (f * m : ℕ), (∑ i ∈ Finset.Ico (0 : ℤ) (f * n : ℕ),
          x ![i, j] * fftKernel (f * n) i (k 0 + a * n)) * fftKernel (f * m) j (k 1 + b * m) := by
      intro a _
      rw [fftn2_eq]
      simp only [Matrix.cons_val_zero, Matrix.cons_val_one]
    rw [Finset.sum_congr rfl h4, Finset.sum_comm]
    refine Finset.sum_congr rfl fun j _ => ?_
    rw [div_mul_eq_mul_div, div_mul_cancel₀ _ hf', Finset.sum_mul]
  rw [Finset.sum_congr rfl h2, ← Finset.sum_div, div_div, ← pow_two]

/-- Band limited to wavenumbers below the Nyquist wavenumbers of an `n × m` grid. -/
def BandLimited (n m : ℕ) (x : NArr 2 ℝ) : Prop :=
  ∀ k : Idx 2, InR x.shape k → (n ≤ 2 * |centred (x.shape 0) (k 0)| ∨ m ≤ 2 * |centred (x.shape 1) (k 1)|) →
    (fftn (x.map (fun r : ℝ => (r : ℂ)))).data k = 0

/-- **C46** `downsample_spectral` samples band-limited signals: for every factor `f`, every even number `n` of destination rows and
every signal on the `f n × f m` grid without wavenumbers at or above the destination's Nyquist wavenumbers, the downsampled
spectrum is exactly the spectrum of every `f`-th sample. -/
theorem C46_downsample_spectral (dst : Grid 2 ℝ) (f : ℕ) (hf : f ≠ 0) (hn : dst.shape 0 ≠ 0) (he : dst.shape 0 % 2 = 0)
    (hm : dst.shape 1 ≠ 0) (x : NArr 2 ℝ) (hx : x.shape = ![f * dst.shape 0, f * dst.shape 1])
    (hb : BandLimited (dst.shape 0) (dst.shape 1) x) :
    ∃ y, downsampleSpectral dst (rfftn (k := 1) x) = .ok y ∧
      y.Eqv (rfftn (k := 1) ⟨dst.shape, fun i => x.data ![f * i 0, f * i 1]⟩) := by
  obtain ⟨xs, xd⟩ := x
  simp only at hx
  subst hx
  set n := dst.shape 0 with hnn
  set m := dst.shape 1 with hmm
  have hnf : n ≤ f * n := Nat.le_mul_of_pos_left _ (by omega)
  have hmf : m ≤ f * m := Nat.le_mul_of_pos_left _ (by omega)
  have hlast : (Fin.last 1 : Fin 2) = 1 := rfl
  have hs0 : (rfftn (k := 1) (⟨![f * n, f * m], xd⟩ : NArr 2 ℝ)).shape 0 = f * n := by
    simp [rfftn, hlast]
  have hs1 : (rfftn (k := 1) (⟨![f * n, f * m], xd⟩ : NArr 2 ℝ)).shape 1 = f * m / 2 + 1 := by
    simp [rfftn, hlast]
  refine ⟨_, by unfold downsampleSpectral; dsimp only; rw [if_neg (by rw [hs0]; exact Nat.mul_ne_zero hf hn)], ?_, ?_⟩
  · funext a
    fin_cases a
    · simp only [rfftn, hlast, Fin.mk_zero, Fin.zero_eta, Fin.isValue, Matrix.cons_val_zero]
      rw [Function.update_of_ne (by decide), Function.update_of_ne (by decide)]
      simp only [Matrix.cons_val_zero, ← hnn]
      rw [if_neg hn]
      omega
    · simp only [rfftn, hlast, Fin.mk_one, Matrix.cons_val_one, Function.update_self, ← hmm]
      have : m / 2 ≤ f * m / 2 := Nat.div_le_div_right hmf
      show min (m / 2 + 1) (f * m / 2 + 1) = m / 2 + 1
      omega
  intro i hi
  have hi0 := hi 0
  have hi1 := hi 1
  simp only [Matrix.cons_val_zero, Matrix.cons_val_one, hs0, hs1, ← hnn, ← hmm] at hi0 hi1
  rw [if_neg hn] at hi0
  simp only [hs0, ← hnn]
  rw [if_neg hn]
  have hr1 : min (n / 2) (f * n) = n / 2 := by omega
  have hr2 : min ((n + 1) / 2) (f * n) = n / 2 := by omega
  rw [hr1, hr2] at hi0 ⊢
  have hi1' : i 1 < m / 2 + 1 := by omega
  -- the transform of the decimated signal
  have hshape : dst.shape = ![n, m] := by funext a; fin_cases a <;> rfl
  have hR : (rfftn (k := 1) (⟨dst.shape, fun i => xd ![f * i 0, f * i 1]⟩ : NArr 2 ℝ)).data i =
      (fftn (⟨![n, m], fun i => (fun i => (xd i : ℂ)) ![f * i 0, f * i 1]⟩ : NArr 2 ℂ)).data i := by
    unfold rfftn
    rw [hshape]
    rfl
  have hL : ∀ k, (rfftn (k := 1) (⟨![f * n, f * m], xd⟩ : NArr 2 ℝ)).data k =
      (fftn (⟨![f * n, f * m], fun i => (xd i : ℂ)⟩ : NArr 2 ℂ)).data k := fun k => rfl
  rw [hR, fftn2_decimate hn hm hf (fun i => (xd i : ℂ)), hL]
  set X := (fftn (⟨![f * n, f * m], fun i => (xd i : ℂ)⟩ : NArr 2 ℂ)).data with hX
  have hband : ∀ k l : ℤ, 0 ≤ k → k < (f * n : ℕ) → 0 ≤ l → l < (f * m : ℕ) →
      ((n : ℤ) ≤ 2 * |centred (f * n) k| ∨ (m : ℤ) ≤ 2 * |centred (f * m) l|) → X ![k, l] = 0 := by
    intro k l h1 h2 h3 h4 h5
    refine hb ![k, l] ?_ ?_
    · intro a
      fin_cases a
      · exact ⟨h1, h2⟩
      · exact ⟨h3, h4⟩
    · simpa using h5
  have hfZ : ((f * n : ℕ) : ℤ) = f * n := by push_cast; rfl
  have hfZ' : ((f * m : ℕ) : ℤ) = f * m := by push_cast; rfl
  have hcen : ∀ (N : ℕ) (k : ℤ), 0 ≤ k → k < N → (centred N k = k ∧ 2 * k < N) ∨ (centred N k = k - N ∧ (N : ℤ) ≤ 2 * k) := by
    intro N k h1 h2
    unfold centred
    by_cases h3 : 2 * k < N
    · left
      refine ⟨?_, h3⟩
      rw [Int.emod_eq_of_lt (by omega) (by omega)]
      ring
    · right
      refine ⟨?_, by omega⟩
      have e : k + (N / 2 : ℕ) = (k + (N / 2 : ℕ) - N) + N := by ring
      rw [e, Int.add_emod_right, Int.emod_eq_of_lt (by omega) (by omega)]
      ring
  set r : ℤ := if i 0 < n / 2 then 0 else f - 1 with hr
  have hsum : (∑ b ∈ Finset.Ico (0 : ℤ) f, ∑ a ∈ Finset.Ico (0 : ℤ) f, X ![i 0 + a * n, i 1 + b * m]) = X ![i 0 + r * n, i 1] := by
    rw [Finset.sum_eq_single 0, Finset.sum_eq_single r]
    · simp
    · intro a ha har
      have ha' := Finset.mem_Ico.1 ha
      have h1 : 0 ≤ a * (n : ℤ) := mul_nonneg ha'.1 (by omega)
      have h2 : a * (n : ℤ) ≤ (f - 1) * n := mul_le_mul_of_nonneg_right (by omega) (by omega)
      have h3 : ((f : ℤ) - 1) * n = f * n - n := by ring
      simp only [zero_mul, add_zero]
      apply hband
      · omega
      · omega
      · omega
      · omega
      · left
        by_cases hc : i 0 < n / 2
        · rw [hr, if_pos hc] at har
          have h4 : (1 : ℤ) * n ≤ a * n := mul_le_mul_of_nonneg_right (by omega) (by omega)
          rcases hcen (f * n) (i 0 + a * n) (by omega) (by omega) with ⟨h5, h6⟩ | ⟨h5, h6⟩
          · rw [h5]
            have := le_abs_self (i 0 + a * n)
            omega
          · rw [h5]
            have := neg_abs_le (i 0 + a * n - (f * n : ℕ))
            omega
        · rw [hr, if_neg hc] at har
          have h4 : a * (n : ℤ) ≤ (f - 2) * n := mul_le_mul_of_nonneg_right (by omega) (by omega)
          have h4' : ((f : ℤ) - 2) * n = f * n - 2 * n := by ring
          rcases hcen (f * n) (i 0 + a * n) (by omega) (by omega) with ⟨h5, h6⟩ | ⟨h5, h6⟩
          · rw [h5]
            have := le_abs_self (i 0 + a * n)
            omega
          · rw [h5]
            have := neg_abs_le (i 0 + a * n - (f * n : ℕ))
            omega
    · intro h
      exfalso
      apply h
      rw [Finset.mem_Ico, hr]
      split_ifs <;> omega
    · intro b hb' hb0
      have hb'' := Finset.mem_Ico.1 hb'
      refine Finset.sum_eq_zero fun a ha => ?_
      have ha' := Finset.mem_Ico.1 ha
      have h1 : 0 ≤ a * (n : ℤ) := mul_nonneg ha'.1 (by omega)
      have h2 : a * (n : ℤ) ≤ (f - 1) * n := mul_le_mul_of_nonneg_right (by omega) (by omega)
      have h3 : ((f : ℤ) - 1) * n = f * n - n := by ring
      have k1 : (1 : ℤ) * m ≤ b * m := mul_le_mul_of_nonneg_right (by omega) (by omega)
      have k2 : b * (m : ℤ) ≤ (f - 1) * m := mul_le_mul_of_nonneg_right (by omega) (by omega)
      have k3 : ((f : ℤ) - 1) * m = f * m - m := by ring
      apply hband
      · omega
      · omega
      · omega
      · omega
      · right
        rcases hcen (f * m) (i 1 + b * m) (by omega) (by omega) with ⟨h5, h6⟩ | ⟨h5, h6⟩
        · rw [h5]
          have := le_abs_self (i 1 + b * m)
          omega
        · rw [h5]
          have := neg_abs_le (i 1 + b * m - (f * m : ℕ))
          omega
    · intro h
      exfalso
      apply h
      rw [Finset.mem_Ico]
      omega
  rw [hsum]
  have hrow : (if i 0 < ((n / 2 : ℕ) : ℤ) then i 0 else ((f * n : ℕ) : ℤ) - ((n / 2 : ℕ) : ℤ) + (i 0 - ((n / 2 : ℕ) : ℤ))) = i 0 + r * n := by
    have h3 : ((f : ℤ) - 1) * n = f * n - n := by ring
    rw [hr]
    split_ifs with h1 h2 h2
    · ring
    · omega
    · omega
    · rw [h3]; omega
  rw [hrow]
  have hnc : (n : ℂ) ≠ 0 := Nat.cast_ne_zero.2 hn
  have hfc : (f : ℂ) ≠ 0 := Nat.cast_ne_zero.2 hf
  push_cast
  field_simp

/-- Non-vacuity: constant signals are band limited. -/
example : BandLimited 2 2 ⟨![4, 4], fun _ => 0⟩ := by
  intro k _ _
  rw [fftn2_eq]
  simp [NArr.map]

/-- The defect for an odd number of destination rows: row `(n - 1) / 2`, whose wavenumber is `(n - 1) / 2`, receives the source's
row with wavenumber `-(n + 1) / 2`. -/
theorem C46_downsample_spectral_odd_defect (dst : Grid 2 ℝ) (s : NArr 2 ℂ) (ho : dst.shape 0 % 2 = 1) (hs : dst.shape 0 ≤ s.shape 0) :
    ∃ y, downsampleSpectral dst s = .ok y ∧ ∀ c : ℤ,
      y.data ![((dst.shape 0 : ℤ) - 1) / 2, c] =
        ((dst.shape 0 : ℂ) / s.shape 0) ^ 2 * s.data ![(s.shape 0 : ℤ) - (dst.shape 0 + 1) / 2, c] := by
  refine ⟨_, by unfold downsampleSpectral; dsimp only; rw [if_neg (by omega)], ?_⟩
  intro c
  have h0 : (![((dst.shape 0 : ℤ) - 1) / 2, c] : Idx 2) 0 = ((dst.shape 0 : ℤ) - 1) / 2 := rfl
  have h1 : (![((dst.shape 0 : ℤ) - 1) / 2, c] : Idx 2) 1 = c := rfl
  dsimp only
  have hc : dst.shape 0 ≠ 0 := by omega
  have hd : ¬ (![((dst.shape 0 : ℤ) - 1) / 2, c] : Idx 2) 0 < ((min (dst.shape 0 / 2) (s.shape 0) : ℕ) : ℤ) := by rw [h0]; omega
  rw [if_neg hd, if_neg hc, h0, h1]
  have e : (s.shape 0 : ℤ) - ((min ((dst.shape 0 + 1) / 2) (s.shape 0) : ℕ) : ℤ) +
      (((dst.shape 0 : ℤ) - 1) / 2 - ((min (dst.shape 0 / 2) (s.shape 0) : ℕ) : ℤ)) = (s.shape 0 : ℤ) - (dst.shape 0 + 1) / 2 := by
    omega
  rw [e]

end JaxCfd
