import Verif.Lemmas.Filter
import Verif.Props.Forcings

/-!
# C49: spectral filters
-/

namespace JaxCfd
variable {d : ℕ}

/-- The discrete Fourier transform of a real array. -/
noncomputable def spectrum (x : NArr d ℝ) (k : Idx d) : ℂ := (fftn (x.map fun r : ℝ => (r : ℂ))).data k

/-- The transform is the usual sum over all points. -/
theorem spectrum_eq (x : NArr d ℝ) (k : Idx d) :
    spectrum x k = ∑ i ∈ box x.shape, (x.data i : ℂ) * ∏ a, Complex.exp (-(2 * Real.pi * Complex.I * i a * k a / x.shape a)) := by
  unfold spectrum
  rw [fftn_eq, axesOp_sum_box _ _ _ (List.nodup_finRange d)]
  have : (Fintype.piFinset fun a : Fin d => if a ∈ List.finRange d then Finset.Ico (0 : ℤ) ((x.map fun r : ℝ => (r : ℂ)).shape a) else {k a}) = box x.shape := by
    simp [box]; rfl
  rw [this]
  refine Finset.sum_congr rfl fun i _ => ?_
  rw [← List.ofFn_eq_map, List.prod_ofFn]
  rfl

theorem spectrum_injective {x y : NArr d ℝ} {s : Fin d → ℕ} (hx : x.shape = s) (hy : y.shape = s)
    (h : ∀ k, InR s k → spectrum x k = spectrum y k) (i : Idx d) (hi : InR s i) : x.data i = y.data i := by
  have hX := axesOp_inverse (fft_inverse s) _ (List.nodup_finRange d) (fun i => (x.data i : ℂ)) i hi
  have hY := axesOp_inverse (fft_inverse s) _ (List.nodup_finRange d) (fun i => (y.data i : ℂ)) i hi
  have hxy : BoxEq s (axesOp s (fun a => fftKernel (s a)) (List.finRange d) fun i => (x.data i : ℂ))
      (axesOp s (fun a => fftKernel (s a)) (List.finRange d) fun i => (y.data i : ℂ)) := by
    intro k hk
    have := h k hk
    unfold spectrum at this
    rw [fftn_eq, fftn_eq] at this
    simp only [NArr.map, hx, hy] at this
    exact this
  rw [axesOp_congr _ _ hxy i hi, hY] at hX
  exact Complex.ofReal_injective hX.symm

/-- **C49.** `filter` multiplies every Fourier coefficient by the spectral density at its wavenumber and removes the mean; taking the
real part of the inverse transform loses nothing. -/
theorem C49_filter (hd : d ≠ 0) (density : ℝ → ℝ) (g : Grid d ℝ) (hg : g.Proper) (x : NArr d ℝ) (hx : x.shape = g.shape) :
    ∃ y, spectralFilter density x g = .ok y ∧ y.shape = g.shape ∧ ∀ k, InR g.shape k →
      spectrum y k = if k = 0 then 0 else density (waveNumber g k) * spectrum x k := by
  obtain ⟨s, xd⟩ := x
  simp only at hx
  subst hx
  have hs : ∀ a, g.shape a ≠ 0 := fun a => (hg a).1
  unfold spectralFilter
  rw [if_neg hd, if_neg (by simp)]
  refine ⟨_, rfl, rfl, fun k hk => ?_⟩
  have hX := HSym.fft_axes (List.finRange d) (List.nodup_finRange d) (HSym.real g.shape xd) (fun a _ => Finset.notMem_empty a)
  have huniv : (∅ ∪ (List.finRange d).toFinset : Finset (Fin d)) = Finset.univ := by ext; simp
  rw [huniv] at hX
  have hP := hX.mul (waveNumber_HSym hs fun w => if 0 < w then density w else 0)
  have hR := hP.ifft_axes (List.finRange d) (List.nodup_finRange d) (fun a _ => Finset.mem_univ a)
  have hem : (Finset.univ \ (List.finRange d).toFinset : Finset (Fin d)) = ∅ := by ext; simp
  rw [hem] at hR
  have hgain : BoxEq g.shape (fun k => (fftn (NArr.map (fun r : ℝ => (r : ℂ)) ⟨g.shape, xd⟩)).data k * (filterGain density g k : ℂ))
      (fun k => axesOp g.shape (fun a => fftKernel (g.shape a)) (List.finRange d) (fun i => (xd i : ℂ)) k *
        ((if 0 < waveNumber g k then density (waveNumber g k) else 0 : ℝ) : ℂ)) := by
    intro k hk
    unfold filterGain
    beta_reduce
    rw [angularMagnitude_eq hg hk]
    rfl
  have hback := axesOp_inverse (ifft_inverse g.shape) _ (List.nodup_finRange d)
    (fun k => axesOp g.shape (fun a => fftKernel (g.shape a)) (List.finRange d) (fun i => (xd i : ℂ)) k *
        ((if 0 < waveNumber g k then density (waveNumber g k) else 0 : ℝ) : ℂ)) k hk
  unfold spectrum
  rw [fftn_eq]
  refine (axesOp_congr (fun a => fftKernel (g.shape a)) (List.finRange d) (y := _) ?_ k hk).trans (hback.trans ?_)
  · intro i hi
    show (((ifftn _).data i).re : ℂ) = _
    rw [ifftn_eq]
    have := axesOp_congr (fun a => ifftKernel (g.shape a)) (List.finRange d) hgain i hi
    refine (congrArg (fun z : ℂ => ((z.re : ℝ) : ℂ)) this).trans ?_
    exact hR.empty_real i
  · show axesOp g.shape (fun a => fftKernel (g.shape a)) (List.finRange d) (fun i => (xd i : ℂ)) k * _ = _
    by_cases h0 : k = 0
    · have hn : ¬ 0 < waveNumber g k := fun h => (waveNumber_pos hg hk).1 h h0
      rw [if_neg hn, if_pos h0]; simp
    · rw [if_pos ((waveNumber_pos hg hk).2 h0), if_neg h0, mul_comm]
      rfl

/-- **C49.** Every filtered array sums to zero. -/
theorem C49_filter_mean (hd : d ≠ 0) (density : ℝ → ℝ) (g : Grid d ℝ) (hg : g.Proper) (x y : NArr d ℝ) (hx : x.shape = g.shape)
    (hy : spectralFilter density x g = .ok y) : y.sum = 0 := by
  obtain ⟨y', hy', hs, hk⟩ := C49_filter hd density g hg x hx
  rw [hy'] at hy
  injection hy with hy
  subst hy
  have h := hk 0 (fun a => ⟨le_rfl, by have := (hg a).1; simp; omega⟩)
  rw [if_pos rfl] at h
  unfold spectrum at h
  rw [fftn_zero] at h
  unfold NArr.sum
  have h' : ((∑ i ∈ box y'.shape, y'.data i : ℝ) : ℂ) = 0 := by
    push_cast
    exact h
  exact_mod_cast h'

/-- **C49.** Filtering twice is filtering once with the product of the densities, so filters commute. -/
theorem C49_filter_compose (hd : d ≠ 0) (p q : ℝ → ℝ) (g : Grid d ℝ) (hg : g.Proper) (x : NArr d ℝ) (hx : x.shape = g.shape) :
    ∃ y z w, spectralFilter q x g = .ok y ∧ spectralFilter p y g = .ok z ∧ spectralFilter (fun k => p k * q k) x g = .ok w ∧ z.Eqv w := by
  obtain ⟨y, hy, hys, hyk⟩ := C49_filter hd q g hg x hx
  obtain ⟨z, hz, hzs, hzk⟩ := C49_filter hd p g hg y hys
  obtain ⟨w, hw, hws, hwk⟩ := C49_filter hd (fun k => p k * q k) g hg x hx
  refine ⟨y, z, w, hy, hz, hw, hzs.trans hws.symm, fun i hi => spectrum_injective hzs hws (fun k hk => ?_) i (by rw [← hzs]; exact hi)⟩
  rw [hzk k hk, hwk k hk, hyk k hk]
  split_ifs
  · rfl
  · push_cast; ring

/-- **C49.** A density that is 1 everywhere only removes the mean. -/
theorem C49_filter_one (hd : d ≠ 0) (g : Grid d ℝ) (hg : g.Proper) (x : NArr d ℝ) (hx : x.shape = g.shape) (h0 : x.sum = 0) :
    ∃ y, spectralFilter (fun _ => 1) x g = .ok y ∧ y.Eqv x := by
  obtain ⟨y, hy, hys, hyk⟩ := C49_filter hd (fun _ => 1) g hg x hx
  refine ⟨y, hy, hys.trans hx.symm, fun i hi => spectrum_injective hys hx (fun k hk => ?_) i (by rw [← hys]; exact hi)⟩
  rw [hyk k hk]
  split_ifs with h
  · subst h
    unfold spectrum
    rw [fftn_zero]
    have : ((x.sum : ℝ) : ℂ) = 0 := by rw [h0]; rfl
    unfold NArr.sum at this
    push_cast at this
    exact this.symm
  · push_cast; ring

/-- **C49.** `filtered_linear_forcing` multiplies exactly the modes whose wavenumber lies in the band by the coefficient and removes all
others (and the mean); labels are those of the velocity. -/
theorem C49_filtered_linear (hd : d ≠ 0) (lower upper c : ℝ) (g : Grid d ℝ) (hg : g.Proper) (v : Fin d → GridVariable d ℝ)
    (hv : ∀ a, (v a).array.shape = g.shape) :
    ∃ f, filteredLinearForcing lower upper c g v = .ok f ∧ ∀ a, (f a).offset = (v a).array.offset ∧ (f a).grid = (v a).array.grid ∧
      (f a).shape = g.shape ∧ ∀ k, InR g.shape k → spectrum (f a).toNArr k =
        if k ≠ 0 ∧ lower ≤ waveNumber g k / (2 * Real.pi) ∧ waveNumber g k / (2 * Real.pi) ≤ upper then c * spectrum (v a).array.toNArr k
        else 0 := by
  unfold filteredLinearForcing filteredForcing
  choose y hy hys hyk using fun a => C49_filter hd (fun k => if 2 * Real.pi * lower ≤ k ∧ k ≤ 2 * Real.pi * upper then c else 0) g hg
    (v a).array.toNArr (hv a)
  refine ⟨fun a => ⟨y a, (v a).array.offset, (v a).array.grid⟩, seqFin_ok _ (fun a => (⟨y a, (v a).array.offset, (v a).array.grid⟩ : GridArray d ℝ))
    (fun a => by beta_reduce; rw [hy a]; rfl), fun a => ⟨rfl, rfl, hys a, fun k hk => ?_⟩⟩
  rw [hyk a k hk]
  have hp : 0 < 2 * Real.pi := by positivity
  have hiff : (lower ≤ waveNumber g k / (2 * Real.pi) ∧ waveNumber g k / (2 * Real.pi) ≤ upper) ↔
      (2 * Real.pi * lower ≤ waveNumber g k ∧ waveNumber g k ≤ 2 * Real.pi * upper) := by
    rw [le_div_iff₀ hp, div_le_iff₀ hp, mul_comm lower, mul_comm upper]
  by_cases h0 : k = 0
  · rw [if_pos h0, if_neg (fun h => h.1 h0)]
  · rw [if_neg h0]
    by_cases hb : 2 * Real.pi * lower ≤ waveNumber g k ∧ waveNumber g k ≤ 2 * Real.pi * upper
    · rw [if_pos hb, if_pos ⟨h0, hiff.2 hb⟩]
    · rw [if_neg hb, if_neg (fun h => hb (hiff.1 h.2))]; simp

/-- Non-vacuity: on a grid of length `2 π` with 4 cells, mode 1 has wavenumber 1. -/
example : (⟨fun _ => 4, fun _ => (0, 2 * Real.pi)⟩ : Grid 1 ℝ).Proper ∧
    waveNumber (⟨fun _ => 4, fun _ => (0, 2 * Real.pi)⟩ : Grid 1 ℝ) (fun _ => 1) = 1 := by
  constructor
  · intro a
    exact ⟨by norm_num, by positivity⟩
  · have : centred 4 1 = 1 := by decide
    unfold waveNumber
    simp [this, Real.pi_ne_zero]

end JaxCfd
