import Verif.Props.Spectrum
import Verif.Props.NavierStokes
import Verif.Lemmas.SpectralUtils

/-!
# C65: vorticity and correlations of datasets
-/

namespace JaxCfd.Eval
open JaxCfd
variable {d : ℕ}

/-- A dataset that holds the velocity `v` on the grid `g`, labelled with the cell centres. -/
def Holds (g : Grid 2 ℝ) (v : Fin 2 → GridVariable 2 ℝ) (ds : XDataset 2 ℝ) : Prop :=
  ds.sizes = g.shape ∧ (∀ b, ∀ j : ℤ, 0 ≤ j → j < g.shape b → ds.coords b j = (g.domain b).1 + (j + 1 / 2) * g.step b) ∧
    ds.vars.lookup "u" = some (v 0).array.data ∧ ds.vars.lookup "v" = some (v 1).array.data

theorem spacing_ok {n : ℕ} (hn : 2 ≤ n) {c : ℤ → ℝ} {a s : ℝ} (h : ∀ j : ℤ, 0 ≤ j → j < n → c j = a + (j + 1 / 2) * s) : spacing n c = .ok s := by
  unfold spacing
  rw [if_neg (by omega), h 1 (by omega) (by omega), h 0 le_rfl (by omega)]
  congr 1
  push_cast
  ring

theorem rollData_rollIdx {s : Fin 2 → ℕ} {f : Idx 2 → ℝ} {i : Idx 2} (hi : InR s i) :
    rollData s ![-1, 0] f i = f (rollIdx s 0 1 i) ∧ rollData s ![0, -1] f i = f (rollIdx s 1 1 i) := by
  unfold rollData rollIdx
  constructor
  · congr 1
    funext a
    fin_cases a
    · simp
    · simpa using Int.emod_eq_of_lt (hi 1).1 (hi 1).2
  · congr 1
    funext a
    fin_cases a
    · simpa using Int.emod_eq_of_lt (hi 0).1 (hi 0).2
    · simp

/-- **C65.** `vorticity_2d` of a dataset that holds a periodic staggered velocity is `curl_2d` of that velocity, `enstrophy_2d` is half its
square. -/
theorem C65_vorticity [HasNan ℝ] {g : Grid 2 ℝ} (hg : ∀ a, 2 ≤ g.shape a) {v : Fin 2 → GridVariable 2 ℝ} (hv : PeriodicField g v) {ds : XDataset 2 ℝ} (h : Holds g v ds) :
    ∃ w r e, curl2d [v 0, v 1] = .ok w ∧ vorticity2d ds = .ok r ∧ enstrophy2d ds = .ok e ∧ r.sizes = g.shape ∧ w.shape = g.shape ∧
      ∀ i : Idx 2, InR g.shape i → r.data i = w.data i ∧ e.data i = w.data i ^ 2 / 2 := by
  obtain ⟨h1, h2, h3, h4⟩ := h
  have hper : ∀ a, (v a).Periodic := fun a => hv.periodic (fun b => by have := hg b; omega) a
  have hgr : ∀ a, (v a).array.grid = g := fun a => (hv.1 a).1
  have hsh : ∀ a, (v a).array.shape = g.shape := fun a => (hv.1 a).2.1
  have ho : ∀ a b, (v a).array.offset b = if b = a then 1 else 1 / 2 := fun a b => (hv.1 a).2.2 b
  have hc : curl2d [v 0, v 1] = .ok ⟨⟨(v 1).array.shape, fun i => (fwdP (v 1) 0).data i - (fwdP (v 0) 1).data i⟩, (fwdP (v 1) 0).offset, (v 1).array.grid⟩ := by
    unfold curl2d
    dsimp only
    rw [show consistentGrid [(v 0).array, (v 1).array] = .ok (v 0).array.grid from uniqueOr_eq_ok.2 ⟨by simp, by simp [hgr]⟩, Except.bind_ok,
      forwardDifference_periodic (hper 1), Except.bind_ok, forwardDifference_periodic (hper 0), Except.bind_ok, gmap2_eq_ok]
    refine ⟨(hsh 1).trans (hsh 0).symm, ?_, (hgr 1).trans (hgr 0).symm, rfl⟩
    funext b
    fin_cases b <;> norm_num [ho]
  have hvort : vorticity2d ds = .ok ⟨ds.sizes, ds.coords, fun i => (rollData ds.sizes ![-1, 0] (v 1).array.data i - (v 1).array.data i) / g.step 0 -
      (rollData ds.sizes ![0, -1] (v 0).array.data i - (v 0).array.data i) / g.step 1⟩ := by
    unfold vorticity2d XDataset.get
    rw [h1, spacing_ok (hg 1) (h2 1), Except.bind_ok, spacing_ok (hg 0) (h2 0), Except.bind_ok, h3, h4]
    rfl
  have key : ∀ i : Idx 2, InR g.shape i → (rollData ds.sizes ![-1, 0] (v 1).array.data i - (v 1).array.data i) / g.step 0 -
      (rollData ds.sizes ![0, -1] (v 0).array.data i - (v 0).array.data i) / g.step 1 = (fwdP (v 1) 0).data i - (fwdP (v 0) 1).data i := by
    intro i hi
    rw [h1, (rollData_rollIdx hi).1, (rollData_rollIdx hi).2]
    dsimp only
    rw [hgr, hgr, hsh, hsh]
  refine ⟨_, _, ⟨ds.sizes, ds.coords, fun i => ((rollData ds.sizes ![-1, 0] (v 1).array.data i - (v 1).array.data i) / g.step 0 -
      (rollData ds.sizes ![0, -1] (v 0).array.data i - (v 0).array.data i) / g.step 1) ^ 2 / 2⟩, hc, hvort, ?_, h1, hsh 1, fun i hi => ⟨key i hi, ?_⟩⟩
  · unfold enstrophy2d
    rw [hvort]
    rfl
  · dsimp only
    rw [key i hi]

/-- **C65.** The vorticity of every dataset sums to zero over the grid. -/
theorem C65_circulation (ds : XDataset 2 ℝ) (r : XArray 2 ℝ) (h : vorticity2d ds = .ok r) : ∑ i ∈ box r.sizes, r.data i = 0 := by
  unfold vorticity2d at h
  obtain ⟨dy, -, h⟩ := Except.bind_eq_ok.1 h
  obtain ⟨dx, -, h⟩ := Except.bind_eq_ok.1 h
  obtain ⟨v, -, h⟩ := Except.bind_eq_ok.1 h
  obtain ⟨u, -, h⟩ := Except.bind_eq_ok.1 h
  have hr := Except.ok.inj h
  rw [← hr]
  dsimp only
  rw [Finset.sum_sub_distrib, ← Finset.sum_div, ← Finset.sum_div, Finset.sum_sub_distrib, Finset.sum_sub_distrib, sum_rollData, sum_rollData]
  simp

/-! ### Spatial correlation -/

theorem periodicCorrelate_eq {n : ℕ} (hn : n ≠ 0) (u v : ℤ → ℝ) (j : ℤ) :
    periodicCorrelate n u v j = ∑ x ∈ Finset.Ico (0 : ℤ) n, u x * v ((x + j) % n) := by
  unfold periodicCorrelate ifft1 fft1
  have hn' : (n : ℂ) ≠ 0 := by exact_mod_cast hn
  have e1 : ∀ k : ℤ, (starRingEnd ℂ) (∑ x ∈ Finset.Ico (0 : ℤ) n, (u x : ℂ) * fftKernel n x k) * (∑ y ∈ Finset.Ico (0 : ℤ) n, (v y : ℂ) * fftKernel n y k) * ifftKernel n k j =
      ∑ x ∈ Finset.Ico (0 : ℤ) n, ∑ y ∈ Finset.Ico (0 : ℤ) n, (u x : ℂ) * v y / n * wave n (x - y + j) k := by
    intro k
    rw [map_sum, Finset.sum_mul_sum, Finset.sum_mul]
    refine Finset.sum_congr rfl fun x _ => ?_
    rw [Finset.sum_mul]
    refine Finset.sum_congr rfl fun y _ => ?_
    rw [map_mul, Complex.conj_ofReal, fftKernel_conj]
    have : wave n (x - y + j) k = fftKernel n x (-k) * fftKernel n y k * (ifftKernel n k j * n) := by
      unfold wave fftKernel ifftKernel
      rw [div_mul_cancel₀ _ hn', ← Complex.exp_add, ← Complex.exp_add]
      congr 1
      push_cast
      ring
    rw [this]
    field_simp
  rw [Finset.sum_congr rfl fun k _ => e1 k, Finset.sum_comm, Complex.re_sum]
  refine Finset.sum_congr rfl fun x hx => ?_
  rw [Finset.sum_comm]
  rw [Finset.mem_Ico] at hx
  have e2 : ∀ y : ℤ, ∑ k ∈ Finset.Ico (0 : ℤ) n, (u x : ℂ) * v y / n * wave n (x - y + j) k = if (n : ℤ) ∣ x - y + j then ((u x * v y : ℝ) : ℂ) else 0 := by
    intro y
    rw [← Finset.mul_sum, sum_wave hn]
    split_ifs
    · push_cast
      field_simp
    · simp
  have hpos : (0 : ℤ) < n := by omega
  rw [Finset.sum_congr rfl fun y _ => e2 y, Finset.sum_eq_single ((x + j) % n)]
  · rw [if_pos, Complex.ofReal_re]
    have := Int.emod_add_mul_ediv (x + j) n
    exact ⟨(x + j) / n, by linarith⟩
  · intro y hy hne
    rw [Finset.mem_Ico] at hy
    rw [if_neg]
    intro hd
    refine hne ?_
    have : (x + j) % n = y % n := (Int.ModEq.symm (Int.modEq_iff_dvd.2 (by rwa [show x + j - y = x - y + j by ring])) : _ ≡ _ [ZMOD n])
    rw [this, Int.emod_eq_of_lt hy.1 hy.2]
  · intro h
    exact absurd (Finset.mem_Ico.2 ⟨Int.emod_nonneg _ (by omega), Int.emod_lt_of_pos _ hpos⟩) h

theorem sum_shift {n : ℕ} (hn : n ≠ 0) (f : ℤ → ℝ) (j : ℤ) : ∑ x ∈ Finset.Ico (0 : ℤ) n, f ((x + j) % n) = ∑ x ∈ Finset.Ico (0 : ℤ) n, f x := by
  have hpos : (0 : ℤ) < n := by omega
  refine Finset.sum_nbij' (fun x => (x + j) % n) (fun x => (x - j) % n) ?_ ?_ ?_ ?_ fun _ _ => rfl
  · intro x _
    exact Finset.mem_Ico.2 ⟨Int.emod_nonneg _ (by omega), Int.emod_lt_of_pos _ hpos⟩
  · intro x _
    exact Finset.mem_Ico.2 ⟨Int.emod_nonneg _ (by omega), Int.emod_lt_of_pos _ hpos⟩
  · intro x hx
    rw [Finset.mem_Ico] at hx
    simp only [Int.emod_sub_emod, add_sub_cancel_right]
    exact Int.emod_eq_of_lt hx.1 hx.2
  · intro x hx
    rw [Finset.mem_Ico] at hx
    simp only [Int.emod_add_emod, sub_add_cancel]
    exact Int.emod_eq_of_lt hx.1 hx.2

/-- **C65.** `spatial_autocorrelation` along a dimension with `n` points: for the `n // 2` displacements `0 ≤ s < n // 2` it is the mean over the
dimension of `u(x) u(x + s)` with periodic wrap-around; its value at displacement zero is the mean square, which bounds all others.  The
labels of the displacements are the first `n // 2` labels of the positions. -/
theorem C65_spatial_autocorrelation (a : XArray d ℝ) (ax : Fin d) (hn : a.sizes ax ≠ 0) :
    let r := spatialAutocorrelation a ax
    r.sizes = Function.update a.sizes ax (a.sizes ax / 2) ∧ r.coords = a.coords ∧
      (∀ i : Idx d, r.data i = (∑ x ∈ Finset.Ico (0 : ℤ) (a.sizes ax), a.data (Function.update i ax x) * a.data (Function.update i ax ((x + i ax) % a.sizes ax))) / a.sizes ax) ∧
      (∀ i : Idx d, r.data (Function.update i ax 0) = (∑ x ∈ Finset.Ico (0 : ℤ) (a.sizes ax), a.data (Function.update i ax x) ^ 2) / a.sizes ax) ∧
      ∀ i : Idx d, |r.data i| ≤ r.data (Function.update i ax 0) := by
  intro r
  have h1 : ∀ i : Idx d, r.data i = (∑ x ∈ Finset.Ico (0 : ℤ) (a.sizes ax), a.data (Function.update i ax x) * a.data (Function.update i ax ((x + i ax) % a.sizes ax))) / a.sizes ax := by
    intro i
    show periodicCorrelate _ _ _ _ / _ = _
    rw [periodicCorrelate_eq hn]
  have h2 : ∀ i : Idx d, r.data (Function.update i ax 0) = (∑ x ∈ Finset.Ico (0 : ℤ) (a.sizes ax), a.data (Function.update i ax x) ^ 2) / a.sizes ax := by
    intro i
    rw [h1]
    congr 1
    refine Finset.sum_congr rfl fun x hx => ?_
    rw [Finset.mem_Ico] at hx
    simp only [Function.update_idem, Function.update_self, add_zero]
    rw [Int.emod_eq_of_lt hx.1 hx.2, sq]
  refine ⟨rfl, rfl, h1, h2, fun i => ?_⟩
  rw [h1, h2, abs_div, Nat.abs_cast]
  refine div_le_div_of_nonneg_right ((Finset.abs_sum_le_sum_abs _ _).trans ?_) (Nat.cast_nonneg _)
  have hs := sum_shift hn (fun x => a.data (Function.update i ax x) ^ 2) (i ax)
  have hb : ∀ x : ℤ, |a.data (Function.update i ax x) * a.data (Function.update i ax ((x + i ax) % a.sizes ax))| ≤
      (a.data (Function.update i ax x) ^ 2 + a.data (Function.update i ax ((x + i ax) % a.sizes ax)) ^ 2) / 2 := by
    intro x
    rw [abs_le]
    constructor
    · nlinarith [sq_nonneg (a.data (Function.update i ax x) + a.data (Function.update i ax ((x + i ax) % a.sizes ax)))]
    · nlinarith [sq_nonneg (a.data (Function.update i ax x) - a.data (Function.update i ax ((x + i ax) % a.sizes ax)))]
  refine (Finset.sum_le_sum fun x _ => hb x).trans (le_of_eq ?_)
  rw [← Finset.sum_div, Finset.sum_add_distrib]
  linarith

/-- The finding: for data on a grid the displacement `s` is labelled with the position of cell `s`, half a cell more than the displacement (from
the lower end of the domain). -/
theorem C65_displacement_label_defect (g : Grid 2 ℝ) (v : Fin 2 → GridVariable 2 ℝ) (ds : XDataset 2 ℝ) (h : Holds g v ds) (a : XArray 2 ℝ) (ha : ds.get "u" = .ok a)
    (ax : Fin 2) (s : ℤ) (h0 : 0 ≤ s) (h1 : s < g.shape ax) :
    (spatialAutocorrelation a ax).coords ax s - (g.domain ax).1 = s * g.step ax + g.step ax / 2 := by
  unfold XDataset.get at ha
  rw [h.2.2.1] at ha
  have := Except.ok.inj ha
  subst this
  show ds.coords ax s - _ = _
  rw [h.2.1 ax s h0 h1]
  ring

/-- **C65.** `velocity_spatial_correlation`: the autocorrelation of every velocity component, under the name `<component>_<axis>_correlation`. -/
theorem C65_velocity_correlation (ds : XDataset d ℝ) (ax : Fin d) (axis : String) (vel : String → Idx d → ℝ)
    (hv : ∀ name ∈ velocityNames.take d, ds.vars.lookup name = some (vel name)) :
    velocitySpatialCorrelation ds ax axis = .ok ((velocityNames.take d).map fun name =>
      (name ++ "_" ++ axis ++ "_correlation", spatialAutocorrelation ⟨ds.sizes, ds.coords, vel name⟩ ax)) := by
  refine Metric.mapM_ok_map _ _ _ fun name hn => ?_
  unfold XDataset.get
  rw [hv name hn]
  rfl

/-! ### Correlation of states -/

theorem norm_normalize {sizes : Fin d → ℕ} {f : Idx d → ℝ} (h : ∃ i ∈ box sizes, f i ≠ 0) : ∑ i ∈ box sizes, normalize sizes f i ^ 2 = 1 := by
  have hpos : 0 < ∑ j ∈ box sizes, f j ^ 2 := by
    obtain ⟨i, hi, hne⟩ := h
    exact Finset.sum_pos' (fun j _ => sq_nonneg _) ⟨i, hi, by positivity⟩
  unfold normalize
  simp only [div_pow]
  rw [← Finset.sum_div, Real.sq_sqrt hpos.le, div_self hpos.ne']

/-- **C65.** `state_correlation` (at one time, states that do not vanish): the mean over the samples of the cosine of the angle between predicted
and true state.  It lies between -1 and 1, is 1 when the prediction is a positive multiple of the truth in every sample, and does not change when the
predictions or truths are rescaled by positive factors. -/
theorem C65_state_correlation (sizes : Fin d → ℕ) (samples : ℕ) (hs : samples ≠ 0) (p t : ℤ → Idx d → ℝ)
    (hp : ∀ s : ℤ, 0 ≤ s → s < samples → ∃ i ∈ box sizes, p s i ≠ 0) (ht : ∀ s : ℤ, 0 ≤ s → s < samples → ∃ i ∈ box sizes, t s i ≠ 0) :
    stateCorrelation sizes samples p t = (∑ s ∈ Finset.Ico (0 : ℤ) samples, (∑ i ∈ box sizes, p s i * t s i) /
        (Real.sqrt (∑ i ∈ box sizes, p s i ^ 2) * Real.sqrt (∑ i ∈ box sizes, t s i ^ 2))) / samples ∧
      |stateCorrelation sizes samples p t| ≤ 1 ∧
      (∀ c : ℤ → ℝ, (∀ s, 0 < c s) → stateCorrelation sizes samples (fun s i => c s * t s i) t = 1) ∧
      ∀ c c' : ℤ → ℝ, (∀ s, 0 < c s) → (∀ s, 0 < c' s) →
        stateCorrelation sizes samples (fun s i => c s * p s i) (fun s i => c' s * t s i) = stateCorrelation sizes samples p t := by
  have hS : (0 : ℝ) < samples := by exact_mod_cast (by omega : 0 < samples)
  have hscale : ∀ (c : ℝ), 0 < c → ∀ f : Idx d → ℝ, normalize sizes (fun i => c * f i) = normalize sizes f := by
    intro c hc f
    funext i
    unfold normalize
    simp only [mul_pow]
    rw [← Finset.mul_sum, Real.sqrt_mul (sq_nonneg c), Real.sqrt_sq hc.le, mul_div_mul_left _ _ hc.ne']
  have hcs : ∀ (c c' : ℤ → ℝ), (∀ s, 0 < c s) → (∀ s, 0 < c' s) → ∀ p t : ℤ → Idx d → ℝ,
      stateCorrelation sizes samples (fun s i => c s * p s i) (fun s i => c' s * t s i) = stateCorrelation sizes samples p t := by
    intro c c' hc hc' p t
    unfold stateCorrelation
    simp only [hscale _ (hc _), hscale _ (hc' _)]
  refine ⟨?_, ?_, fun c hc => ?_, fun c c' hc hc' => hcs c c' hc hc' p t⟩
  · unfold stateCorrelation normalize
    congr 1
    refine Finset.sum_congr rfl fun s _ => ?_
    rw [Finset.sum_div]
    refine Finset.sum_congr rfl fun i _ => ?_
    rw [div_mul_div_comm]
  · unfold stateCorrelation
    rw [abs_div, Nat.abs_cast, div_le_one hS]
    refine (Finset.abs_sum_le_sum_abs _ _).trans ?_
    have : ∀ s ∈ Finset.Ico (0 : ℤ) samples, |∑ i ∈ box sizes, normalize sizes (p s) i * normalize sizes (t s) i| ≤ 1 := by
      intro s hs'
      rw [Finset.mem_Ico] at hs'
      have h1 := norm_normalize (hp s hs'.1 hs'.2)
      have h2 := norm_normalize (ht s hs'.1 hs'.2)
      have := Finset.sum_mul_sq_le_sq_mul_sq (box sizes) (normalize sizes (p s)) (normalize sizes (t s))
      rw [h1, h2, one_mul] at this
      exact (sq_le_one_iff_abs_le_one _).1 this
    refine (Finset.sum_le_sum this).trans ?_
    simp
  · have := hcs c (fun _ => 1) hc (fun _ => one_pos) t t
    simp only [one_mul] at this
    rw [this]
    unfold stateCorrelation
    rw [div_eq_one_iff_eq hS.ne']
    have : ∀ s ∈ Finset.Ico (0 : ℤ) samples, ∑ i ∈ box sizes, normalize sizes (t s) i * normalize sizes (t s) i = 1 := by
      intro s hs'
      rw [Finset.mem_Ico] at hs'
      rw [← norm_normalize (ht s hs'.1 hs'.2)]
      exact Finset.sum_congr rfl fun i _ => by ring
    rw [Finset.sum_congr rfl this]
    simp

/-! ### Temporal correlation -/

theorem lag_bound (T : ℕ) (a : ℤ → ℝ) {s : ℤ} (hs : 0 ≤ s) : ∑ t ∈ Finset.Ico s T, |a (t - s) * a t| ≤ ∑ t ∈ Finset.Ico (0 : ℤ) T, a t ^ 2 := by
  have hb : ∀ t : ℤ, |a (t - s) * a t| ≤ (a (t - s) ^ 2 + a t ^ 2) / 2 := by
    intro t
    rw [abs_le]
    constructor
    · nlinarith [sq_nonneg (a (t - s) + a t)]
    · nlinarith [sq_nonneg (a (t - s) - a t)]
  have h1 : ∑ t ∈ Finset.Ico s T, a t ^ 2 ≤ ∑ t ∈ Finset.Ico (0 : ℤ) T, a t ^ 2 :=
    Finset.sum_le_sum_of_subset_of_nonneg (Finset.Ico_subset_Ico_left hs) fun _ _ _ => sq_nonneg _
  have h2 : ∑ t ∈ Finset.Ico s T, a (t - s) ^ 2 ≤ ∑ t ∈ Finset.Ico (0 : ℤ) T, a t ^ 2 := by
    have : ∑ t ∈ Finset.Ico s T, a (t - s) ^ 2 = ∑ t ∈ Finset.Ico (0 : ℤ) (T - s), a t ^ 2 :=
      Finset.sum_nbij' (fun t => t - s) (fun t => t + s) (fun t ht => by rw [Finset.mem_Ico] at ht ⊢; omega)
        (fun t ht => by rw [Finset.mem_Ico] at ht ⊢; omega) (fun t _ => by ring) (fun t _ => by ring) fun _ _ => rfl
    rw [this]
    exact Finset.sum_le_sum_of_subset_of_nonneg (Finset.Ico_subset_Ico_right (by omega)) fun _ _ _ => sq_nonneg _
  refine (Finset.sum_le_sum fun t _ => hb t).trans ?_
  rw [← Finset.sum_div, Finset.sum_add_distrib]
  linarith

/-- **C65.** `temporal_autocorrelation`: with `m` steps per unit of time (`m = 1` if the step is larger than one), entry `j` is the correlation over
the time lag of `jm` steps, `1/T Σ_(t ≥ jm) a(t - jm) a(t)`, without wrap-around, for all lags below the number `T` of frames; its absolute value
never exceeds the mean square at lag zero; the label of entry `j` is the time of frame `jm`. -/
theorem C65_temporal_autocorrelation (T : ℕ) (times a : ℤ → ℝ) (hT : 2 ≤ T) (m : ℕ) (hm : 1 ≤ m) (hdt : 0 < times 1 - times 0)
    (hfl : ((m : ℝ) ≤ 1 / (times 1 - times 0) ∧ 1 / (times 1 - times 0) < m + 1) ∨ (m = 1 ∧ 1 < times 1 - times 0)) :
    ∃ values labels : List ℝ, temporalAutocorrelation T times a = .ok (values, labels) ∧ values.length = labels.length ∧
      (∀ j : ℕ, j < values.length ↔ j * m < T) ∧
      (∀ (j : ℕ) (hj : j < values.length), values[j] = (∑ t ∈ Finset.Ico ((j * m : ℕ) : ℤ) T, a (t - (j * m : ℕ)) * a t) / T) ∧
      (∀ (j : ℕ) (hj : j < labels.length), labels[j] = times (j * m : ℕ)) ∧
      ∀ (j : ℕ) (hj : j < values.length), |values[j]| ≤ (∑ t ∈ Finset.Ico (0 : ℤ) T, a t ^ 2) / T := by
  have hsub : max 1 (if 0 ≤ 1 / (times 1 - times 0) then ⌊1 / (times 1 - times 0)⌋ else ⌈1 / (times 1 - times 0)⌉).toNat = m := by
    rw [if_pos (by positivity)]
    rcases hfl with ⟨h1, h2⟩ | ⟨h1, h2⟩
    · have : ⌊1 / (times 1 - times 0)⌋ = (m : ℤ) := Int.floor_eq_iff.2 ⟨by exact_mod_cast h1, by exact_mod_cast h2⟩
      rw [this]
      simp [hm]
    · have : ⌊1 / (times 1 - times 0)⌋ = 0 := Int.floor_eq_iff.2 ⟨by push_cast; positivity, by
        rw [div_lt_iff₀ hdt]; push_cast; linarith⟩
      rw [this, h1]
      simp
  have hlen : ∀ j : ℕ, j < (T + m - 1) / m ↔ j * m < T := fun j => by
    rw [Nat.lt_iff_add_one_le, Nat.le_div_iff_mul_le (by omega), Nat.succ_mul]
    omega
  have hrun : temporalAutocorrelation T times a = .ok
      (((List.range ((T + m - 1) / m)).map fun j : ℕ => ((j * m : ℕ) : ℤ)).map (fun s : ℤ => ∑ t ∈ Finset.Ico (0 : ℤ) T, if s ≤ t then a ((t - s) % T) * a t / T else 0),
        ((List.range ((T + m - 1) / m)).map fun j : ℕ => ((j * m : ℕ) : ℤ)).map times) := by
    unfold temporalAutocorrelation spacing
    rw [if_neg (by omega)]
    simp only [Except.bind_ok]
    rw [if_neg hdt.ne']
    simp only [Except.bind_ok, pure, Except.pure, bind, Except.bind]
    rw [hsub]
  have hval : ∀ s : ℤ, 0 ≤ s → ∑ t ∈ Finset.Ico (0 : ℤ) T, (if s ≤ t then a ((t - s) % T) * a t / T else 0) = (∑ t ∈ Finset.Ico s T, a (t - s) * a t) / T := by
    intro s hs
    rw [← Finset.sum_filter, Finset.sum_div]
    refine Finset.sum_congr ?_ fun t ht => ?_
    · ext t
      simp only [Finset.mem_filter, Finset.mem_Ico]
      omega
    · rw [Finset.mem_Ico] at ht
      rw [Int.emod_eq_of_lt (by omega) (by omega)]
  refine ⟨_, _, hrun, by simp, fun j => by simpa using hlen j, fun j hj => ?_, fun j hj => by simp, fun j hj => ?_⟩
  · rw [List.getElem_map, List.getElem_map, List.getElem_range, hval _ (by omega)]
  · rw [List.getElem_map, List.getElem_map, List.getElem_range, hval _ (by omega), abs_div, Nat.abs_cast]
    refine div_le_div_of_nonneg_right ((Finset.abs_sum_le_sum_abs _ _).trans ?_) (Nat.cast_nonneg _)
    exact lag_bound T a (by omega)

/-- Non-vacuity: a series of three frames with a time step of one half, so that every second lag is used. -/
example : ∃ values labels : List ℝ, temporalAutocorrelation 3 (fun j => 10 + j / 2) (fun t => t) = .ok (values, labels) ∧ values.length = labels.length ∧
    (∀ j : ℕ, j < values.length ↔ j * 2 < 3) := by
  obtain ⟨v, l, h, h1, h2, -⟩ := C65_temporal_autocorrelation 3 (fun j => 10 + j / 2) (fun t => t) (by norm_num) 2 (by norm_num) (by norm_num) (.inl (by norm_num))
  exact ⟨v, l, h, h1, h2⟩

/-- Non-vacuity: the states of two samples. -/
example : stateCorrelation (fun _ : Fin 2 => 3) 2 (fun s i => (s + 1) * (i 0 + 1)) (fun _ i => i 0 + 1) = 1 :=
  (C65_state_correlation (fun _ : Fin 2 => 3) 2 (by norm_num) (fun _ i => (i 0 : ℝ) + 1) (fun _ i => i 0 + 1)
    (fun s _ _ => ⟨fun _ => 0, mem_box.2 (fun _ => ⟨le_rfl, by norm_num⟩), by norm_num⟩)
    (fun s _ _ => ⟨fun _ => 0, mem_box.2 (fun _ => ⟨le_rfl, by norm_num⟩), by norm_num⟩)).2.2.1 (fun s => max (s + 1) 1) (fun s => by positivity) |> fun h => by
      refine Eq.trans ?_ h
      unfold stateCorrelation
      congr 1
      refine Finset.sum_congr rfl fun s hs => ?_
      rw [Finset.mem_Ico] at hs
      have : (1 : ℝ) ≤ s + 1 := by have : (0 : ℝ) ≤ s := by exact_mod_cast hs.1
                                   linarith
      simp only [max_eq_left this]

end JaxCfd.Eval
