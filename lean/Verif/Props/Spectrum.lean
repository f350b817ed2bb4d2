import Verif.Model.Evaluation
import Verif.Lemmas.Parseval
import Verif.Props.Metrics
import Verif.Lemmas.Seq

/-!
# C65: energy spectra
-/

namespace JaxCfd.Eval
open JaxCfd
variable {d : ℕ}

/-- Evenly spaced coordinates: at least two points per dimension, at distance `step`. -/
def Uniform {K : Type} (sizes : Fin d → ℕ) (coords : Fin d → ℤ → ℝ) (step : Fin d → ℝ) (_ : Idx d → K) : Prop :=
  ∀ b, 2 ≤ sizes b ∧ 0 < step b ∧ ∀ j : ℤ, 0 ≤ j → j < sizes b → coords b j = coords b 0 + j * step b

/-- Evenly spaced coordinates of a dataset. -/
def XDataset.Uniform {K : Type} (ds : XDataset d K) (step : Fin d → ℝ) : Prop :=
  ∀ b, 2 ≤ ds.sizes b ∧ 0 < step b ∧ ∀ j : ℤ, 0 ≤ j → j < ds.sizes b → ds.coords b j = ds.coords b 0 + j * step b

theorem fftfreq_rolled {n : ℕ} (hn : 2 ≤ n) (s : ℝ) {j : ℤ} (h0 : 0 ≤ j) (h1 : j < n) :
    fftfreq n s ((j - (n / 2 : ℕ)) % n) = ((j : ℝ) - (n / 2 : ℕ)) / (n * s) := by
  unfold fftfreq
  by_cases h : ((n / 2 : ℕ) : ℤ) ≤ j
  · rw [Int.emod_eq_of_lt (by omega) (by omega), if_pos (by omega)]
    push_cast
    rfl
  · have e : (j - (n / 2 : ℕ)) % (n : ℤ) = j - (n / 2 : ℕ) + n := by
      rw [← Int.add_emod_right, Int.emod_eq_of_lt (by omega) (by omega)]
    rw [e, if_neg (by omega)]
    congr 1
    rw [Int.cast_add, Int.cast_sub, Int.cast_natCast, Int.cast_natCast]
    ring

theorem fftKernel_emod (n : ℕ) (j k : ℤ) : fftKernel n j (k % n) = fftKernel n j k := by
  have key : ∀ (m : ℕ) (k : ℤ), fftKernel n j (k + m * n) = fftKernel n j k := by
    intro m
    induction m with
    | zero => intro k; simp
    | succ m ih =>
      intro k
      have e : k + ((m + 1 : ℕ) : ℤ) * n = k + m * n + n := by push_cast; ring
      rw [e, fftKernel_period, ih]
  have h := Int.emod_add_mul_ediv k n
  rcases Int.le_total 0 (k / n) with hq | hq
  · have := key (k / n).toNat (k % n)
    rw [Int.toNat_of_nonneg hq, mul_comm, h] at this
    exact this.symm
  · have := key (-(k / n)).toNat k
    rw [Int.toNat_of_nonneg (by omega)] at this
    rw [← this]
    congr 1
    linarith

theorem fourierTransform_ok (a : XArray d ℝ) (step : Fin d → ℝ) (h : Uniform a.sizes a.coords step a.data) :
    ∃ r, fourierTransform a = .ok r ∧ r.sizes = a.sizes ∧
      (r.coords = fun b j => 2 * Real.pi * fftfreq (a.sizes b) (step b) ((j - (a.sizes b / 2 : ℕ)) % a.sizes b)) ∧
      r.data = rollData a.sizes (fun b => (a.sizes b / 2 : ℕ)) (fftn (⟨a.sizes, fun i => (a.data i : ℂ)⟩ : NArr d ℂ)).data := by
  have hs : (seqFin fun b => spacing (a.sizes b) (a.coords b)) = .ok step := seqFin_ok _ step fun b => by
    unfold spacing
    rw [if_neg (by have := (h b).1; omega), (h b).2.2 1 (by omega) (by have := (h b).1; omega)]
    congr 1
    push_cast
    ring
  unfold fourierTransform
  rw [hs]
  exact ⟨_, rfl, rfl, rfl, rfl⟩

theorem filterMap_names {α : Type} (n : ℕ) (F : String → α) :
    (velocityNames.filterMap fun k => ((velocityNames.take n).map fun name => (name, F name)).lookup k) = (velocityNames.take n).map F := by
  rcases n with _ | _ | _ | n <;> simp [velocityNames, List.lookup]

theorem names_ne_nil (hd : 0 < d) : velocityNames.take d ≠ [] := by
  rcases d with _ | _ | _ | n
  · omega
  all_goals simp [velocityNames]

/-- The energy spectrum in terms of the transforms of the components. -/
theorem energySpectrum_ok (ds : XDataset d ℝ) (hd : 0 < d) (step : Fin d → ℝ) (h : ds.Uniform step) (vel : String → Idx d → ℝ)
    (hv : ∀ name ∈ velocityNames.take d, ds.vars.lookup name = some (vel name)) :
    ∃ E, energySpectrum ds = .ok E ∧ E.sizes = ds.sizes ∧
      (E.coords = fun b j => 2 * Real.pi * fftfreq (ds.sizes b) (step b) ((j - (ds.sizes b / 2 : ℕ)) % ds.sizes b)) ∧
      ∀ j, E.data j = 1 / 2 * ((velocityNames.take d).map fun name =>
        ‖rollData ds.sizes (fun b => (ds.sizes b / 2 : ℕ)) (fftn (⟨ds.sizes, fun i => (vel name i : ℂ)⟩ : NArr d ℂ)).data j‖ ^ 2).sum := by
  have hF : ∀ name : String, ∃ r, fourierTransform (⟨ds.sizes, ds.coords, vel name⟩ : XArray d ℝ) = .ok r ∧ r.sizes = ds.sizes ∧
      (r.coords = fun b j => 2 * Real.pi * fftfreq (ds.sizes b) (step b) ((j - (ds.sizes b / 2 : ℕ)) % ds.sizes b)) ∧
      r.data = rollData ds.sizes (fun b => (ds.sizes b / 2 : ℕ)) (fftn (⟨ds.sizes, fun i => (vel name i : ℂ)⟩ : NArr d ℂ)).data :=
    fun name => fourierTransform_ok ⟨ds.sizes, ds.coords, vel name⟩ step h
  choose F hF1 hF2 hF3 hF4 using hF
  have hm : ((velocityNames.take d).mapM fun name => do
      let a ← ds.get name
      let f ← fourierTransform a
      return (name, f)) = (.ok ((velocityNames.take d).map fun name => (name, F name)) : Except Err _) := by
    refine Metric.mapM_ok_map _ _ _ fun name hn => ?_
    unfold XDataset.get
    rw [hv name hn]
    simp only [Except.bind_ok]
    rw [hF1]
    rfl
  unfold energySpectrum
  rw [hm]
  simp only [Except.bind_ok]
  obtain ⟨n0, rest, hl⟩ := List.exists_cons_of_ne_nil (names_ne_nil hd)
  have hmap : ((velocityNames.take d).map fun name => (name, F name)).map (fun p => (p.1, p.2.data)) =
      (velocityNames.take d).map fun name => (name, (F name).data) := by
    rw [List.map_map]
    rfl
  rw [hmap]
  suffices hk : ∃ E, kineticEnergy (⟨(F n0).sizes, (F n0).coords, (velocityNames.take d).map fun name => (name, (F name).data)⟩ : XDataset d ℂ) = .ok E ∧ E.sizes = ds.sizes ∧
      (E.coords = fun b j => 2 * Real.pi * fftfreq (ds.sizes b) (step b) ((j - (ds.sizes b / 2 : ℕ)) % ds.sizes b)) ∧
      ∀ j, E.data j = 1 / 2 * ((velocityNames.take d).map fun name =>
        ‖rollData ds.sizes (fun b => (ds.sizes b / 2 : ℕ)) (fftn (⟨ds.sizes, fun i => (vel name i : ℂ)⟩ : NArr d ℂ)).data j‖ ^ 2).sum by
    rw [hl] at hk ⊢
    exact hk
  unfold kineticEnergy speed
  dsimp only
  rw [filterMap_names d fun name => (F name).data, if_neg (by rw [hl]; simp)]
  refine ⟨_, rfl, hF2 n0, hF3 n0, fun j => ?_⟩
  show magnitude ((velocityNames.take d).map fun name => (F name).data) j ^ 2 / 2 = _
  have hre : ∀ z : ℂ, RCLike.re (z * (starRingEnd ℂ) z) = ‖z‖ ^ 2 := fun z => by
    rw [RCLike.mul_conj]
    norm_cast
  unfold magnitude
  simp only [List.map_map, Function.comp_def, hre]
  rw [Real.sq_sqrt]
  · simp only [hF4]
    ring
  · exact List.sum_nonneg fun x hx => by
      obtain ⟨_, -, rfl⟩ := List.mem_map.1 hx
      positivity

/-- The phase of a wavenumber at a position. -/
noncomputable def phase (k x : Fin d → ℝ) : ℂ := Complex.exp (-(Complex.I * ((∑ b, k b * x b : ℝ) : ℂ)))

theorem kernel_phase {ds : XDataset d ℝ} {step : Fin d → ℝ} (h : ds.Uniform step) {j x : Idx d} (hj : InR ds.sizes j) (hx : InR ds.sizes x) :
    ∏ b, fftKernel (ds.sizes b) (x b) ((j b - (ds.sizes b / 2 : ℕ)) % ds.sizes b) =
      phase (fun b => 2 * Real.pi * fftfreq (ds.sizes b) (step b) ((j b - (ds.sizes b / 2 : ℕ)) % ds.sizes b)) (fun b => -ds.coords b 0) *
      phase (fun b => 2 * Real.pi * fftfreq (ds.sizes b) (step b) ((j b - (ds.sizes b / 2 : ℕ)) % ds.sizes b)) (fun b => ds.coords b (x b)) := by
  unfold phase
  rw [← Complex.exp_add]
  have e : ∀ b, fftKernel (ds.sizes b) (x b) ((j b - (ds.sizes b / 2 : ℕ)) % ds.sizes b) =
      Complex.exp (-(Complex.I * ((2 * Real.pi * fftfreq (ds.sizes b) (step b) ((j b - (ds.sizes b / 2 : ℕ)) % ds.sizes b) * (ds.coords b (x b) - ds.coords b 0) : ℝ) : ℂ))) := by
    intro b
    obtain ⟨h2, hs, hc⟩ := h b
    rw [fftKernel_emod, fftfreq_rolled h2 _ (hj b).1 (hj b).2, hc _ (hx b).1 (hx b).2]
    unfold fftKernel
    congr 1
    have hn : (ds.sizes b : ℂ) ≠ 0 := by
      have : ds.sizes b ≠ 0 := by omega
      exact_mod_cast this
    have hs' : (step b : ℂ) ≠ 0 := by exact_mod_cast hs.ne'
    rw [add_sub_cancel_left]
    generalize ds.sizes b / 2 = hf
    push_cast
    field_simp
  rw [Finset.prod_congr rfl fun b _ => e b, ← Complex.exp_sum]
  congr 1
  rw [Finset.sum_neg_distrib, ← Finset.mul_sum, ← neg_add, ← mul_add]
  congr 2
  norm_cast
  rw [← Finset.sum_add_distrib]
  push_cast
  refine Finset.sum_congr rfl fun b _ => ?_
  ring

theorem norm_phase (k x : Fin d → ℝ) : ‖phase k x‖ = 1 := by
  unfold phase
  rw [Complex.norm_exp]
  simp

/-- **C65.** `energy_spectrum` of a dataset with evenly spaced coordinates: at every position `j` of the result the labels `K j` are the
wavenumbers `2π (j - n // 2) / (n step)`, in ascending order with zero at position `n // 2`, and the value is the kinetic energy of the
Fourier coefficients at that wavenumber, `1/2 Σ_components |Σ_x u(x) exp(-i K·X(x))|²` with the positions `X` that label the data. -/
theorem C65_energy_spectrum (ds : XDataset d ℝ) (hd : 0 < d) (step : Fin d → ℝ) (h : ds.Uniform step) (vel : String → Idx d → ℝ)
    (hv : ∀ name ∈ velocityNames.take d, ds.vars.lookup name = some (vel name)) :
    ∃ E, energySpectrum ds = .ok E ∧ E.sizes = ds.sizes ∧
      (∀ b, ∀ j : ℤ, 0 ≤ j → j < ds.sizes b → E.coords b j = 2 * Real.pi * ((j : ℝ) - (ds.sizes b / 2 : ℕ)) / (ds.sizes b * step b)) ∧
      (∀ b, ∀ j k : ℤ, 0 ≤ j → j < k → k < ds.sizes b → E.coords b j < E.coords b k) ∧
      ∀ j : Idx d, InR ds.sizes j → E.data j = 1 / 2 * ((velocityNames.take d).map fun name =>
        ‖∑ x ∈ box ds.sizes, (vel name x : ℂ) * phase (fun b => E.coords b (j b)) (fun b => ds.coords b (x b))‖ ^ 2).sum := by
  obtain ⟨E, hE, hs, hc, hdat⟩ := energySpectrum_ok ds hd step h vel hv
  have hK : ∀ b, ∀ j : ℤ, 0 ≤ j → j < ds.sizes b → E.coords b j = 2 * Real.pi * ((j : ℝ) - (ds.sizes b / 2 : ℕ)) / (ds.sizes b * step b) := by
    intro b j h0 h1
    rw [hc]
    dsimp only
    rw [fftfreq_rolled (h b).1 _ h0 h1, mul_div_assoc]
  refine ⟨E, hE, hs, hK, fun b j k h0 h1 h2 => ?_, fun j hj => ?_⟩
  · rw [hK b j h0 (by omega), hK b k (by omega) h2]
    have hn : 0 < (ds.sizes b : ℝ) * step b := by
      have h1 := (h b).1
      have h2 := (h b).2.1
      have : 0 < (ds.sizes b : ℝ) := by exact_mod_cast (by omega : 0 < ds.sizes b)
      positivity
    have hjk : (j : ℝ) < k := by exact_mod_cast h1
    have hpi := Real.pi_pos
    gcongr
  · rw [hdat j]
    congr 3
    funext name
    congr 1
    unfold rollData
    rw [fftn_eq, axesOp_all]
    dsimp only
    rw [Finset.sum_congr rfl fun x hx => by rw [kernel_phase h hj (inr_of_mem_box hx)]]
    have e : ∀ x : Idx d, (vel name x : ℂ) * (phase (fun b => 2 * Real.pi * fftfreq (ds.sizes b) (step b) ((j b - (ds.sizes b / 2 : ℕ)) % ds.sizes b)) (fun b => -ds.coords b 0) *
      phase (fun b => 2 * Real.pi * fftfreq (ds.sizes b) (step b) ((j b - (ds.sizes b / 2 : ℕ)) % ds.sizes b)) (fun b => ds.coords b (x b))) =
      phase (fun b => E.coords b (j b)) (fun b => -ds.coords b 0) * ((vel name x : ℂ) * phase (fun b => E.coords b (j b)) (fun b => ds.coords b (x b))) := fun x => by
      rw [hc]
      ring
    rw [Finset.sum_congr rfl fun x _ => e x, ← Finset.mul_sum, norm_mul, norm_phase, one_mul]

theorem sum_rollData {M : Type} [AddCommMonoid M] {s : Fin d → ℕ} (c : Fin d → ℤ) (f : Idx d → M) :
    ∑ i ∈ box s, rollData s c f i = ∑ i ∈ box s, f i := by
  unfold rollData
  refine Finset.sum_nbij' (fun i a => (i a - c a) % s a) (fun i a => (i a + c a) % s a) ?_ ?_ ?_ ?_ ?_
  · intro i hi
    refine mem_box.2 fun a => ?_
    have h := mem_box.1 hi a
    exact ⟨Int.emod_nonneg _ (by omega), Int.emod_lt_of_pos _ (by omega)⟩
  · intro i hi
    refine mem_box.2 fun a => ?_
    have h := mem_box.1 hi a
    exact ⟨Int.emod_nonneg _ (by omega), Int.emod_lt_of_pos _ (by omega)⟩
  · intro i hi
    funext a
    have h := mem_box.1 hi a
    simp only [Int.emod_add_emod, sub_add_cancel]
    exact Int.emod_eq_of_lt h.1 h.2
  · intro i hi
    funext a
    have h := mem_box.1 hi a
    simp only [Int.emod_sub_emod, add_sub_cancel_right]
    exact Int.emod_eq_of_lt h.1 h.2
  · intro i _
    rfl

/-- **C65.** Parseval: the energy spectrum summed over all wavenumbers is the number of grid points times the kinetic energy summed over all
grid points (for a dataset without further velocity components). -/
theorem C65_parseval (ds : XDataset d ℝ) (hd : 0 < d) (step : Fin d → ℝ) (h : ds.Uniform step) (vel : String → Idx d → ℝ)
    (hv : ∀ name ∈ velocityNames.take d, ds.vars.lookup name = some (vel name)) (hno : ∀ name ∈ velocityNames.drop d, ds.vars.lookup name = none) :
    ∃ E e, energySpectrum ds = .ok E ∧ kineticEnergy ds = .ok e ∧ ∑ j ∈ box E.sizes, E.data j = (∏ b, (ds.sizes b : ℝ)) * ∑ x ∈ box e.sizes, e.data x := by
  obtain ⟨E, hE, hs, -, hdat⟩ := energySpectrum_ok ds hd step h vel hv
  have hargs : (velocityNames.filterMap fun k => ds.vars.lookup k) = (velocityNames.take d).map vel := by
    conv_lhs => rw [← List.take_append_drop d velocityNames]
    rw [List.filterMap_append, List.filterMap_eq_nil_iff.2 hno, List.append_nil]
    rw [List.filterMap_congr hv]
    exact congrFun List.filterMap_eq_map _
  have hke : kineticEnergy ds = .ok ⟨ds.sizes, ds.coords, fun i => magnitude ((velocityNames.take d).map vel) i ^ 2 / 2⟩ := by
    unfold kineticEnergy speed
    rw [hargs]
    dsimp only
    rw [if_neg (by simpa using names_ne_nil hd)]
    rfl
  refine ⟨E, _, hE, hke, ?_⟩
  have hmag : ∀ x, magnitude ((velocityNames.take d).map vel) x ^ 2 / 2 = 1 / 2 * ((velocityNames.take d).map fun name => ‖(vel name x : ℂ)‖ ^ 2).sum := by
    intro x
    unfold magnitude
    have hre : ∀ r : ℝ, RCLike.re (r * (starRingEnd ℝ) r) = ‖(r : ℂ)‖ ^ 2 := fun r => by
      rw [Complex.norm_real, Real.norm_eq_abs, sq_abs]
      simp [sq]
    simp only [List.map_map, Function.comp_def, hre]
    rw [Real.sq_sqrt]
    · ring
    · exact List.sum_nonneg fun x hx => by
        obtain ⟨_, -, rfl⟩ := List.mem_map.1 hx
        positivity
  dsimp only
  rw [hs, Finset.sum_congr rfl fun j _ => hdat j, Finset.sum_congr rfl fun x _ => hmag x, ← Finset.mul_sum, ← Finset.mul_sum]
  have hcomm : ∀ (l : List String) (f : String → Idx d → ℝ), ∑ i ∈ box ds.sizes, (l.map fun name => f name i).sum = (l.map fun name => ∑ i ∈ box ds.sizes, f name i).sum := by
    intro l f
    induction l with
    | nil => simp
    | cons a l ih => simp only [List.map_cons, List.sum_cons, Finset.sum_add_distrib, ih]
  rw [hcomm, hcomm, mul_left_comm]
  congr 1
  rw [← List.sum_map_mul_left]
  congr 2
  funext name
  have hp := parseval ds.sizes fun i => (vel name i : ℂ)
  rw [hp, mul_div_cancel₀]
  · exact sum_rollData (fun b => ((ds.sizes b / 2 : ℕ) : ℤ)) fun k => ‖axesOp ds.sizes (fun a => fftKernel (ds.sizes a)) (List.finRange d) (fun i => (vel name i : ℂ)) k‖ ^ 2
  · refine Finset.prod_ne_zero_iff.2 fun b _ => ?_
    have := (h b).1
    exact_mod_cast (by omega : ds.sizes b ≠ 0)

theorem phase_neg (k k' x : Fin d → ℝ) (h : ∀ b, k' b = -k b) : phase k' x = (starRingEnd ℂ) (phase k x) := by
  unfold phase
  rw [← Complex.exp_conj, map_neg, map_mul, Complex.conj_I, Complex.conj_ofReal]
  congr 1
  have : ∑ b, k' b * x b = -∑ b, k b * x b := by
    rw [← Finset.sum_neg_distrib]
    exact Finset.sum_congr rfl fun b _ => by rw [h]; ring
  rw [this]
  push_cast
  ring

/-- **C65.** The energy spectrum is symmetric: opposite wavenumbers have equal energies. -/
theorem C65_spectrum_symmetric (ds : XDataset d ℝ) (hd : 0 < d) (step : Fin d → ℝ) (h : ds.Uniform step) (vel : String → Idx d → ℝ)
    (hv : ∀ name ∈ velocityNames.take d, ds.vars.lookup name = some (vel name)) :
    ∃ E, energySpectrum ds = .ok E ∧ ∀ j j' : Idx d, InR ds.sizes j → InR ds.sizes j' → (∀ b, E.coords b (j' b) = -E.coords b (j b)) →
      E.data j' = E.data j := by
  obtain ⟨E, hE, -, -, -, hdat⟩ := C65_energy_spectrum ds hd step h vel hv
  refine ⟨E, hE, fun j j' hj hj' hn => ?_⟩
  rw [hdat j hj, hdat j' hj']
  congr 3
  funext name
  congr 1
  have e : ∑ x ∈ box ds.sizes, (vel name x : ℂ) * phase (fun b => E.coords b (j' b)) (fun b => ds.coords b (x b)) =
      (starRingEnd ℂ) (∑ x ∈ box ds.sizes, (vel name x : ℂ) * phase (fun b => E.coords b (j b)) (fun b => ds.coords b (x b))) := by
    rw [map_sum]
    refine Finset.sum_congr rfl fun x _ => ?_
    rw [map_mul, Complex.conj_ofReal, phase_neg _ _ _ hn]
  rw [e]
  exact RCLike.norm_conj _

theorem fftKernel_comm (n : ℕ) (j k : ℤ) : fftKernel n j k = fftKernel n k j := by
  unfold fftKernel
  congr 2
  ring

theorem fftKernel_add_left (n : ℕ) (i j k : ℤ) : fftKernel n (i + j) k = fftKernel n i k * fftKernel n j k := by
  unfold fftKernel
  rw [← Complex.exp_add]
  congr 1
  push_cast
  ring

theorem norm_fftKernel (n : ℕ) (j k : ℤ) : ‖fftKernel n j k‖ = 1 := by
  unfold fftKernel
  rw [Complex.norm_exp]
  have : (-(2 * (Real.pi : ℂ) * Complex.I * j * k / n)) = ((-(2 * Real.pi * j * k / n) : ℝ) : ℂ) * Complex.I := by
    push_cast
    ring
  rw [this, Complex.re_ofReal_mul, Complex.I_re, mul_zero, Real.exp_zero]

/-- Shifting the data multiplies the transform by a phase. -/
theorem fftn_rollData {s : Fin d → ℕ} (c : Fin d → ℤ) (f : Idx d → ℂ) (k : Idx d) :
    (fftn (⟨s, rollData s c f⟩ : NArr d ℂ)).data k = (∏ b, fftKernel (s b) (c b) (k b)) * (fftn (⟨s, f⟩ : NArr d ℂ)).data k := by
  rw [fftn_eq, fftn_eq, axesOp_all, axesOp_all]
  dsimp only
  have e : ∀ i : Idx d, rollData s c f i * ∏ b, fftKernel (s b) (i b) (k b) =
      rollData s c (fun y => f y * ∏ b, fftKernel (s b) (y b + c b) (k b)) i := by
    intro i
    unfold rollData
    dsimp only
    congr 1
    refine Finset.prod_congr rfl fun b _ => ?_
    rw [fftKernel_comm, fftKernel_comm _ (_ + _), ← fftKernel_emod _ _ (i b), ← fftKernel_emod _ _ (_ + _), Int.emod_add_emod, sub_add_cancel]
  rw [Finset.sum_congr rfl fun i _ => e i, sum_rollData, Finset.mul_sum]
  refine Finset.sum_congr rfl fun i _ => ?_
  rw [Finset.prod_congr rfl fun b _ => fftKernel_add_left _ _ _ _, Finset.prod_mul_distrib]
  ring

/-- **C65.** The energy spectrum does not change when the velocity field is shifted periodically by any number of cells. -/
theorem C65_spectrum_translation (ds ds' : XDataset d ℝ) (hd : 0 < d) (step : Fin d → ℝ) (h : ds.Uniform step) (hs : ds'.sizes = ds.sizes)
    (hc : ds'.coords = ds.coords) (shift : Fin d → ℤ) (vel : String → Idx d → ℝ)
    (hv : ∀ name ∈ velocityNames.take d, ds.vars.lookup name = some (vel name))
    (hv' : ∀ name ∈ velocityNames.take d, ds'.vars.lookup name = some fun i => vel name fun b => (i b - shift b) % ds.sizes b) :
    ∃ E E', energySpectrum ds = .ok E ∧ energySpectrum ds' = .ok E' ∧ E'.sizes = E.sizes ∧ E'.coords = E.coords ∧ ∀ j, E'.data j = E.data j := by
  obtain ⟨E, hE, hEs, hEc, hdat⟩ := energySpectrum_ok ds hd step h vel hv
  obtain ⟨E', hE', hEs', hEc', hdat'⟩ := energySpectrum_ok ds' hd step (by unfold XDataset.Uniform; rw [hs, hc]; exact h)
    (fun name => rollData ds.sizes shift (vel name)) hv'
  refine ⟨E, E', hE, hE', by rw [hEs, hEs', hs], by rw [hEc, hEc', hs], fun j => ?_⟩
  rw [hdat, hdat', hs]
  congr 3
  funext name
  congr 1
  have e := fftn_rollData (s := ds.sizes) shift (fun i => (vel name i : ℂ)) fun a => (j a - ((ds.sizes a / 2 : ℕ) : ℤ)) % ds.sizes a
  have e2 : (fun i => ((rollData ds.sizes shift (vel name) i : ℝ) : ℂ)) = rollData ds.sizes shift fun i => (vel name i : ℂ) := rfl
  rw [e2]
  unfold rollData at e ⊢
  rw [e, norm_mul, norm_prod, Finset.prod_congr rfl fun b _ => norm_fftKernel _ _ _, Finset.prod_const_one, one_mul]

/-- Non-vacuity: a dataset on 4 × 4 points with two velocity components. -/
noncomputable def exampleDataset : XDataset 2 ℝ := ⟨fun _ => 4, fun _ j => 1 / 8 + j * (1 / 4), [("u", fun i => i 0), ("v", fun i => i 0 * i 1)]⟩

example : ∃ E e, energySpectrum exampleDataset = .ok E ∧ kineticEnergy exampleDataset = .ok e ∧
    ∑ j ∈ box E.sizes, E.data j = (∏ b, (exampleDataset.sizes b : ℝ)) * ∑ x ∈ box e.sizes, e.data x :=
  C65_parseval exampleDataset (by norm_num) (fun _ => 1 / 4) (fun b => ⟨by norm_num [exampleDataset], by norm_num, fun j _ _ => by norm_num [exampleDataset]⟩)
    (fun name i => if name = "u" then i 0 else i 0 * i 1) (fun name hn => by
      simp [velocityNames] at hn
      rcases hn with rfl | rfl <;> simp [exampleDataset, List.lookup]) (fun name hn => by
      simp [velocityNames] at hn
      subst hn
      simp [exampleDataset, List.lookup])

end JaxCfd.Eval
