import Verif.Model.Evaluation
import Verif.Props.Metrics
import Verif.Lemmas.Parseval
import Mathlib.Tactic.Positivity

/-!
# C65: summary metrics and conversion of trajectories
-/

namespace JaxCfd.Eval
open JaxCfd
variable {d : ℕ}

/-! ### Metrics -/

/-- **C65.** `energy_spectrum_metric`: never negative and zero for identical spectra.  For a positive threshold and positive predicted spectra, if the truth is
nowhere exactly at the threshold and no prediction is exactly 1 where the truth is below a threshold below 1, it is zero exactly when the prediction
agrees with the truth wherever the truth exceeds the threshold, and does not exceed the threshold wherever the truth is below it. -/
theorem C65_spectrum_metric (threshold : ℝ) (n samples : ℕ) (arr truth : ℤ → ℤ → ℝ) :
    0 ≤ energySpectrumMetric threshold n samples arr truth ∧
    energySpectrumMetric threshold n samples truth truth = 0 ∧
    ((∀ s k : ℤ, 0 ≤ s → s < samples → 0 ≤ k → k < n → 0 < threshold ∧ 0 < arr s k ∧ truth s k ≠ threshold ∧ (truth s k < threshold → arr s k ≠ 1 ∨ 1 ≤ threshold)) → samples ≠ 0 →
      (energySpectrumMetric threshold n samples arr truth = 0 ↔ ∀ s k : ℤ, 0 ≤ s → s < samples → 0 ≤ k → k < n →
        (threshold < truth s k → arr s k = truth s k) ∧ (truth s k < threshold → arr s k ≤ threshold))) := by
  classical
  have hnn : ∀ s, 0 ≤ energySpectrumMetric1 threshold n (arr s) (truth s) := fun s => by
    unfold energySpectrumMetric1
    refine add_nonneg (Finset.sum_nonneg fun k _ => ?_) (Finset.sum_nonneg fun k _ => ?_) <;> split_ifs <;> positivity
  refine ⟨div_nonneg (Finset.sum_nonneg fun s _ => hnn s) (Nat.cast_nonneg _), ?_, fun h hs => ?_⟩
  · unfold energySpectrumMetric
    rw [Finset.sum_eq_zero, zero_div]
    intro s _
    unfold energySpectrumMetric1
    rw [Finset.sum_eq_zero fun k _ => by simp, Finset.sum_eq_zero fun k _ => ?_, add_zero]
    rw [if_neg fun h => absurd h.1 (not_lt.2 h.2.le)]
  · have hS : (samples : ℝ) ≠ 0 := by exact_mod_cast hs
    unfold energySpectrumMetric
    rw [div_eq_zero_iff, or_iff_left hS, Finset.sum_eq_zero_iff_of_nonneg fun s _ => hnn s]
    have h1 : ∀ s ∈ Finset.Ico (0 : ℤ) samples, energySpectrumMetric1 threshold n (arr s) (truth s) = 0 ↔ ∀ k, 0 ≤ k → k < (n : ℤ) →
        (threshold < truth s k → arr s k = truth s k) ∧ (truth s k < threshold → arr s k ≤ threshold) := by
      intro s hs
      rw [Finset.mem_Ico] at hs
      unfold energySpectrumMetric1
      rw [add_eq_zero_iff_of_nonneg (Finset.sum_nonneg fun k _ => by split_ifs <;> positivity) (Finset.sum_nonneg fun k _ => by split_ifs <;> positivity),
        Finset.sum_eq_zero_iff_of_nonneg (fun k _ => by split_ifs <;> positivity), Finset.sum_eq_zero_iff_of_nonneg (fun k _ => by split_ifs <;> positivity),
        ← forall₂_and]
      refine forall_congr' fun k => ?_
      rw [Finset.mem_Ico, and_imp]
      refine forall₂_congr fun h0 h1 => ?_
      obtain ⟨ht, ha, hne, hblind⟩ := h s k hs.1 hs.2 h0 h1
      refine and_congr ?_ ?_
      · rcases lt_or_ge threshold (truth s k) with h' | h'
        · rw [if_pos h', abs_eq_zero, sub_eq_zero]
          exact ⟨fun e _ => Real.log_injOn_pos ha (ht.trans h') e, fun e => by rw [e h']⟩
        · rw [if_neg (not_lt.2 h')]
          exact ⟨fun _ h'' => absurd h'' (not_lt.2 h'), fun _ => rfl⟩
      · rcases lt_or_ge (truth s k) threshold with h' | h'
        · rcases lt_or_ge threshold (arr s k) with h'' | h''
          · rw [if_pos ⟨h'', h'⟩, abs_eq_zero]
            refine ⟨fun e => ?_, fun e => absurd (e h') (not_le.2 h'')⟩
            rcases Real.log_eq_zero.1 e with e | e | e
            · linarith
            · rcases hblind h' with hb | hb
              · exact absurd e hb
              · linarith
            · linarith
          · rw [if_neg fun h => absurd h.1 (not_lt.2 h'')]
            exact ⟨fun _ _ => h'', fun _ => rfl⟩
        · rw [if_neg fun h => absurd h.2 (not_lt.2 h')]
          exact ⟨fun _ h'' => absurd h'' (not_lt.2 h'), fun _ => rfl⟩
    constructor
    · intro hz s k hs0 hs1
      exact (h1 s (Finset.mem_Ico.2 ⟨hs0, hs1⟩)).1 (hz s (Finset.mem_Ico.2 ⟨hs0, hs1⟩)) k
    · intro hz s hs
      exact (h1 s hs).2 fun k => hz s k (Finset.mem_Ico.1 hs).1 (Finset.mem_Ico.1 hs).2

/-- The two blind spots of `energy_spectrum_metric` with the default threshold 0.01: a truth exactly at the threshold is never compared, and a prediction of exactly 1 where
there should be no energy counts as no failure, because `|log 1| = 0`. -/
theorem C65_spectrum_metric_defect (n samples : ℕ) :
    (∀ arr : ℤ → ℤ → ℝ, energySpectrumMetric (1 / 100) n samples arr (fun _ _ => 1 / 100) = 0) ∧
    energySpectrumMetric (1 / 100) n samples (fun _ _ => 1) (fun _ _ => 1 / 1000000) = 0 := by
  constructor
  · intro arr
    unfold energySpectrumMetric energySpectrumMetric1
    simp
  · unfold energySpectrumMetric energySpectrumMetric1
    norm_num

/-- **C65.** `u_x_correlation_metric` (and, up to the mean, `u_t_correlation_metric`): never negative and zero for identical correlations.  For a nonnegative
threshold that the truth never meets exactly, it is zero exactly when the prediction agrees with the truth wherever that exceeds the threshold in
absolute value, and stays within the threshold wherever the truth does. -/
theorem C65_correlation_metric (threshold : ℝ) (ht : 0 ≤ threshold) (n samples : ℕ) (arr truth : ℤ → ℤ → ℝ) :
    0 ≤ correlationMetric threshold n samples arr truth ∧
    correlationMetric threshold n samples truth truth = 0 ∧
    ((∀ s k : ℤ, 0 ≤ s → s < samples → 0 ≤ k → k < n → |truth s k| ≠ threshold) → samples ≠ 0 →
      (correlationMetric threshold n samples arr truth = 0 ↔ ∀ s k : ℤ, 0 ≤ s → s < samples → 0 ≤ k → k < n →
        (threshold < |truth s k| → arr s k = truth s k) ∧ (|truth s k| < threshold → |arr s k| ≤ threshold))) := by
  classical
  have hnn : ∀ s, 0 ≤ correlationMetric1 threshold n (arr s) (truth s) := fun s => by
    unfold correlationMetric1
    refine add_nonneg (Finset.sum_nonneg fun k _ => ?_) (Finset.sum_nonneg fun k _ => ?_) <;> split_ifs <;> positivity
  refine ⟨div_nonneg (Finset.sum_nonneg fun s _ => hnn s) (Nat.cast_nonneg _), ?_, fun h hs => ?_⟩
  · unfold correlationMetric
    rw [Finset.sum_eq_zero, zero_div]
    intro s _
    unfold correlationMetric1
    rw [Finset.sum_eq_zero fun k _ => by simp, Finset.sum_eq_zero fun k _ => ?_, add_zero]
    rw [if_neg fun h => absurd h.1 (not_lt.2 h.2.le)]
  · have hS : (samples : ℝ) ≠ 0 := by exact_mod_cast hs
    unfold correlationMetric
    rw [div_eq_zero_iff, or_iff_left hS, Finset.sum_eq_zero_iff_of_nonneg fun s _ => hnn s]
    have h1 : ∀ s ∈ Finset.Ico (0 : ℤ) samples, correlationMetric1 threshold n (arr s) (truth s) = 0 ↔ ∀ k, 0 ≤ k → k < (n : ℤ) →
        (threshold < |truth s k| → arr s k = truth s k) ∧ (|truth s k| < threshold → |arr s k| ≤ threshold) := by
      intro s hs
      rw [Finset.mem_Ico] at hs
      unfold correlationMetric1
      rw [add_eq_zero_iff_of_nonneg (Finset.sum_nonneg fun k _ => by split_ifs <;> positivity) (Finset.sum_nonneg fun k _ => by split_ifs <;> positivity),
        Finset.sum_eq_zero_iff_of_nonneg (fun k _ => by split_ifs <;> positivity), Finset.sum_eq_zero_iff_of_nonneg (fun k _ => by split_ifs <;> positivity),
        ← forall₂_and]
      refine forall_congr' fun k => ?_
      rw [Finset.mem_Ico, and_imp]
      refine forall₂_congr fun h0 h1 => ?_
      refine and_congr ?_ ?_
      · rcases lt_or_ge threshold |truth s k| with h' | h'
        · rw [if_pos h', abs_eq_zero, sub_eq_zero]
          exact ⟨fun e _ => e, fun e => e h'⟩
        · rw [if_neg (not_lt.2 h')]
          exact ⟨fun _ h'' => absurd h'' (not_lt.2 h'), fun _ => rfl⟩
      · rcases lt_or_ge |truth s k| threshold with h' | h'
        · rcases lt_or_ge threshold |arr s k| with h'' | h''
          · rw [if_pos ⟨h'', h'⟩]
            exact ⟨fun e => by linarith, fun e => absurd (e h') (not_le.2 h'')⟩
          · rw [if_neg fun h => absurd h.1 (not_lt.2 h'')]
            exact ⟨fun _ _ => h'', fun _ => rfl⟩
        · rw [if_neg fun h => absurd h.2 (not_lt.2 h')]
          exact ⟨fun _ h'' => absurd h'' (not_lt.2 h'), fun _ => rfl⟩
    constructor
    · intro hz s k hs0 hs1
      exact (h1 s (Finset.mem_Ico.2 ⟨hs0, hs1⟩)).1 (hz s (Finset.mem_Ico.2 ⟨hs0, hs1⟩)) k
    · intro hz s hs
      exact (h1 s hs).2 fun k => hz s k (Finset.mem_Ico.1 hs).1 (Finset.mem_Ico.1 hs).2

/-- The blind spot of the correlation metrics with the default threshold 0.5: a truth exactly at the threshold is never compared. -/
theorem C65_correlation_metric_defect (n samples : ℕ) (arr : ℤ → ℤ → ℝ) : correlationMetric (1 / 2) n samples arr (fun _ _ => 1 / 2) = 0 := by
  unfold correlationMetric correlationMetric1
  simp [abs_of_pos]

theorem card_box (sizes : Fin d → ℕ) : ((box sizes).card : ℝ) = ∏ b, (sizes b : ℝ) := by
  unfold box
  rw [Fintype.card_piFinset]
  push_cast
  exact Finset.prod_congr rfl fun b _ => by simp

/-- Non-vacuity: a prediction that agrees above the threshold and is small below it. -/
example : energySpectrumMetric (1 / 100) 2 1 (fun _ k => if k = 0 then 5 else 1 / 200) (fun _ k => if k = 0 then 5 else 1 / 1000) = 0 :=
  ((C65_spectrum_metric (1 / 100) 2 1 _ _).2.2 (fun s k _ _ _ _ => ⟨by norm_num, by split_ifs <;> norm_num, by split_ifs <;> norm_num,
    fun _ => by split_ifs <;> norm_num⟩) (by norm_num)).2 fun s k _ _ _ _ => ⟨by split_ifs <;> norm_num, by split_ifs <;> norm_num⟩

/-- **C65.** `average` over samples and space: the sum of all values over their number; so it lies between any bounds of the values, and is linear. -/
theorem C65_average (sizes : Fin d → ℕ) (samples : ℕ) (hs : samples ≠ 0) (hn : ∀ b, sizes b ≠ 0) (f : ℤ → Idx d → ℝ) :
    (∀ lo hi : ℝ, (∀ s : ℤ, 0 ≤ s → s < samples → ∀ i : Idx d, InR sizes i → lo ≤ f s i ∧ f s i ≤ hi) → lo ≤ average sizes samples f ∧ average sizes samples f ≤ hi) ∧
    ∀ (a b : ℝ) (g : ℤ → Idx d → ℝ), average sizes samples (fun s i => a * f s i + b * g s i) = a * average sizes samples f + b * average sizes samples g := by
  have hpos : (0 : ℝ) < samples * ∏ b, (sizes b : ℝ) := by
    have h1 : (0 : ℝ) < samples := by exact_mod_cast (by omega : 0 < samples)
    have h2 : ∀ b, (0 : ℝ) < sizes b := fun b => by exact_mod_cast Nat.pos_of_ne_zero (hn b)
    exact mul_pos h1 (Finset.prod_pos fun b _ => h2 b)
  constructor
  · intro lo hi h
    unfold average
    have hc : (samples : ℝ) * ∏ b, (sizes b : ℝ) = ∑ s ∈ Finset.Ico (0 : ℤ) samples, ∑ i ∈ box sizes, (1 : ℝ) := by
      simp [card_box]
    constructor
    · rw [le_div_iff₀ hpos, hc, Finset.mul_sum]
      refine Finset.sum_le_sum fun s hs => ?_
      rw [Finset.mul_sum]
      refine Finset.sum_le_sum fun i hi' => ?_
      rw [mul_one]
      exact (h s (Finset.mem_Ico.1 hs).1 (Finset.mem_Ico.1 hs).2 i (inr_of_mem_box hi')).1
    · rw [div_le_iff₀ hpos, hc, Finset.mul_sum]
      refine Finset.sum_le_sum fun s hs => ?_
      rw [Finset.mul_sum]
      refine Finset.sum_le_sum fun i hi' => ?_
      rw [mul_one]
      exact (h s (Finset.mem_Ico.1 hs).1 (Finset.mem_Ico.1 hs).2 i (inr_of_mem_box hi')).2
  · intro a b g
    unfold average
    simp only [Finset.sum_add_distrib, ← Finset.mul_sum]
    ring

/-- **C65.** `absolute_error` and `below_error_threshold`: the error is a distance (zero exactly where prediction and truth agree, symmetric, triangle inequality),
and the test holds exactly where that error does not exceed the threshold. -/
theorem C65_absolute_error (p q r : Idx d → ℝ) (i : Idx d) :
    (absoluteError p q i = 0 ↔ p i = q i) ∧ absoluteError p q i = absoluteError q p i ∧ absoluteError p r i ≤ absoluteError p q i + absoluteError q r i ∧
      ∀ threshold, belowErrorThreshold p q threshold i ↔ absoluteError p q i ≤ threshold := by
  unfold absoluteError belowErrorThreshold
  exact ⟨by rw [abs_eq_zero, sub_eq_zero], abs_sub_comm _ _, abs_sub_le _ _ _, fun _ => Iff.rfl⟩

/-! ### Conversion of trajectories -/

/-- The offset of the `component`-th velocity in the dataset: one along its own axis, one half along the others. -/
def faceOffset (d component : ℕ) : List ℚ := List.ofFn fun b : Fin d => if (b : ℕ) = component then 1 else 1 / 2

theorem pyItem_nonneg {α : Type} (l : List α) (j : ℕ) (hj : j < l.length) : pyItem l (j : ℤ) = .ok l[j] := by
  unfold pyItem Metric.pyIndex
  rw [if_pos (by omega), Except.bind_ok, if_neg (by omega)]
  simp [hj]

/-- **C65.** `velocity_trajectory_to_xarray` with a grid of `d ≤ 3` dimensions, for the `d` velocity components, or one scalar followed by them, all with the
right number of dimensions: the scalar `c` (if any) keeps its data and its own offset; component `j` is stored under the `j`-th name of `u, v, w` with the
data of the `j`-th velocity and the offset of face `j`, whatever its own offset was; all names carry the prefix. -/
theorem C65_to_xarray {α : Type} (g : Grid d ℝ) (hd : d ≤ 3) (samples : Bool) (prefixName : String) (scalar : List (Item α)) (hs : scalar.length ≤ 1)
    (vel : Fin d → Item α) (hdim : ∀ x ∈ scalar ++ List.ofFn vel, x.ndim = (if samples then 1 else 0) + 1 + d) :
    trajectoryVars (scalar ++ List.ofFn vel) (some g) samples prefixName = .ok
      ((scalar.map fun x => ⟨prefixName ++ "c", x.data, x.offset⟩) ++
        List.ofFn fun j : Fin d => ⟨prefixName ++ (["u", "v", "w"].getD j ""), (vel j).data, some (faceOffset d j)⟩) := by
  unfold trajectoryVars
  dsimp only
  have hnum : ((scalar ++ List.ofFn vel).length : ℤ) - d = scalar.length := by simp
  have hsp : (spatialDims.take d).length = d := by simp [spatialDims, hd]
  rw [hnum, hsp, Int.toNat_natCast]
  have h1 : (List.range scalar.length).mapM (scalarVar (scalar ++ List.ofFn vel) ((if samples then 1 else 0) + 1 + d) prefixName) =
      .ok (scalar.map fun x => ⟨prefixName ++ "c", x.data, x.offset⟩) := by
    rw [mapM_eq_ok]
    refine forall2_of_getElem (by simp) fun j h1 h2 => ?_
    have hj : j < scalar.length := by simpa using h1
    rw [List.getElem_range, List.getElem_map]
    unfold scalarVar scalarName
    rw [if_pos (by omega), Except.bind_ok, pyItem_nonneg _ j (by simp; omega), Except.bind_ok, List.getElem_append_left hj]
    unfold mkVar
    rw [if_pos (hdim _ (by simp))]
  have h2 : (List.range d).mapM (velocityVar (scalar ++ List.ofFn vel) (some g) scalar.length ((if samples then 1 else 0) + 1 + d) prefixName) =
      .ok (List.ofFn fun j : Fin d => ⟨prefixName ++ (["u", "v", "w"].getD j ""), (vel j).data, some (faceOffset d j)⟩) := by
    rw [mapM_eq_ok]
    refine forall2_of_getElem (by simp) fun j h1 h2 => ?_
    have hj : j < d := by simpa using h1
    rw [List.getElem_range, List.getElem_ofFn]
    unfold velocityVar
    have hname : velocityName j = .ok (["u", "v", "w"].getD j "") := by
      have : j < 3 := by omega
      interval_cases j <;> rfl
    have hget : pyItem (scalar ++ List.ofFn vel) ((j : ℤ) + (scalar.length : ℕ)) = .ok (vel ⟨j, hj⟩) := by
      have := pyItem_nonneg (scalar ++ List.ofFn vel) (j + scalar.length) (by simp; omega)
      push_cast at this
      rw [this, List.getElem_append_right (by omega)]
      simp
    rw [hname, Except.bind_ok, hget, Except.bind_ok]
    unfold mkVar
    rw [if_pos (hdim _ (by simp))]
    dsimp only
    rw [dif_pos hj]
    congr 3
    unfold faceOffset Grid.cellFaces
    congr 1
    funext b
    have : (b = (⟨j, hj⟩ : Fin d)) ↔ (b : ℕ) = j := Fin.ext_iff
    simp only [this]
    split_ifs <;> norm_num
  rw [h1, Except.bind_ok, h2, Except.bind_ok]
  rfl

/-- **C65.** Without a grid all entries are velocities: up to three components are stored as `u, v, w` without an offset attribute. -/
theorem C65_to_xarray_no_grid {α : Type} (samples : Bool) (prefixName : String) (vel : List (Item α)) (hl : vel.length ≤ 3)
    (hdim : ∀ x ∈ vel, x.ndim = (if samples then 1 else 0) + 1 + vel.length) :
    ∃ vars, trajectoryVars (d := d) vel none samples prefixName = .ok vars ∧ vars.length = vel.length ∧
      ∀ (j : ℕ) (hj : j < vel.length) (hj' : j < vars.length), vars[j] = ⟨prefixName ++ (["u", "v", "w"].getD j ""), vel[j].data, none⟩ := by
  unfold trajectoryVars
  dsimp only
  have hsp : (spatialDims.take vel.length).length = vel.length := by simp [spatialDims, hl]
  rw [hsp, sub_self]
  refine ⟨List.ofFn fun j : Fin vel.length => ⟨prefixName ++ (["u", "v", "w"].getD j ""), vel[j].data, none⟩, ?_, by simp, fun j hj hj' => by simp⟩
  have h2 : (List.range vel.length).mapM (velocityVar (d := d) vel none 0 ((if samples then 1 else 0) + 1 + vel.length) prefixName) =
      .ok (List.ofFn fun j : Fin vel.length => ⟨prefixName ++ (["u", "v", "w"].getD j ""), vel[j].data, none⟩) := by
    rw [mapM_eq_ok]
    refine forall2_of_getElem (by simp) fun j h1 h2 => ?_
    have hj : j < vel.length := by simpa using h1
    rw [List.getElem_range, List.getElem_ofFn]
    unfold velocityVar
    have hname : velocityName j = .ok (["u", "v", "w"].getD j "") := by
      have : j < 3 := by omega
      interval_cases j <;> rfl
    rw [hname, Except.bind_ok, add_zero, pyItem_nonneg _ j hj, Except.bind_ok]
    unfold mkVar
    rw [if_pos (hdim _ (List.getElem_mem hj))]
    rfl
  rw [h2]
  rfl

/-- The finding: with a grid, two or more scalars before the velocities are an IndexError, since the tuple of scalar names is the string `'c'`. -/
theorem C65_two_scalars_defect {α : Type} (g : Grid d ℝ) (samples : Bool) (prefixName : String) (scalar : List (Item α)) (hs : 2 ≤ scalar.length)
    (vel : Fin d → Item α) (hdim : ∀ x ∈ scalar, x.ndim = (if samples then 1 else 0) + 1 + min d 3) :
    trajectoryVars (scalar ++ List.ofFn vel) (some g) samples prefixName = .error .index := by
  unfold trajectoryVars
  dsimp only
  have hnum : ((scalar ++ List.ofFn vel).length : ℤ) - d = scalar.length := by simp
  have hsp : (spatialDims.take d).length = min d 3 := by simp [spatialDims]
  rw [hnum, hsp, Int.toNat_natCast]
  obtain ⟨k, hk⟩ : ∃ k, scalar.length = k + 2 := ⟨scalar.length - 2, by omega⟩
  have h0 : scalarVar (scalar ++ List.ofFn vel) ((if samples then 1 else 0) + 1 + min d 3) prefixName 0 = .ok ⟨prefixName ++ "c", scalar[0].data, scalar[0].offset⟩ := by
    unfold scalarVar scalarName
    rw [if_pos rfl, Except.bind_ok, pyItem_nonneg _ 0 (by simp; omega), Except.bind_ok, List.getElem_append_left (by omega)]
    unfold mkVar
    rw [if_pos (hdim _ (List.getElem_mem _))]
  have h1 : scalarVar (scalar ++ List.ofFn vel) ((if samples then 1 else 0) + 1 + min d 3) prefixName 1 = .error .index := rfl
  have : (List.range scalar.length).mapM (scalarVar (scalar ++ List.ofFn vel) ((if samples then 1 else 0) + 1 + min d 3) prefixName) = .error .index := by
    rw [hk, List.range_succ_eq_map, List.range_succ_eq_map, List.map_cons, List.mapM_cons, h0, Except.bind_ok, List.mapM_cons]
    rw [show Nat.succ 0 = 1 from rfl, h1]
    rfl
  rw [this]
  rfl

/-- The finding: a single array with a two-dimensional grid (a scalar trajectory, say) is stored twice, as both velocity components, through the negative
index `trajectory[-1]`. -/
theorem C65_too_few_components_defect {α : Type} (g : Grid 2 ℝ) (samples : Bool) (prefixName : String) (x : Item α) (hx : x.ndim = (if samples then 1 else 0) + 3) :
    trajectoryVars [x] (some g) samples prefixName = .ok
      [⟨prefixName ++ "u", x.data, some [1, 1 / 2]⟩, ⟨prefixName ++ "v", x.data, some [1 / 2, 1]⟩] := by
  unfold trajectoryVars
  dsimp only
  have e : (spatialDims.take 2).length = 2 := rfl
  rw [e]
  have h0 : velocityVar [x] (some g) (-1) ((if samples then 1 else 0) + 1 + 2) prefixName 0 = .ok ⟨prefixName ++ "u", x.data, some [1, 1 / 2]⟩ := by
    unfold velocityVar
    have : pyItem [x] (((0 : ℕ) : ℤ) + -1) = .ok x := rfl
    rw [this]
    simp only [velocityName, velocityNames, List.getElem?_cons_zero, Except.bind_ok, mkVar]
    rw [if_pos hx]
    norm_num [Grid.cellFaces, List.ofFn_succ]
  have h1 : velocityVar [x] (some g) (-1) ((if samples then 1 else 0) + 1 + 2) prefixName 1 = .ok ⟨prefixName ++ "v", x.data, some [1 / 2, 1]⟩ := by
    unfold velocityVar
    have : pyItem [x] (((1 : ℕ) : ℤ) + -1) = .ok x := rfl
    rw [this]
    have e2 : velocityName 1 = .ok "v" := rfl
    simp only [e2, Except.bind_ok, mkVar]
    rw [if_pos hx]
    norm_num [Grid.cellFaces, List.ofFn_succ]
  have e3 : (List.range 2).mapM (velocityVar [x] (some g) (([x].length : ℤ) - (2 : ℕ)) ((if samples then 1 else 0) + 1 + 2) prefixName) =
      .ok [⟨prefixName ++ "u", x.data, some [1, 1 / 2]⟩, ⟨prefixName ++ "v", x.data, some [1 / 2, 1]⟩] := by
    rw [show (([x].length : ℤ) - (2 : ℕ)) = -1 from rfl, show List.range 2 = [0, 1] from rfl, List.mapM_cons, h0, Except.bind_ok, List.mapM_cons, h1]
    rfl
  rw [e3]
  rfl

/-- **C65.** `construct_coords`: for up to three dimensions the coordinates of `x, y, z` are the cell centres of the grid — not the positions of the staggered
data — followed by the given times and sample numbers. -/
theorem C65_coords (g : Grid d ℝ) (times sampleIds : List ℝ) :
    constructCoords (some g) (some times) (some sampleIds) = .ok (["x", "y", "z"].zip (List.ofFn fun a : Fin d => (List.range (g.shape a)).map fun j : ℕ =>
      (g.domain a).1 + ((j : ℝ) + 1 / 2) * g.step a) ++ [("time", times), ("sample", sampleIds)]) ∧
    constructCoords (d := d) none none none = .ok [] := by
  constructor
  · unfold constructCoords Grid.axes
    simp only [Option.getD_some, List.length_ofFn, ne_eq, not_true, if_false, Except.bind_ok]
    have e : ∀ a : Fin d, (List.ofFn fun a => ((g.cellCenter a : ℚ) : ℝ)).getD a 0 = 1 / 2 := by
      intro a
      simp [Grid.cellCenter]
    simp only [e]
    simp [pure, Except.pure, spatialDims]
  · rfl

/-- **C65.** `grid_from_attrs`: a dataset with `ndim`, `save_grid_size = n > 0` and `domain_size = L` describes the grid of `n` points per dimension on `(0, L)` with step
`L/n`; with `domain_size_multiple = m` instead the size is `2πm`; with neither it is a ValueError.  Without `save_grid_size`, the rectangle is
`save_grid_size_x` by `save_grid_size_y` points on `(0, aspect_ratio) × (0, 1)`, which is only accepted for two dimensions. -/
theorem C65_grid_from_attrs (a : Attrs) (ndim n : ℕ) (hn : n ≠ 0) (h : a.ndim = some ndim) :
    (a.saveGridSize = some n → ∀ L : ℝ, a.domainSize = some L →
      gridFromAttrs a = .ok ⟨List.replicate ndim n, List.replicate ndim (L / n), List.replicate ndim (0, L)⟩) ∧
    (a.saveGridSize = some n → ∀ m : ℝ, a.domainSize = none → a.domainSizeMultiple = some m →
      gridFromAttrs a = .ok ⟨List.replicate ndim n, List.replicate ndim (2 * Real.pi * m / n), List.replicate ndim (0, 2 * Real.pi * m)⟩) ∧
    (a.saveGridSize = some n → a.domainSize = none → a.domainSizeMultiple = none → gridFromAttrs a = .error .value) ∧
    (a.saveGridSize = none → ∀ (nx ny : ℕ) (r : ℝ), nx ≠ 0 → ny ≠ 0 → a.saveGridSizeX = some nx → a.saveGridSizeY = some ny → a.aspectRatio = some r →
      gridFromAttrs a = if 2 ≤ ndim then .ok ⟨[nx, ny], [r / nx, 1 / ny], [(0, r), (0, 1)]⟩ else .error .value) := by
  have hpairs : ∀ (k : ℕ) (L : ℝ), asPairs (List.replicate k [0, L]) = .ok (List.replicate k (0, L)) := by
    intro k L
    induction k with
    | zero => rfl
    | succ k ih => rw [List.replicate_succ, asPairs, ih]; rfl
  have hsq : ∀ L : ℝ, gridInit (List.replicate ndim n) .none (.seq (List.replicate ndim [0, L])) =
      .ok ⟨List.replicate ndim n, List.replicate ndim (L / n), List.replicate ndim (0, L)⟩ := by
    intro L
    unfold gridInit gridDomain
    dsimp only
    rw [if_neg (by simp), if_neg (by simp), hpairs, Except.bind_ok, if_neg (by simp [List.mem_replicate, hn.symm])]
    simp [pure, Except.pure]
  refine ⟨fun h1 L h2 => ?_, fun h1 m h2 h3 => ?_, fun h1 h2 h3 => ?_, fun h1 nx ny r hx hy h2 h3 h4 => ?_⟩
  · unfold gridFromAttrs
    simp only [h, Attrs.require, h1, h2, Except.bind_ok]
    exact hsq L
  · unfold gridFromAttrs
    simp only [h, Attrs.require, h1, h2, h3, Except.bind_ok]
    exact hsq _
  · unfold gridFromAttrs
    simp only [h, Attrs.require, h1, h2, h3, Except.bind_ok]
    rfl
  · unfold gridFromAttrs
    simp only [h, Attrs.require, h1, h2, h3, h4, Except.bind_ok]
    split_ifs with hd
    · rw [List.take_of_length_le (by simpa using hd)]
      simp only [List.mapM_cons, List.mapM_nil, Attrs.require, Except.bind_ok]
      simp [gridInit, gridDomain, asPairs, pure, Except.pure, bind, Except.bind, hx.symm, hy.symm]
    · have : ndim = 0 ∨ ndim = 1 := by omega
      rcases this with rfl | rfl
      · simp [gridInit, gridDomain, pure, Except.pure, bind, Except.bind]
      · simp [gridInit, gridDomain, pure, Except.pure, bind, Except.bind, Attrs.require]

/-- **C65.** Missing attributes are KeyErrors. -/
theorem C65_grid_from_attrs_missing (a : Attrs) (h : a.ndim = none ∨ (a.saveGridSize = none ∧ a.aspectRatio = none) ∨
    (a.saveGridSize = none ∧ a.saveGridSizeX = none ∧ a.ndim ≠ some 0)) : gridFromAttrs a = .error .key := by
  unfold gridFromAttrs
  rcases h with h | ⟨h1, h2⟩ | ⟨h1, h2, h3⟩
  · rw [h]
    rfl
  · cases hd : a.ndim with
    | none => rfl
    | some k =>
        simp only [Attrs.require, Except.bind_ok, h1, h2]
        have : ∀ l : List (Option ℕ), (∃ r, l.mapM Attrs.require = .ok r) ∨ l.mapM Attrs.require = .error .key := by
          intro l
          induction l with
          | nil => exact .inl ⟨[], rfl⟩
          | cons x xs ih =>
              rw [List.mapM_cons]
              cases x with
              | none => exact .inr rfl
              | some y =>
                  rcases ih with ⟨r, ih⟩ | ih
                  · exact .inl ⟨y :: r, by rw [ih]; rfl⟩
                  · exact .inr (by rw [ih]; rfl)
        rcases this ([a.saveGridSizeX, a.saveGridSizeY].take k) with ⟨r, hr⟩ | hr
        · rw [hr]
          rfl
        · rw [hr]
          rfl
  · cases hd : a.ndim with
    | none => rfl
    | some k =>
        have hk : k ≠ 0 := fun h => h3 (by rw [hd, h])
        obtain ⟨k, rfl⟩ := Nat.exists_eq_succ_of_ne_zero hk
        simp only [Attrs.require, Except.bind_ok, h1, h2, List.take_succ_cons, List.mapM_cons]
        rfl

/-- Non-vacuity: a scalar and two velocity components on a grid. -/
example (g : Grid 2 ℝ) : trajectoryVars [⟨3, "c data", some [1 / 2, 1 / 2]⟩, ⟨3, "u data", none⟩, ⟨3, "v data", none⟩] (some g) false "p_" = .ok
    [⟨"p_c", "c data", some [1 / 2, 1 / 2]⟩, ⟨"p_u", "u data", some [1, 1 / 2]⟩, ⟨"p_v", "v data", some [1 / 2, 1]⟩] := by
  have := C65_to_xarray g (by norm_num) false "p_" [⟨3, "c data", some [1 / 2, 1 / 2]⟩] (by simp) (fun a => if a = 0 then ⟨3, "u data", none⟩ else ⟨3, "v data", none⟩)
    (by simp [List.ofFn_succ])
  simp [List.ofFn_succ, faceOffset] at this
  simpa using this

end JaxCfd.Eval
