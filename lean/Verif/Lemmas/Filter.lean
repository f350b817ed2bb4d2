import Verif.Model.Forcings
import Verif.Lemmas.Separable
import Verif.Lemmas.SpectralUtils
import Verif.Props.SpectralVelocity
import Mathlib.Tactic.Ring
import Mathlib.Tactic.LinearCombination

/-! Spectral filters. -/

namespace JaxCfd
variable {d : ℕ}

/-- The multidimensional transform as one sum over the box. -/
theorem axesOp_sum_box {K : Type} [Field K] (s : Fin d → ℕ) (w : Fin d → ℤ → ℤ → K) (l : List (Fin d)) (hl : l.Nodup) (x : Idx d → K)
    (k : Idx d) :
    axesOp s w l x k = ∑ i ∈ Fintype.piFinset fun a => if a ∈ l then Finset.Ico (0 : ℤ) (s a) else {k a},
      x i * (l.map fun a => w a (i a) (k a)).prod := by
  induction l generalizing x with
  | nil =>
    have : (Fintype.piFinset fun a : Fin d => if a ∈ ([] : List (Fin d)) then Finset.Ico (0 : ℤ) (s a) else {k a}) = {k} := by
      ext i
      simp [funext_iff]
    rw [this]
    simp [axesOp]
  | cons a l ih =>
    have hal := (List.nodup_cons.1 hl).1
    rw [axesOp_cons, ih (List.nodup_cons.1 hl).2]
    unfold axisOp
    have e1 : ∀ i ∈ Fintype.piFinset (fun b => if b ∈ l then Finset.Ico (0 : ℤ) (s b) else {k b}),
        (∑ j ∈ Finset.Ico (0 : ℤ) (s a), x (Function.update i a j) * w a j (i a)) * (l.map fun b => w b (i b) (k b)).prod =
        ∑ j ∈ Finset.Ico (0 : ℤ) (s a), x (Function.update i a j) *
          ((a :: l).map fun b => w b (Function.update i a j b) (k b)).prod := by
      intro i hi
      have hia : i a = k a := by simpa [hal] using (Fintype.mem_piFinset.1 hi) a
      rw [Finset.sum_mul]
      refine Finset.sum_congr rfl fun j _ => ?_
      rw [List.map_cons, List.prod_cons, Function.update_self, hia, mul_assoc]
      congr 3
      refine List.map_congr_left fun b hb => ?_
      rw [Function.update_of_ne (fun e : b = a => hal (by rw [← e]; exact hb))]
    rw [Finset.sum_congr rfl e1, ← Finset.sum_product']
    refine Finset.sum_nbij' (fun p => Function.update p.1 a p.2) (fun i => (Function.update i a (k a), i a)) ?_ ?_ ?_ ?_ ?_
    · intro p hp
      obtain ⟨h1, h2⟩ := Finset.mem_product.1 hp
      rw [Fintype.mem_piFinset] at h1 ⊢
      intro b
      by_cases hb : b = a
      · subst hb; simpa using h2
      · have := h1 b
        simpa [hb] using this
    · intro i hi
      rw [Fintype.mem_piFinset] at hi
      rw [Finset.mem_product, Fintype.mem_piFinset]
      refine ⟨fun b => ?_, by simpa using hi a⟩
      by_cases hb : b = a
      · subst hb; simp [hal]
      · have := hi b
        simpa [hb] using this
    · intro p hp
      obtain ⟨h1, h2⟩ := Finset.mem_product.1 hp
      have hia : p.1 a = k a := by simpa [hal] using (Fintype.mem_piFinset.1 h1) a
      ext1
      · rw [Function.update_idem, ← hia, Function.update_eq_self]
      · simp
    · intro i hi
      simp
    · intro p hp
      rfl

theorem fftn_zero (x : NArr d ℂ) : (fftn x).data 0 = ∑ i ∈ box x.shape, x.data i := by
  rw [fftn_eq, axesOp_sum_box _ _ _ (List.nodup_finRange d)]
  have : (Fintype.piFinset fun a : Fin d => if a ∈ List.finRange d then Finset.Ico (0 : ℤ) (x.shape a) else {(0 : Idx d) a}) = box x.shape := by
    simp [box]
  rw [this]
  refine Finset.sum_congr rfl fun i _ => ?_
  have : ((List.finRange d).map fun a => fftKernel (x.shape a) (i a) ((0 : Idx d) a)) = (List.finRange d).map fun _ => (1 : ℂ) :=
    List.map_congr_left fun a _ => by simp [fftKernel]
  rw [this]
  simp

/-- The angular wavenumber of entry `k` of the transform of an array on the grid. -/
noncomputable def waveNumber (g : Grid d ℝ) (k : Idx d) : ℝ :=
  Real.sqrt (∑ a, (2 * Real.pi * centred (g.shape a) (k a) / ((g.domain a).2 - (g.domain a).1)) ^ 2)

theorem centred_fftfreq {n : ℕ} {k : ℤ} (h0 : 0 ≤ k) (h1 : k < n) : (if k ≤ (n - 1 : ℤ) / 2 then (k : ℝ) else k - n) = centred n k := by
  unfold centred
  split_ifs with h
  · rw [Int.emod_eq_of_lt (by omega) (by omega)]; push_cast; ring
  · have : (k + (n / 2 : ℕ)) % n = k + (n / 2 : ℕ) - n := by
      rw [← Int.sub_emod_right, Int.emod_eq_of_lt (by omega) (by omega)]
    rw [this]; push_cast; ring

theorem angularMagnitude_eq {g : Grid d ℝ} (hg : g.Proper) {k : Idx d} (hk : InR g.shape k) : angularMagnitude g k = waveNumber g k := by
  unfold angularMagnitude waveNumber
  congr 1
  refine Finset.sum_congr rfl fun a _ => ?_
  unfold fftfreq
  rw [centred_fftfreq (hk a).1 (hk a).2]
  have h : (g.shape a : ℝ) ≠ 0 := by exact_mod_cast (hg a).1
  have : (g.shape a : ℝ) * g.step a = (g.domain a).2 - (g.domain a).1 := by
    unfold Grid.step
    field_simp
  rw [this]
  ring

theorem centred_eq_zero {n : ℕ} {k : ℤ} (h0 : 0 ≤ k) (h1 : k < n) : centred n k = 0 ↔ k = 0 := by
  have := centred_emod (n := n) k
  constructor
  · intro h
    rw [h, Int.zero_emod, Int.emod_eq_of_lt h0 h1] at this
    exact this.symm
  · rintro rfl
    unfold centred
    rw [zero_add, Int.emod_eq_of_lt (by omega) (by omega), sub_self]

theorem waveNumber_pos {g : Grid d ℝ} (hg : g.Proper) {k : Idx d} (hk : InR g.shape k) : 0 < waveNumber g k ↔ k ≠ 0 := by
  unfold waveNumber
  rw [Real.sqrt_pos]
  constructor
  · rintro h rfl
    refine absurd h (not_lt.2 (le_of_eq ?_))
    refine Finset.sum_eq_zero fun a _ => ?_
    have := (centred_eq_zero (n := g.shape a) (k := 0) le_rfl (by have := (hg a).1; omega)).2 rfl
    simp [this]
  · intro h
    obtain ⟨a, ha⟩ := Function.ne_iff.1 h
    refine Finset.sum_pos' (fun b _ => sq_nonneg _) ⟨a, Finset.mem_univ a, ?_⟩
    have h1 : (centred (g.shape a) (k a) : ℝ) ≠ 0 := by
      exact_mod_cast fun e => ha ((centred_eq_zero (hk a).1 (hk a).2).1 e)
    have h2 := (hg a).2
    have h3 : 2 * Real.pi * centred (g.shape a) (k a) / ((g.domain a).2 - (g.domain a).1) ≠ 0 :=
      div_ne_zero (mul_ne_zero (mul_ne_zero two_ne_zero Real.pi_ne_zero) h1) (by linarith)
    positivity

theorem centred_add (n : ℕ) (k : ℤ) : centred n (k + n) = centred n k := by
  unfold centred
  rw [show k + n + ((n / 2 : ℕ) : ℤ) = k + (n / 2 : ℕ) + n by ring, Int.add_emod_right]

theorem centred_neg_sq (n : ℕ) (hn : n ≠ 0) (k : ℤ) : centred n (-k) ^ 2 = centred n k ^ 2 := by
  have h1 := centred_bounds hn k
  have h2 := centred_bounds hn (-k)
  have h3 : (centred n (-k) + centred n k) % n = 0 := by
    rw [Int.add_emod, centred_emod, centred_emod, ← Int.add_emod, neg_add_cancel, Int.zero_emod]
  obtain ⟨c, hc⟩ := Int.dvd_of_emod_eq_zero h3
  have hc' : c = 0 ∨ c = -1 := by
    have : (n : ℤ) * c < n * 1 := by omega
    have h4 := lt_of_mul_lt_mul_left this (by omega)
    have : (n : ℤ) * (-2) < n * c := by omega
    have h5 := lt_of_mul_lt_mul_left this (by omega)
    omega
  rcases hc' with rfl | rfl
  · rw [show centred n (-k) = -centred n k by omega]; ring
  · rw [show centred n (-k) = centred n k by omega]

theorem waveNumber_HSym {g : Grid d ℝ} (hs : ∀ a, g.shape a ≠ 0) (f : ℝ → ℝ) :
    HSym g.shape Finset.univ fun k => ((f (waveNumber g k) : ℝ) : ℂ) := by
  constructor
  · intro k
    rw [Complex.conj_ofReal]
    have hw : waveNumber g (negOn Finset.univ k) = waveNumber g k := ?_
    · simp only [hw]
    unfold waveNumber
    congr 1
    refine Finset.sum_congr rfl fun a _ => ?_
    have : negOn Finset.univ k a = -k a := by simp [negOn]
    have hsq : ((centred (g.shape a) (-k a) : ℤ) : ℝ) ^ 2 = (centred (g.shape a) (k a) : ℝ) ^ 2 := by
      exact_mod_cast centred_neg_sq (g.shape a) (hs a) (k a)
    rw [this, div_pow, div_pow, mul_pow, mul_pow _ ((centred (g.shape a) (k a) : ℤ) : ℝ), hsq]
  · intro a _ k
    have : waveNumber g (Function.update k a (k a + g.shape a)) = waveNumber g k := by
      unfold waveNumber
      congr 1
      refine Finset.sum_congr rfl fun b _ => ?_
      by_cases hb : b = a
      · subst hb; rw [Function.update_self, centred_add]
      · rw [Function.update_of_ne hb]
    simp only [this]

theorem HSym.empty_real {s : Fin d → ℕ} {y : Idx d → ℂ} (h : HSym s ∅ y) (k : Idx d) : ((y k).re : ℂ) = y k := by
  have := h.1 k
  have e : negOn ∅ k = k := by funext a; simp [negOn]
  rw [e] at this
  exact (Complex.conj_eq_iff_real.1 this.symm).elim fun r hr => by rw [hr, Complex.ofReal_re]

end JaxCfd
