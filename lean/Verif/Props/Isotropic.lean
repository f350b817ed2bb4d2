import Verif.Props.Spectrum

/-!
# C65: isotropic spectra
-/

namespace JaxCfd.Eval
open JaxCfd
variable {d : ℕ}

/-! ### Bins -/

theorem lt_countP_range {p : ℕ → Bool} (hp : ∀ j, p (j + 1) = true → p j = true) (n : ℕ) :
    ∀ j < n, (p j = true ↔ j < (List.range n).countP p) := by
  have hdown : ∀ k j, j ≤ k → p k = true → p j = true := by
    intro k
    induction k with
    | zero => intro j hj h; rwa [Nat.le_zero.1 hj]
    | succ k ih =>
        intro j hj h
        rcases Nat.lt_or_ge j (k + 1) with h' | h'
        · exact ih j (by omega) (hp k h)
        · rwa [show j = k + 1 by omega]
  induction n with
  | zero => intro j hj; omega
  | succ n ih =>
      intro j hj
      have hle : (List.range n).countP p ≤ n := by simpa using List.countP_le_length (p := p) (l := List.range n)
      rw [List.range_succ, List.countP_append, List.countP_singleton]
      rcases Nat.lt_or_ge j n with h | h
      · by_cases hn : p n = true
        · rw [if_pos hn]
          have h1 : p j = true := hdown n j h.le hn
          exact ⟨fun _ => by have := (ih j h).1 h1; omega, fun _ => h1⟩
        · rw [if_neg hn]
          exact ih j h
      · have hjn : j = n := by omega
        subst hjn
        by_cases hn : p j = true
        · rw [if_pos hn]
          refine ⟨fun _ => ?_, fun _ => hn⟩
          by_contra hc
          have hlt : (List.range j).countP p < j := by omega
          have := (ih _ hlt).1 (hdown j _ hlt.le hn)
          omega
        · rw [if_neg hn]
          exact ⟨fun h => absurd h hn, fun h => by omega⟩

/-- The bins of the isotropic spectrum with `m` shells: shell `j` is `Δ(j + 1/2) < x ≤ Δ(j + 3/2)`. -/
theorem pandasCut_bounds {Δ : ℝ} (hΔ : 0 < Δ) (m : ℕ) (x : ℝ) (j : ℕ) :
    pandasCut ((List.range (m + 1)).map fun j : ℕ => Δ * ((j : ℝ) + 1 - 1 / 2)) x = some j ↔ j < m ∧ Δ * (j + 1 / 2) < x ∧ x ≤ Δ * (j + 3 / 2) := by
  classical
  unfold pandasCut
  dsimp only
  rw [List.countP_map, List.length_map, List.length_range]
  have hp : ∀ j : ℕ, ((fun b : ℝ => decide (b < x)) ∘ fun j : ℕ => Δ * ((j : ℝ) + 1 - 1 / 2)) j = true ↔ Δ * (j + 1 / 2) < x := by
    intro j
    simp only [Function.comp_apply, decide_eq_true_eq]
    rw [show (j : ℝ) + 1 - 1 / 2 = j + 1 / 2 by ring]
  have hc := lt_countP_range (p := (fun b : ℝ => decide (b < x)) ∘ fun j : ℕ => Δ * ((j : ℝ) + 1 - 1 / 2)) (fun j h => by
    rw [hp] at h ⊢
    push_cast at h
    nlinarith) (m + 1)
  have hle : (List.range (m + 1)).countP ((fun b : ℝ => decide (b < x)) ∘ fun j : ℕ => Δ * ((j : ℝ) + 1 - 1 / 2)) ≤ m + 1 := by
    simpa using List.countP_le_length (p := (fun b : ℝ => decide (b < x)) ∘ fun j : ℕ => Δ * ((j : ℝ) + 1 - 1 / 2)) (l := List.range (m + 1))
  have hcc : ∀ j < m + 1, (Δ * (j + 1 / 2) < x ↔ j < (List.range (m + 1)).countP ((fun b : ℝ => decide (b < x)) ∘ fun j : ℕ => Δ * ((j : ℝ) + 1 - 1 / 2))) :=
    fun j hj => (hp j).symm.trans (hc j hj)
  generalize (List.range (m + 1)).countP ((fun b : ℝ => decide (b < x)) ∘ fun j : ℕ => Δ * ((j : ℝ) + 1 - 1 / 2)) = c at hcc hle
  have e : ∀ j : ℕ, Δ * ((j : ℝ) + 3 / 2) = Δ * (((j + 1 : ℕ) : ℝ) + 1 / 2) := fun j => by push_cast; ring
  rw [e]
  constructor
  · intro h
    split_ifs at h with hb
    rw [Option.some.injEq] at h
    have hj : j < m := by omega
    refine ⟨hj, (hcc j (by omega)).2 (by omega), not_lt.1 fun h' => ?_⟩
    have := (hcc (j + 1) (by omega)).1 h'
    omega
  · rintro ⟨hj, h1, h2⟩
    have h3 := (hcc j (by omega)).1 h1
    have h4 : ¬ j + 1 < c := fun h' => absurd ((hcc (j + 1) (by omega)).2 h') (not_lt.2 h2)
    rw [if_neg (by omega), Option.some.injEq]
    omega

/-! ### Scales -/

theorem roundHalfEven_near (x : ℝ) : |(roundHalfEven x : ℝ) - x| ≤ 1 / 2 := by
  have h1 := Int.floor_le x
  have h2 := Int.lt_floor_add_one x
  unfold roundHalfEven
  rw [abs_le]
  split_ifs <;> push_cast <;> constructor <;> linarith

theorem roundHalfEven_half (q : ℕ) : roundHalfEven ((q : ℝ) - 1 / 2) = if q % 2 = 0 then (q : ℤ) else q - 1 := by
  have hf : ⌊(q : ℝ) - 1 / 2⌋ = (q : ℤ) - 1 := Int.floor_eq_iff.2 ⟨by push_cast; linarith, by push_cast; linarith⟩
  unfold roundHalfEven
  rw [hf]
  have e : (q : ℝ) - 1 / 2 - (((q : ℤ) - 1 : ℤ) : ℝ) = 1 / 2 := by push_cast; ring
  rw [e, if_neg (lt_irrefl _), if_neg (lt_irrefl _)]
  split_ifs <;> omega

/-- A spectrum whose dimension `b` has the wavenumbers `(j - n_b // 2) δ_b`, as `energy_spectrum` returns them. -/
def Centred (e : XArray d ℝ) (δ : Fin d → ℝ) : Prop :=
  ∀ b, 2 ≤ e.sizes b ∧ 0 < δ b ∧ ∀ j : ℤ, 0 ≤ j → j < e.sizes b → e.coords b j = (j - (e.sizes b / 2 : ℕ)) * δ b

theorem isotropicScales_ok {e : XArray d ℝ} {δ : Fin d → ℝ} (h : Centred e δ) {Δ K₀ : ℝ} (hΔ : IsGreatest (Set.range δ) Δ)
    (hK : IsLeast (Set.range fun b => (((e.sizes b - 1) / 2 : ℕ) : ℝ) * δ b) K₀) : isotropicScales e = .ok (Δ, K₀ - 1 / 2 * Δ) := by
  unfold isotropicScales
  have h1 : ∀ b, spacing (e.sizes b) (e.coords b) = .ok (δ b) := by
    intro b
    obtain ⟨h2, -, hc⟩ := h b
    unfold spacing
    rw [if_neg (by omega), hc 1 (by omega) (by omega), hc 0 le_rfl (by omega)]
    congr 1
    push_cast
    ring
  rw [seqFin_ok _ δ h1, Except.bind_ok]
  dsimp only
  have hmax : ∀ b, ⨆ j : Fin (e.sizes b), e.coords b (j : ℕ) = (((e.sizes b - 1) / 2 : ℕ) : ℝ) * δ b := by
    intro b
    obtain ⟨h2, hp, hc⟩ := h b
    have hv : ∀ j : Fin (e.sizes b), e.coords b (j : ℕ) = ((j : ℕ) - (e.sizes b / 2 : ℕ)) * δ b := fun j => by
      rw [hc _ (by omega) (by exact_mod_cast j.2)]
      push_cast
      rfl
    have hq : (((e.sizes b - 1) / 2 : ℕ) : ℝ) = ((e.sizes b - 1 : ℕ) : ℝ) - (e.sizes b / 2 : ℕ) := by
      rw [eq_sub_iff_add_eq]
      exact_mod_cast (by omega : (e.sizes b - 1) / 2 + e.sizes b / 2 = e.sizes b - 1)
    refine IsGreatest.csSup_eq ⟨⟨⟨e.sizes b - 1, by omega⟩, ?_⟩, ?_⟩
    · show e.coords b ((e.sizes b - 1 : ℕ) : ℤ) = _
      rw [hq]
      exact hv ⟨e.sizes b - 1, by omega⟩
    · rintro _ ⟨j, rfl⟩
      dsimp only
      rw [hv, hq]
      have : ((j : ℕ) : ℝ) ≤ ((e.sizes b - 1 : ℕ) : ℝ) := by exact_mod_cast (by omega : (j : ℕ) ≤ e.sizes b - 1)
      nlinarith
  simp only [hmax]
  rw [show ⨆ b, δ b = Δ from hΔ.csSup_eq, show ⨅ b, (((e.sizes b - 1) / 2 : ℕ) : ℝ) * δ b = K₀ from hK.csInf_eq]
  rfl

theorem shells {Δ K₀ : ℝ} (hΔ : 0 < Δ) (hK : 0 ≤ K₀) {m : ℤ} (hm : m = roundHalfEven ((K₀ - 1 / 2 * Δ) / Δ)) :
    0 ≤ m ∧ (m : ℝ) * Δ ≤ K₀ ∧ K₀ ≤ (m + 1) * Δ := by
  have h := abs_le.1 (roundHalfEven_near ((K₀ - 1 / 2 * Δ) / Δ))
  rw [← hm] at h
  have e : (K₀ - 1 / 2 * Δ) / Δ = K₀ / Δ - 1 / 2 := by field_simp
  rw [e] at h hm
  have h0 : 0 ≤ K₀ / Δ := div_nonneg hK hΔ.le
  refine ⟨?_, ?_, ?_⟩
  · have : (-1 : ℝ) ≤ m := by linarith [h.1]
    have hm1 : (-1 : ℤ) ≤ m := by exact_mod_cast this
    rcases eq_or_lt_of_le hm1 with h' | h'
    · have hz : K₀ / Δ = ((0 : ℕ) : ℝ) := by
        rw [← h'] at h
        push_cast at h ⊢
        linarith [h.1]
      rw [hz, roundHalfEven_half] at hm
      simp at hm
      omega
    · omega
  · have : (m : ℝ) ≤ K₀ / Δ := by linarith [h.2]
    rwa [le_div_iff₀ hΔ] at this
  · have : K₀ / Δ ≤ m + 1 := by linarith [h.1]
    rwa [div_le_iff₀ hΔ] at this

/-! ### Summation over shells -/

theorem isotropizeBinsum_ok {e : XArray d ℝ} {δ : Fin d → ℝ} (h : Centred e δ) {Δ K₀ : ℝ} (hΔ : IsGreatest (Set.range δ) Δ)
    (hK : IsLeast (Set.range fun b => (((e.sizes b - 1) / 2 : ℕ) : ℝ) * δ b) K₀) {m : ℕ} (hm : roundHalfEven ((K₀ - 1 / 2 * Δ) / Δ) = m) :
    isotropizeBinsum e = .ok ((List.range m).map fun j : ℕ => Δ * ((j : ℝ) + 1), (List.range m).map (binnedSum e.sizes e.data fun i =>
      pandasCut ((List.range (m + 1)).map fun j : ℕ => Δ * ((j : ℝ) + 1 - 1 / 2)) (wavenumber e i))) := by
  unfold isotropizeBinsum
  rw [isotropicScales_ok h hΔ hK, Except.bind_ok]
  dsimp only
  rw [hm, if_neg (by omega)]
  rfl

theorem scales_pos {e : XArray d ℝ} {δ : Fin d → ℝ} (h : Centred e δ) {Δ K₀ : ℝ} (hΔ : IsGreatest (Set.range δ) Δ)
    (hK : IsLeast (Set.range fun b => (((e.sizes b - 1) / 2 : ℕ) : ℝ) * δ b) K₀) : 0 < Δ ∧ 0 ≤ K₀ := by
  obtain ⟨b₀, hb₀⟩ := hΔ.1
  obtain ⟨b₁, hb₁⟩ := hK.1
  refine ⟨by rw [← hb₀]; exact (h b₀).2.1, by rw [← hb₁]; exact mul_nonneg (Nat.cast_nonneg _) (h b₁).2.1.le⟩

theorem shells_even {Δ K₀ : ℝ} (hΔ : 0 < Δ) {m : ℕ} (hm : roundHalfEven ((K₀ - 1 / 2 * Δ) / Δ) = m) (h : K₀ = m * Δ ∨ K₀ = (m + 1) * Δ) : m % 2 = 0 := by
  have e : (K₀ - 1 / 2 * Δ) / Δ = K₀ / Δ - 1 / 2 := by field_simp
  rw [e] at hm
  rcases h with h | h
  · have e2 : K₀ / Δ = m := by rw [h]; field_simp
    rw [e2, roundHalfEven_half] at hm
    split_ifs at hm <;> omega
  · have e2 : K₀ / Δ = (m + 1 : ℕ) := by rw [h]; push_cast; field_simp
    rw [e2, roundHalfEven_half] at hm
    split_ifs at hm <;> omega

open Classical in
/-- **C65.** `isotropize(…, 'binsum')`: the result has `m ≥ 0` shells with `mΔ ≤ K₀ ≤ (m + 1)Δ` (and `m` even if `K₀` is one of these ends), where `Δ` is the
largest spacing of the wavenumbers and `K₀` the smallest of the largest wavenumbers of the dimensions.  Shell `j` is labelled `(j + 1)Δ` and its value is
the sum of the spectrum over all wavenumbers with `(j + 1/2)Δ < |k| ≤ (j + 3/2)Δ`.  So every mode lies in at most one shell, and the values sum to the sum
of the spectrum over all wavenumbers with `Δ/2 < |k| ≤ (m + 1/2)Δ`. -/
theorem C65_isotropic_binsum (e : XArray d ℝ) (δ : Fin d → ℝ) (h : Centred e δ) (Δ K₀ : ℝ) (hΔ : IsGreatest (Set.range δ) Δ)
    (hK : IsLeast (Set.range fun b => (((e.sizes b - 1) / 2 : ℕ) : ℝ) * δ b) K₀) :
    ∃ (m : ℕ) (labels values : List ℝ), isotropizeBinsum e = .ok (labels, values) ∧ labels.length = m ∧ values.length = m ∧
      m * Δ ≤ K₀ ∧ K₀ ≤ (m + 1) * Δ ∧ (K₀ = m * Δ ∨ K₀ = (m + 1) * Δ → m % 2 = 0) ∧
      (∀ (j : ℕ) (hj : j < labels.length), labels[j] = (j + 1) * Δ) ∧
      (∀ (j : ℕ) (hj : j < values.length), values[j] =
        ∑ i ∈ (box e.sizes).filter fun i : Idx d => (j + 1 / 2) * Δ < Real.sqrt (∑ b, e.coords b (i b) ^ 2) ∧ Real.sqrt (∑ b, e.coords b (i b) ^ 2) ≤ (j + 3 / 2) * Δ, e.data i) ∧
      values.sum = ∑ i ∈ (box e.sizes).filter fun i : Idx d => Δ / 2 < Real.sqrt (∑ b, e.coords b (i b) ^ 2) ∧ Real.sqrt (∑ b, e.coords b (i b) ^ 2) ≤ (m + 1 / 2) * Δ, e.data i := by
  obtain ⟨hpos, hK0⟩ := scales_pos h hΔ hK
  obtain ⟨hm0, hm1, hm2⟩ := shells hpos hK0 rfl
  obtain ⟨m, hm⟩ := Int.eq_ofNat_of_zero_le hm0
  rw [hm] at hm1 hm2
  push_cast at hm1 hm2
  have hw : ∀ i : Idx d, wavenumber e i = Real.sqrt (∑ b, e.coords b (i b) ^ 2) := fun i => by
    unfold wavenumber
    simp only [sq]
  have hbin : ∀ j < m, binnedSum e.sizes e.data (fun i => pandasCut ((List.range (m + 1)).map fun j : ℕ => Δ * ((j : ℝ) + 1 - 1 / 2)) (wavenumber e i)) j =
      ∑ i ∈ (box e.sizes).filter fun i : Idx d => (j + 1 / 2) * Δ < Real.sqrt (∑ b, e.coords b (i b) ^ 2) ∧ Real.sqrt (∑ b, e.coords b (i b) ^ 2) ≤ (j + 3 / 2) * Δ, e.data i := by
    intro j hj
    unfold binnedSum
    rw [Finset.sum_filter]
    refine Finset.sum_congr rfl fun i _ => ?_
    simp only [pandasCut_bounds hpos, hw, hj, true_and]
    simp only [mul_comm Δ]
  refine ⟨m, _, _, isotropizeBinsum_ok h hΔ hK hm, by simp, by simp, hm1, hm2, shells_even hpos hm, fun j hj => ?_, fun j hj => ?_, ?_⟩
  · rw [List.getElem_map, List.getElem_range, mul_comm]
  · rw [List.getElem_map, List.getElem_range]
    exact hbin j (by simpa using hj)
  · have hsum : ∀ F : ℕ → ℝ, ((List.range m).map F).sum = ∑ j ∈ Finset.range m, F j := fun F => (Multiset.sum_coe _).symm
    rw [hsum, Finset.sum_congr rfl fun j hj => hbin j (Finset.mem_range.1 hj)]
    simp only [Finset.sum_filter]
    rw [Finset.sum_comm]
    refine Finset.sum_congr rfl fun i _ => ?_
    generalize Real.sqrt (∑ b, e.coords b (i b) ^ 2) = x
    generalize e.data i = y
    clear hbin hm1 hm2 hm hsum
    induction m with
    | zero => 
        rw [Finset.sum_range_zero, if_neg]
        rintro ⟨h1, h2⟩
        push_cast at h2
        linarith
    | succ m ih =>
        rw [Finset.sum_range_succ, ih]
        have hm : (0 : ℝ) ≤ m * Δ := by positivity
        by_cases h1 : x ≤ (m + 1 / 2) * Δ
        · rw [if_neg (fun h' : (m + 1 / 2) * Δ < x ∧ x ≤ (m + 3 / 2) * Δ => absurd h'.1 (not_lt.2 h1)), add_zero]
          push_cast
          refine if_congr (and_congr_right fun _ => ⟨fun _ => by linarith, fun _ => h1⟩) rfl rfl
        · rw [if_neg (fun h' : Δ / 2 < x ∧ x ≤ (m + 1 / 2) * Δ => h1 h'.2), zero_add]
          push_cast
          rw [not_le] at h1
          refine if_congr ⟨fun h' => ⟨by linarith, by linarith [h'.2]⟩, fun h' => ⟨h1, by linarith [h'.2]⟩⟩ rfl rfl

/-- On a square domain (`n` points and spacing `Δ` in every dimension) the number of shells is `(n - 1) // 2` if that is even, and one less if it is
odd. -/
theorem C65_isotropic_parity_defect (e : XArray d ℝ) (hd : 0 < d) (n : ℕ) (Δ : ℝ) (h : Centred e fun _ => Δ) (hn : ∀ b, e.sizes b = n) :
    ∃ labels values : List ℝ, isotropizeBinsum e = .ok (labels, values) ∧
      labels.length = (if ((n - 1) / 2) % 2 = 0 then (n - 1) / 2 else (n - 1) / 2 - 1) ∧ values.length = labels.length := by
  have : Nonempty (Fin d) := ⟨⟨0, hd⟩⟩
  have hpos : 0 < Δ := (h ⟨0, hd⟩).2.1
  have hΔ : IsGreatest (Set.range fun _ : Fin d => Δ) Δ := ⟨⟨⟨0, hd⟩, rfl⟩, by rintro _ ⟨b, rfl⟩; exact le_rfl⟩
  have hK : IsLeast (Set.range fun b => (((e.sizes b - 1) / 2 : ℕ) : ℝ) * Δ) ((((n - 1) / 2 : ℕ) : ℝ) * Δ) :=
    ⟨⟨⟨0, hd⟩, by simp only [hn]⟩, by rintro _ ⟨b, rfl⟩; simp only [hn]; exact le_rfl⟩
  have hm : roundHalfEven (((((n - 1) / 2 : ℕ) : ℝ) * Δ - 1 / 2 * Δ) / Δ) = ((if ((n - 1) / 2) % 2 = 0 then (n - 1) / 2 else (n - 1) / 2 - 1 : ℕ) : ℤ) := by
    have e1 : ((((n - 1) / 2 : ℕ) : ℝ) * Δ - 1 / 2 * Δ) / Δ = (((n - 1) / 2 : ℕ) : ℝ) - 1 / 2 := by field_simp
    rw [e1, roundHalfEven_half]
    split_ifs <;> omega
  exact ⟨_, _, isotropizeBinsum_ok h hΔ hK hm, by simp, by simp⟩

/-! ### Integration over circles -/

/-- **C65.** `isotropize(…, 'interpolation')` of a positive two-dimensional spectrum: the circles have the radii `k = Δ, 2Δ, …, mΔ ≤ K₀`, so all
sampled wavenumbers lie within the range of the wavenumbers; with an interpolation that stays between the smallest and the largest value of its data there, the value
at `k` lies between `2πk` times the smallest and `2πk` times the largest value of the spectrum — for a constant spectrum it is `2πk` times that constant. -/
theorem C65_isotropic_interpolation (e : XArray 2 ℝ) (δ : Fin 2 → ℝ) (h : Centred e δ) (Δ K₀ : ℝ) (hΔ : IsGreatest (Set.range δ) Δ)
    (hK : IsLeast (Set.range fun b => (((e.sizes b - 1) / 2 : ℕ) : ℝ) * δ b) K₀) (points : ℕ) (hp : points ≠ 0)
    (interp : (Idx 2 → ℝ) → ℝ → ℝ → ℝ)
    (hint : ∀ (f : Idx 2 → ℝ) (lo hi kx ky : ℝ), (∀ i : Idx 2, InR e.sizes i → lo ≤ f i ∧ f i ≤ hi) → |kx| ≤ K₀ → |ky| ≤ K₀ → lo ≤ interp f kx ky ∧ interp f kx ky ≤ hi)
    (lo hi : ℝ) (hlo : 0 < lo) (he : ∀ i : Idx 2, InR e.sizes i → lo ≤ e.data i ∧ e.data i ≤ hi) :
    ∃ (m : ℕ) (labels values : List ℝ), isotropizeInterpolation2d interp points e = .ok (labels, values) ∧ labels.length = m ∧ values.length = m ∧
      m * Δ ≤ K₀ ∧ K₀ ≤ (m + 1) * Δ ∧
      (∀ (j : ℕ) (hj : j < labels.length), labels[j] = (j + 1) * Δ) ∧
      ∀ (j : ℕ) (hj : j < values.length), 2 * Real.pi * ((j + 1) * Δ) * lo ≤ values[j] ∧ values[j] ≤ 2 * Real.pi * ((j + 1) * Δ) * hi := by
  obtain ⟨hpos, hK0⟩ := scales_pos h hΔ hK
  obtain ⟨hm0, hm1, hm2⟩ := shells hpos hK0 rfl
  obtain ⟨m, hm⟩ := Int.eq_ofNat_of_zero_le hm0
  rw [hm] at hm1 hm2
  push_cast at hm1 hm2
  have hhi : 0 < hi := by
    have := he (fun _ => 0) (fun b => ⟨le_rfl, by have := (h b).1; show (0 : ℤ) < _; omega⟩)
    linarith [this.1, this.2]
  have hP : (0 : ℝ) < points := by exact_mod_cast (by omega : 0 < points)
  have hrun : isotropizeInterpolation2d interp points e = .ok ((List.range m).map fun j : ℕ => Δ * ((j : ℝ) + 1),
      ((List.range m).map fun j : ℕ => Δ * ((j : ℝ) + 1)).map fun k => 2 * Real.pi * k *
        ((∑ j ∈ Finset.range points, Real.exp (interp (fun i => Real.log (e.data i)) (k * Real.cos (2 * Real.pi * j / points)) (k * Real.sin (2 * Real.pi * j / points)))) / points)) := by
    unfold isotropizeInterpolation2d
    rw [isotropicScales_ok h hΔ hK, Except.bind_ok]
    dsimp only
    rw [hm]
    rfl
  refine ⟨m, _, _, hrun, by simp, by simp, hm1, hm2, fun j hj => by rw [List.getElem_map, List.getElem_range, mul_comm], fun j hj => ?_⟩
  have hjm : j < m := by simpa using hj
  rw [List.getElem_map, List.getElem_map, List.getElem_range, mul_comm Δ]
  have hk : 0 < ((j : ℝ) + 1) * Δ := by positivity
  have hkK : ((j : ℝ) + 1) * Δ ≤ K₀ := by
    have : (j : ℝ) + 1 ≤ m := by exact_mod_cast hjm
    nlinarith
  have hbd : ∀ t ∈ Finset.range points, lo ≤ Real.exp (interp (fun i => Real.log (e.data i)) (((j : ℝ) + 1) * Δ * Real.cos (2 * Real.pi * t / points)) (((j : ℝ) + 1) * Δ * Real.sin (2 * Real.pi * t / points))) ∧
      Real.exp (interp (fun i => Real.log (e.data i)) (((j : ℝ) + 1) * Δ * Real.cos (2 * Real.pi * t / points)) (((j : ℝ) + 1) * Δ * Real.sin (2 * Real.pi * t / points))) ≤ hi := by
    intro t _
    have := hint (fun i => Real.log (e.data i)) (Real.log lo) (Real.log hi) (((j : ℝ) + 1) * Δ * Real.cos (2 * Real.pi * t / points)) (((j : ℝ) + 1) * Δ * Real.sin (2 * Real.pi * t / points))
      (fun i hi' => ⟨Real.log_le_log hlo (he i hi').1, Real.log_le_log (by linarith [(he i hi').1]) (he i hi').2⟩)
      (by rw [abs_mul, abs_of_pos hk]; nlinarith [Real.abs_cos_le_one (2 * Real.pi * t / points)])
      (by rw [abs_mul, abs_of_pos hk]; nlinarith [Real.abs_sin_le_one (2 * Real.pi * t / points)])
    exact ⟨(Real.log_le_iff_le_exp hlo).1 this.1, (Real.le_log_iff_exp_le hhi).1 this.2⟩
  have hmean : lo ≤ (∑ t ∈ Finset.range points, Real.exp (interp (fun i => Real.log (e.data i)) (((j : ℝ) + 1) * Δ * Real.cos (2 * Real.pi * t / points)) (((j : ℝ) + 1) * Δ * Real.sin (2 * Real.pi * t / points)))) / points ∧
      (∑ t ∈ Finset.range points, Real.exp (interp (fun i => Real.log (e.data i)) (((j : ℝ) + 1) * Δ * Real.cos (2 * Real.pi * t / points)) (((j : ℝ) + 1) * Δ * Real.sin (2 * Real.pi * t / points)))) / points ≤ hi := by
    constructor
    · rw [le_div_iff₀ hP]
      have := Finset.card_nsmul_le_sum _ _ _ fun t ht => (hbd t ht).1
      rw [Finset.card_range, nsmul_eq_mul] at this
      linarith
    · rw [div_le_iff₀ hP]
      have := Finset.sum_le_card_nsmul _ _ _ fun t ht => (hbd t ht).2
      rw [Finset.card_range, nsmul_eq_mul] at this
      linarith
  have hc : 0 ≤ 2 * Real.pi * (((j : ℝ) + 1) * Δ) := by positivity
  exact ⟨mul_le_mul_of_nonneg_left hmean.1 hc, mul_le_mul_of_nonneg_left hmean.2 hc⟩

/-- **C65.** The methods of `isotropize`: by default interpolation in two dimensions and summation over shells otherwise; interpolation in other dimensions, an
unknown method or a spectrum without wavenumber dimensions is a ValueError. -/
theorem C65_isotropize_methods (interp : (Idx 2 → ℝ) → ℝ → ℝ → ℝ) (points : ℕ) :
    (∀ e : XArray 2 ℝ, isotropize interp points none e = isotropizeInterpolation2d interp points e ∧
      isotropize interp points (some "interpolation") e = isotropizeInterpolation2d interp points e) ∧
    (∀ (d : ℕ) (e : XArray d ℝ), d ≠ 0 → isotropize interp points (some "binsum") e = isotropizeBinsum e) ∧
    (∀ (d : ℕ) (e : XArray d ℝ), d ≠ 0 → d ≠ 2 → isotropize interp points none e = isotropizeBinsum e ∧ isotropize interp points (some "interpolation") e = .error .value) ∧
    (∀ (d : ℕ) (e : XArray d ℝ) (m : String), m ≠ "interpolation" → m ≠ "binsum" → isotropize interp points (some m) e = .error .value) ∧
    ∀ (e : XArray 0 ℝ) (m : Option String), isotropize interp points m e = .error .value := by
  refine ⟨fun e => ⟨?_, ?_⟩, fun d e h => ?_, fun d e h h2 => ⟨?_, ?_⟩, fun d e m h1 h2 => ?_, fun e m => ?_⟩ <;> unfold isotropize
  · simp
  · simp
  · simp [h]
  · simp [h, h2]
  · simp [h, h2]
  · simp [h1, h2]
  · simp

/-- **C65.** The isotropic spectrum of a velocity on a square domain with `n ≥ 2` points and side `L` in each dimension: `energy_spectrum` followed by
`isotropize(…, 'binsum')` succeeds, all values are nonnegative and their sum is at most the total of the spectrum, which is the number of points
times the total kinetic energy. -/
theorem C65_isotropic_energy (ds : XDataset d ℝ) (hd : 0 < d) (n : ℕ) (hn : ∀ b, ds.sizes b = n) (s : ℝ) (h : ds.Uniform fun _ => s)
    (vel : String → Idx d → ℝ) (hv : ∀ name ∈ velocityNames.take d, ds.vars.lookup name = some (vel name))
    (hx : ∀ name ∈ velocityNames.drop d, ds.vars.lookup name = none) :
    ∃ E e labels values, energySpectrum ds = .ok E ∧ kineticEnergy ds = .ok e ∧ isotropizeBinsum E = .ok (labels, values) ∧ (∀ x ∈ values, 0 ≤ x) ∧
      values.sum ≤ (n : ℝ) ^ d * ∑ x ∈ box e.sizes, e.data x := by
  classical
  have hb : Nonempty (Fin d) := ⟨⟨0, hd⟩⟩
  obtain ⟨h2, hs, -⟩ := h ⟨0, hd⟩
  rw [hn] at h2
  obtain ⟨E, e, hE, he, hpar⟩ := C65_parseval ds hd _ h vel hv hx
  obtain ⟨E', hE', hsz, hco, -, hdat⟩ := C65_energy_spectrum ds hd _ h vel hv
  have := Except.ok.inj (hE.symm.trans hE')
  subst this
  have hnn : (0 : ℝ) < n := by exact_mod_cast (by omega : 0 < n)
  have hΔ : 0 < 2 * Real.pi / (n * s) := by positivity
  have hcen : Centred E fun _ => 2 * Real.pi / (n * s) := by
    intro b
    refine ⟨by rw [hsz, hn]; exact h2, hΔ, fun j h0 h1 => ?_⟩
    rw [hsz] at h1
    rw [hco b j h0 h1, hsz, hn]
    ring
  have hpos : ∀ i : Idx d, InR ds.sizes i → 0 ≤ E.data i := by
    intro i hi
    rw [hdat i hi]
    refine mul_nonneg (by norm_num) (List.sum_nonneg ?_)
    intro x hx
    obtain ⟨name, -, rfl⟩ := List.mem_map.1 hx
    positivity
  have hpos' : ∀ i ∈ box E.sizes, 0 ≤ E.data i := fun i hi => hpos i (by rw [← hsz]; exact inr_of_mem_box hi)
  obtain ⟨m, labels, values, hr, -, -, -, -, -, -, hval, htot⟩ := C65_isotropic_binsum E _ hcen (2 * Real.pi / (n * s)) ((((n - 1) / 2 : ℕ) : ℝ) * (2 * Real.pi / (n * s)))
    ⟨⟨⟨0, hd⟩, rfl⟩, by rintro _ ⟨b, rfl⟩; exact le_rfl⟩
    ⟨⟨⟨0, hd⟩, by simp only [hsz, hn]⟩, by rintro _ ⟨b, rfl⟩; simp only [hsz, hn]; exact le_rfl⟩
  refine ⟨E, e, labels, values, hE, he, hr, fun x hx => ?_, ?_⟩
  · obtain ⟨j, hj, rfl⟩ := List.mem_iff_getElem.1 hx
    rw [hval j hj]
    exact Finset.sum_nonneg fun i hi => hpos' i (Finset.mem_filter.1 hi).1
  · have hprod : (∏ b, (ds.sizes b : ℝ)) = (n : ℝ) ^ d := by simp [hn]
    rw [← hprod, ← hpar, htot]
    exact Finset.sum_le_sum_of_subset_of_nonneg (Finset.filter_subset _ _) fun i hi _ => hpos' i hi

/-- Non-vacuity: the spectrum of the example dataset, whose sum over shells has no shell (`(4 - 1) // 2` is odd). -/
example : ∃ E, energySpectrum exampleDataset = .ok E ∧ ∃ labels values : List ℝ, isotropizeBinsum E = .ok (labels, values) ∧ labels.length = 0 := by
  obtain ⟨E, hE, hsz, hco, -⟩ := C65_energy_spectrum exampleDataset (by norm_num) (fun _ => 1 / 4)
    (fun b => ⟨by norm_num [exampleDataset], by norm_num, fun j _ _ => by norm_num [exampleDataset]⟩)
    (fun name i => if name = "u" then i 0 else i 0 * i 1) (fun name hn => by
      simp [velocityNames] at hn
      rcases hn with rfl | rfl <;> simp [exampleDataset, List.lookup])
  have hs4 : ∀ b, E.sizes b = 4 := fun b => by rw [hsz]; rfl
  obtain ⟨l, v, h1, h2, -⟩ := C65_isotropic_parity_defect E (by norm_num) 4 (2 * Real.pi) (fun b => ⟨by rw [hs4]; norm_num, by positivity, fun j h0 h1 => by
    rw [hco b j h0 (by rw [← hsz]; exact h1), hs4]
    norm_num [exampleDataset]
    ring⟩) hs4
  exact ⟨E, hE, l, v, h1, h2⟩

end JaxCfd.Eval
