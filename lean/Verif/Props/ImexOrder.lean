import Verif.Lemmas.OrderSums
import Verif.Props.ImexConvergence
import Verif.Props.ImexSchemes

/-!
# C75: second order of implicit-explicit Runge-Kutta methods
-/

namespace JaxCfd
variable {V : Type} [NormedAddCommGroup V] [NormedSpace ℝ V]

section
variable {F : V → V} {G : V →L[ℝ] V} {y : ℝ → V} {R L : ℝ} {s : ℕ} {aEx aIm : ℕ → ℕ → ℝ} {bEx bIm c : ℕ → ℝ}

/-- The defect of the solution in a stage equation with equal row sums. -/
theorem imex_stage_defect (hM : ∀ k, 1 ≤ k → k ≤ 3 → ∃ M, SmoothPath k M y) (hc : ∀ j, 0 ≤ c j) {γ : ℝ} (hγ : 0 ≤ γ)
    (w v : ℕ → ℝ) (I J : Finset ℕ) (hw : ∑ j ∈ I, w j = γ) (hv : ∑ j ∈ J, v j = γ) :
    Ord 2 fun h t => y (t + γ * h) - (y t + h • ∑ j ∈ I, w j • (deriv y (t + c j * h) - G (y (t + c j * h))) + h • ∑ j ∈ J, v j • G (y (t + c j * h))) := by
  obtain ⟨M1, h1⟩ := hM 1 (by norm_num) (by norm_num)
  obtain ⟨M2, h2⟩ := hM 2 (by norm_num) (by norm_num)
  have A : Ord 2 fun h t => y (t + γ * h) - (y t + (γ * h) • deriv y t) :=
    (h2.ord (c := γ) hγ).congr fun h t _ ht => by
      simp only [Finset.sum_range_succ, Finset.sum_range_zero, Nat.factorial, iteratedDeriv_zero, iteratedDeriv_one]
      push_cast
      module
  have B : ∀ j, Ord 1 fun h t => deriv y (t + c j * h) - deriv y t := fun j =>
    (h2.deriv.ord (c := c j) (hc j)).congr fun h t _ ht => by
      simp only [Finset.sum_range_succ, Finset.sum_range_zero, Nat.factorial, iteratedDeriv_zero]
      push_cast
      module
  have C : ∀ j, Ord 1 fun h t => G (y (t + c j * h)) - G (y t) := fun j =>
    ((h1.comp_linear G).ord (c := c j) (hc j)).congr fun h t _ ht => by
      simp only [Finset.sum_range_succ, Finset.sum_range_zero, Nat.factorial, iteratedDeriv_zero]
      push_cast
      module
  have D : Ord 1 fun h t => ∑ j ∈ I, w j • ((deriv y (t + c j * h) - G (y (t + c j * h))) - (deriv y t - G (y t))) :=
    Ord.sum I fun j _ => (((B j).sub (C j)).scale (w j) 0).congr fun h t _ _ => by module
  have E : Ord 1 fun h t => ∑ j ∈ J, v j • (G (y (t + c j * h)) - G (y t)) :=
    Ord.sum J fun j _ => ((C j).scale (v j) 0).congr fun h t _ _ => by module
  refine (A.sub ((D.scale 1 1).add (E.scale 1 1))).congr fun h t _ _ => ?_
  rw [weights_first I w _ (deriv y t - G (y t)), weights_first J v _ (G (y t)), hw, hv]
  module

/-- The defect of the solution in the final sum. -/
theorem imex_final_defect (hM : ∀ k, 1 ≤ k → k ≤ 3 → ∃ M, SmoothPath k M y) (hc : ∀ j, 0 ≤ c j)
    (w v : ℕ → ℝ) (I : Finset ℕ) (hw : ∑ j ∈ I, w j = 1) (hv : ∑ j ∈ I, v j = 1) (hwc : ∑ j ∈ I, w j * c j = 1 / 2) (hvc : ∑ j ∈ I, v j * c j = 1 / 2) :
    Ord 3 fun h t => y (t + 1 * h) - (y t + h • ∑ j ∈ I, w j • (deriv y (t + c j * h) - G (y (t + c j * h))) + h • ∑ j ∈ I, v j • G (y (t + c j * h))) := by
  obtain ⟨M2, h2⟩ := hM 2 (by norm_num) (by norm_num)
  obtain ⟨M3, h3⟩ := hM 3 (by norm_num) (by norm_num)
  have A : Ord 3 fun h t => y (t + 1 * h) - (y t + h • deriv y t + (h ^ 2 / 2) • iteratedDeriv 2 y t) :=
    (h3.ord (c := 1) zero_le_one).congr fun h t _ ht => by
      simp only [Finset.sum_range_succ, Finset.sum_range_zero, Nat.factorial, iteratedDeriv_zero, iteratedDeriv_one]
      push_cast
      module
  have B : ∀ j, Ord 2 fun h t => deriv y (t + c j * h) - (deriv y t + (c j * h) • iteratedDeriv 2 y t) := fun j =>
    (h3.deriv.ord (c := c j) (hc j)).congr fun h t _ ht => by
      simp only [Finset.sum_range_succ, Finset.sum_range_zero, Nat.factorial, ← iteratedDeriv_succ']
      simp only [zero_add, iteratedDeriv_one, Nat.reduceAdd]
      push_cast
      module
  have C : ∀ j, Ord 2 fun h t => G (y (t + c j * h)) - (G (y t) + (c j * h) • deriv (fun s => G (y s)) t) := fun j =>
    ((h2.comp_linear G).ord (c := c j) (hc j)).congr fun h t _ ht => by
      simp only [Finset.sum_range_succ, Finset.sum_range_zero, Nat.factorial, iteratedDeriv_zero, iteratedDeriv_one]
      push_cast
      module
  have D : Ord 2 fun h t => ∑ j ∈ I, w j • ((deriv y (t + c j * h) - G (y (t + c j * h))) -
      ((deriv y t - G (y t)) + (c j * h) • (iteratedDeriv 2 y t - deriv (fun s => G (y s)) t))) :=
    Ord.sum I fun j _ => (((B j).sub (C j)).scale (w j) 0).congr fun h t _ _ => by module
  have E : Ord 2 fun h t => ∑ j ∈ I, v j • (G (y (t + c j * h)) - (G (y t) + (c j * h) • deriv (fun s => G (y s)) t)) :=
    Ord.sum I fun j _ => ((C j).scale (v j) 0).congr fun h t _ _ => by module
  refine (A.sub ((D.scale 1 1).add (E.scale 1 1))).congr fun h t _ _ => ?_
  rw [weights_second I w c _ (deriv y t - G (y t)) (iteratedDeriv 2 y t - deriv (fun s => G (y s)) t) h,
    weights_second I v c _ (G (y t)) (deriv (fun s => G (y s)) t) h, hw, hv, hwc, hvc]
  module

/-- The norm of a weighted sum of differences. -/
theorem norm_weighted_le {w : ℕ → ℝ} {x z : ℕ → V} {I : Finset ℕ} {A B : ℝ} (hA : ∑ j ∈ I, |w j| ≤ A) (hB : 0 ≤ B) (hx : ∀ j ∈ I, ‖x j - z j‖ ≤ B) :
    ‖∑ j ∈ I, w j • x j - ∑ j ∈ I, w j • z j‖ ≤ A * B := by
  rw [← Finset.sum_sub_distrib]
  refine (norm_sum_le _ _).trans (le_trans ?_ (mul_le_mul_of_nonneg_right hA hB))
  rw [Finset.sum_mul]
  refine Finset.sum_le_sum fun j hj => ?_
  rw [← smul_sub, norm_smul, Real.norm_eq_abs]
  exact mul_le_mul_of_nonneg_left (hx j hj) (abs_nonneg _)

/-- An implicit-explicit Runge-Kutta method whose coefficients satisfy the conditions of second order converges to second order. -/
theorem imex_second_order (hy : SolvesODE (fun x => F x + G x) y) (hM : ∀ k, 1 ≤ k → k ≤ 3 → ∃ M, SmoothPath k M y) (hR : 0 < R) (hL : 0 ≤ L) (hF : LipschitzNear F y R L)
    (hc0 : c 0 = 0) (hc : ∀ j, 0 ≤ c j) (hrowE : ∀ i, 0 < i → i < s → ∑ j ∈ Finset.range i, aEx i j = c i) (hrowI : ∀ i, 0 < i → i < s → ∑ j ∈ Finset.range (i + 1), aIm i j = c i)
    (hbE : ∑ j ∈ Finset.range s, bEx j = 1) (hbI : ∑ j ∈ Finset.range s, bIm j = 1) (hbcE : ∑ j ∈ Finset.range s, bEx j * c j = 1 / 2)
    (hbcI : ∑ j ∈ Finset.range s, bIm j * c j = 1 / 2) :
    ∃ C Λ δ : ℝ, 0 ≤ C ∧ 0 ≤ Λ ∧ 0 < δ ∧ ∀ dt, 0 ≤ dt → dt ≤ δ → ∀ u : ℕ → V, (∀ n, Spec.IsIMEXStep s aEx aIm bEx bIm F G dt (u n) (u (n + 1))) →
      ∀ ε, ‖u 0 - y 0‖ ≤ ε → ∀ n : ℕ, Real.exp (Λ * (n * dt)) * (ε + n * dt * (C * dt ^ 2)) ≤ R / 4 →
        ‖u n - y (n * dt)‖ ≤ Real.exp (Λ * (n * dt)) * (ε + n * dt * (C * dt ^ 2)) := by
  -- bounds on the coefficients
  obtain ⟨A, hA0, hAE, hAI, hAbE, hAbI⟩ : ∃ A : ℝ, 0 ≤ A ∧ (∀ i < s, ∑ j ∈ Finset.range i, |aEx i j| ≤ A) ∧ (∀ i < s, ∑ j ∈ Finset.range (i + 1), |aIm i j| ≤ A) ∧
      ∑ j ∈ Finset.range s, |bEx j| ≤ A ∧ ∑ j ∈ Finset.range s, |bIm j| ≤ A := by
    have n1 : ∀ i, 0 ≤ ∑ j ∈ Finset.range i, |aEx i j| := fun i => Finset.sum_nonneg fun j _ => abs_nonneg _
    have n2 : ∀ i, 0 ≤ ∑ j ∈ Finset.range (i + 1), |aIm i j| := fun i => Finset.sum_nonneg fun j _ => abs_nonneg _
    have n3 : 0 ≤ ∑ j ∈ Finset.range s, |bEx j| := Finset.sum_nonneg fun j _ => abs_nonneg _
    have n4 : 0 ≤ ∑ j ∈ Finset.range s, |bIm j| := Finset.sum_nonneg fun j _ => abs_nonneg _
    have n5 : 0 ≤ ∑ i ∈ Finset.range s, ∑ j ∈ Finset.range i, |aEx i j| := Finset.sum_nonneg fun i _ => n1 i
    have n6 : 0 ≤ ∑ i ∈ Finset.range s, ∑ j ∈ Finset.range (i + 1), |aIm i j| := Finset.sum_nonneg fun i _ => n2 i
    refine ⟨(∑ i ∈ Finset.range s, ∑ j ∈ Finset.range i, |aEx i j|) + (∑ i ∈ Finset.range s, ∑ j ∈ Finset.range (i + 1), |aIm i j|) +
      (∑ j ∈ Finset.range s, |bEx j|) + ∑ j ∈ Finset.range s, |bIm j|, by positivity, fun i hi => ?_, fun i hi => ?_, by linarith, by linarith⟩
    · have := Finset.single_le_sum (f := fun i => ∑ j ∈ Finset.range i, |aEx i j|) (fun i _ => n1 i) (Finset.mem_range.2 hi)
      linarith
    · have := Finset.single_le_sum (f := fun i => ∑ j ∈ Finset.range (i + 1), |aIm i j|) (fun i _ => n2 i) (Finset.mem_range.2 hi)
      linarith
  -- the defects
  obtain ⟨D, δ₁, hD, hd1, hd11, hdef⟩ := Ord.uniform (k := 2) (n := s) (r := fun i h t => if 0 < i then y (t + c i * h) -
      (y t + h • ∑ j ∈ Finset.range i, aEx i j • (deriv y (t + c j * h) - G (y (t + c j * h))) + h • ∑ j ∈ Finset.range (i + 1), aIm i j • G (y (t + c j * h))) else 0)
    (fun i hi => by
      by_cases h0 : 0 < i
      · simp only [h0, if_true]
        exact imex_stage_defect hM hc (hc i) _ _ _ _ (hrowE i h0 hi) (hrowI i h0 hi)
      · simp only [h0, if_false]
        exact Ord.zero 2)
  obtain ⟨D', δ₂, hD', hd2, hd21, hfin⟩ := imex_final_defect (G := G) hM hc bEx bIm (Finset.range s) hbE hbI hbcE hbcI
  set Γ := ‖G‖ with hΓ
  have hΓ0 : 0 ≤ Γ := norm_nonneg _
  refine ⟨2 * ((L + Γ) * A) * D + D', 2 * ((L + Γ) * A), min (min δ₁ δ₂) (min (R / (4 * (D + 1))) (1 / (2 * ((L + Γ) * A + 1)))), by positivity, by positivity,
    lt_min (lt_min hd1 hd2) (lt_min (by positivity) (by positivity)), ?_⟩
  intro dt hdt hle u hrun ε hε n hn
  have l1 : dt ≤ δ₁ := hle.trans ((min_le_left _ _).trans (min_le_left _ _))
  have l2 : dt ≤ δ₂ := hle.trans ((min_le_left _ _).trans (min_le_right _ _))
  have l3 : dt ≤ R / (4 * (D + 1)) := hle.trans ((min_le_right _ _).trans (min_le_left _ _))
  have l4 : dt ≤ 1 / (2 * ((L + Γ) * A + 1)) := hle.trans ((min_le_right _ _).trans (min_le_right _ _))
  have hdt1 : dt ≤ 1 := l1.trans hd11
  rw [le_div_iff₀ (by positivity)] at l3 l4
  have hDd : D * dt ^ 2 ≤ R / 4 := by
    have h1 : dt ^ 2 ≤ dt := by nlinarith
    have h2 := mul_le_mul_of_nonneg_left h1 hD
    nlinarith
  have hx : dt * ((L + Γ) * A) ≤ 1 / 2 := by nlinarith
  refine accumulate (e := fun n => ‖u n - y (n * dt)‖) (ρ := R / 4) (by positivity) hdt (by positivity) (fun n => norm_nonneg _) (by simpa using hε) (fun n hn => ?_) n hn
  have ht : 0 ≤ (n : ℝ) * dt := by positivity
  have et : ((n + 1 : ℕ) : ℝ) * dt = n * dt + 1 * dt := by push_cast; ring
  rw [et]
  set t := (n : ℝ) * dt with htdef
  set e := ‖u n - y t‖ with he
  have he0 : 0 ≤ e := norm_nonneg _
  obtain ⟨Y, hY0, hY, hfinal⟩ := hrun n
  have hcs : ∀ j, 0 ≤ t + c j * dt := fun j => by have := hc j; positivity
  have hFy : ∀ j, deriv y (t + c j * dt) - G (y (t + c j * dt)) = F (y (t + c j * dt)) := fun j => by rw [hy.deriv_eq (hcs j), add_sub_cancel_right]
  set B := 2 * (e + D * dt ^ 2) with hB
  have hB0 : 0 ≤ B := by positivity
  have hBR : B ≤ R := by linarith
  have hFB : ∀ j, ‖Y j - y (t + c j * dt)‖ ≤ B → ‖F (Y j) - F (y (t + c j * dt))‖ ≤ L * B := fun j hj =>
    (hF _ (hcs j) _ _ (hj.trans hBR) (by rw [sub_self, norm_zero]; exact hR.le)).trans (mul_le_mul_of_nonneg_left hj hL)
  have hGB : ∀ j q, ‖Y j - y (t + c j * dt)‖ ≤ q → ‖G (Y j) - G (y (t + c j * dt))‖ ≤ Γ * q := fun j q hj => by
    rw [← map_sub]
    exact (G.le_opNorm _).trans (mul_le_mul_of_nonneg_left hj hΓ0)
  -- the stages
  have stages : ∀ i, i < s → ‖Y i - y (t + c i * dt)‖ ≤ B := by
    intro i
    induction i using Nat.strong_induction_on with
    | _ i ih =>
      intro hi
      by_cases h0 : i = 0
      · subst h0
        rw [hY0, hc0, zero_mul, add_zero, ← he]
        have : 0 ≤ D * dt ^ 2 := by positivity
        linarith
      · have hpos : 0 < i := Nat.pos_of_ne_zero h0
        have hd := hdef i hi dt hdt l1 t ht
        simp only [hpos, if_true, hFy] at hd
        by_contra hcon
        have hlt := not_le.1 hcon
        have hcon := hlt.le
        set E := ‖Y i - y (t + c i * dt)‖ with hE
        have s1 : ‖∑ j ∈ Finset.range i, aEx i j • F (Y j) - ∑ j ∈ Finset.range i, aEx i j • F (y (t + c j * dt))‖ ≤ A * (L * B) :=
          norm_weighted_le (hAE i hi) (by positivity) fun j hj => hFB j (ih j (Finset.mem_range.1 hj) ((Finset.mem_range.1 hj).trans hi))
        have s2 : ‖∑ j ∈ Finset.range (i + 1), aIm i j • G (Y j) - ∑ j ∈ Finset.range (i + 1), aIm i j • G (y (t + c j * dt))‖ ≤ A * (Γ * E) :=
          norm_weighted_le (hAI i hi) (mul_nonneg hΓ0 (norm_nonneg _)) fun j hj => hGB j E (by
            rcases Nat.lt_succ_iff_lt_or_eq.1 (Finset.mem_range.1 hj) with hj | rfl
            · exact (ih j hj (hj.trans hi)).trans hcon
            · exact le_rfl)
        have e1 : Y i - y (t + c i * dt) = (u n - y t) +
            dt • (∑ j ∈ Finset.range i, aEx i j • F (Y j) - ∑ j ∈ Finset.range i, aEx i j • F (y (t + c j * dt))) +
            dt • (∑ j ∈ Finset.range (i + 1), aIm i j • G (Y j) - ∑ j ∈ Finset.range (i + 1), aIm i j • G (y (t + c j * dt))) -
            (y (t + c i * dt) - (y t + dt • ∑ j ∈ Finset.range i, aEx i j • F (y (t + c j * dt)) + dt • ∑ j ∈ Finset.range (i + 1), aIm i j • G (y (t + c j * dt)))) := by
          rw [hY i hpos hi]
          module
        have b1 : E ≤ e + dt * (A * (L * B)) + dt * (A * (Γ * E)) + D * dt ^ 2 := by
          refine (le_of_eq (congrArg norm e1)).trans ((norm_sub_le _ _).trans (add_le_add ((norm_add_le _ _).trans (add_le_add ((norm_add_le _ _).trans (add_le_add le_rfl ?_)) ?_)) hd))
          · rw [norm_smul, Real.norm_of_nonneg hdt]
            exact mul_le_mul_of_nonneg_left s1 hdt
          · rw [norm_smul, Real.norm_of_nonneg hdt]
            exact mul_le_mul_of_nonneg_left s2 hdt
        have b2 : dt * (A * (L * B)) ≤ dt * (A * (L * E)) := by gcongr
        have b3 : dt * (A * (L * E)) + dt * (A * (Γ * E)) ≤ 1 / 2 * E := by
          have := mul_le_mul_of_nonneg_right hx (hB0.trans hcon)
          linarith
        linarith
  have s1 : ‖∑ j ∈ Finset.range s, bEx j • F (Y j) - ∑ j ∈ Finset.range s, bEx j • F (y (t + c j * dt))‖ ≤ A * (L * B) :=
    norm_weighted_le hAbE (by positivity) fun j hj => hFB j (stages j (Finset.mem_range.1 hj))
  have s2 : ‖∑ j ∈ Finset.range s, bIm j • G (Y j) - ∑ j ∈ Finset.range s, bIm j • G (y (t + c j * dt))‖ ≤ A * (Γ * B) :=
    norm_weighted_le hAbI (by positivity) fun j hj => hGB j B (stages j (Finset.mem_range.1 hj))
  have hd := hfin dt hdt l2 t ht
  simp only [hFy] at hd
  have e1 : u (n + 1) - y (t + 1 * dt) = (u n - y t) +
      dt • (∑ j ∈ Finset.range s, bEx j • F (Y j) - ∑ j ∈ Finset.range s, bEx j • F (y (t + c j * dt))) +
      dt • (∑ j ∈ Finset.range s, bIm j • G (Y j) - ∑ j ∈ Finset.range s, bIm j • G (y (t + c j * dt))) -
      (y (t + 1 * dt) - (y t + dt • ∑ j ∈ Finset.range s, bEx j • F (y (t + c j * dt)) + dt • ∑ j ∈ Finset.range s, bIm j • G (y (t + c j * dt)))) := by
    rw [hfinal]
    module
  have b1 : ‖u (n + 1) - y (t + 1 * dt)‖ ≤ e + dt * (A * (L * B)) + dt * (A * (Γ * B)) + D' * dt ^ 3 := by
    rw [e1]
    refine (norm_sub_le _ _).trans (add_le_add ((norm_add_le _ _).trans (add_le_add ((norm_add_le _ _).trans (add_le_add le_rfl ?_)) ?_)) hd)
    · rw [norm_smul, Real.norm_of_nonneg hdt]
      exact mul_le_mul_of_nonneg_left s1 hdt
    · rw [norm_smul, Real.norm_of_nonneg hdt]
      exact mul_le_mul_of_nonneg_left s2 hdt
  have b2 := mul_le_mul_of_nonneg_right (Real.add_one_le_exp (2 * ((L + Γ) * A) * dt)) he0
  rw [hB] at b1
  refine b1.trans ?_
  linarith [b2]

/-- **C75** `imex_runge_kutta` with any tableau that satisfies the conditions of second order (explicit and implicit rows with equal sums `c i`, weights with sum 1 and
first moment 1/2) converges to second order, for linear bounded implicit terms and explicit terms that are Lipschitz near the solution. -/
theorem C75_imex_runge_kutta {aEx aIm : List (List ℝ)} {bEx bIm : List ℝ} {tab : ImExTableau ℝ} (htab : mkImExTableau aEx aIm bEx bIm = .ok tab)
    (hrE : ∀ i < aEx.length, i + 1 ≤ (aEx.getD i []).length) (hrI : ∀ i < aIm.length, i + 2 ≤ (aIm.getD i []).length)
    (hc0 : c 0 = 0) (hc : ∀ j, 0 ≤ c j) (hrowE : ∀ i, 0 < i → i < bEx.length → ∑ j ∈ Finset.range i, (aEx.getD (i - 1) []).getD j 0 = c i)
    (hrowI : ∀ i, 0 < i → i < bEx.length → ∑ j ∈ Finset.range (i + 1), (aIm.getD (i - 1) []).getD j 0 = c i)
    (hbE : ∑ j ∈ Finset.range bEx.length, bEx.getD j 0 = 1) (hbI : ∑ j ∈ Finset.range bEx.length, bIm.getD j 0 = 1)
    (hbcE : ∑ j ∈ Finset.range bEx.length, bEx.getD j 0 * c j = 1 / 2) (hbcI : ∑ j ∈ Finset.range bEx.length, bIm.getD j 0 * c j = 1 / 2)
    (hy : SolvesODE (fun x => F x + G x) y) (hM : ∀ k, 1 ≤ k → k ≤ 3 → ∃ M, SmoothPath k M y) (hR : 0 < R) (hL : 0 ≤ L) (hF : LipschitzNear F y R L) :
    ∃ C Λ δ : ℝ, 0 ≤ C ∧ 0 ≤ Λ ∧ 0 < δ ∧ ∀ dt, 0 ≤ dt → dt ≤ δ → ∀ Ginv : V → ℝ → V,
      (∀ i, 0 < i → i < bEx.length → Spec.SolvesImplicit G Ginv (dt * (aIm.getD (i - 1) []).getD i 0)) →
      ∀ u : ℕ → V, (∀ n, imexRK tab F G Ginv dt (u n) = .ok (u (n + 1))) →
      ∀ ε, ‖u 0 - y 0‖ ≤ ε → ∀ n : ℕ, Real.exp (Λ * (n * dt)) * (ε + n * dt * (C * dt ^ 2)) ≤ R / 4 →
        ‖u n - y (n * dt)‖ ≤ Real.exp (Λ * (n * dt)) * (ε + n * dt * (C * dt ^ 2)) := by
  obtain ⟨C, Λ, δ, h1, h2, h3, h4⟩ := imex_second_order (F := F) (G := G) (y := y) hy hM hR hL hF hc0 hc hrowE hrowI hbE hbI hbcE hbcI
  refine ⟨C, Λ, δ, h1, h2, h3, fun dt hdt hle Ginv hG u hrun => h4 dt hdt hle u fun n => ?_⟩
  obtain ⟨r, hr, hstep⟩ := C39_textbook htab hrE hrI F G Ginv dt hG (u n)
  rw [hrun n] at hr
  rw [Except.ok.inj hr]
  exact hstep

/-- **C75** `imex_rk_sil3` converges to second order. -/
theorem C75_imex_rk_sil3 (hy : SolvesODE (fun x => F x + G x) y) (hM : ∀ k, 1 ≤ k → k ≤ 3 → ∃ M, SmoothPath k M y) (hR : 0 < R) (hL : 0 ≤ L) (hF : LipschitzNear F y R L) :
    ∃ C Λ δ : ℝ, 0 ≤ C ∧ 0 ≤ Λ ∧ 0 < δ ∧ ∀ dt, 0 ≤ dt → dt ≤ δ → ∀ Ginv : V → ℝ → V,
      Spec.SolvesImplicit G Ginv (dt / 6) → Spec.SolvesImplicit G Ginv (dt / 3) → Spec.SolvesImplicit G Ginv (dt / 4) →
      ∀ u : ℕ → V, (∀ n, imexSIL3 F G Ginv dt (u n) = .ok (u (n + 1))) →
      ∀ ε, ‖u 0 - y 0‖ ≤ ε → ∀ n : ℕ, Real.exp (Λ * (n * dt)) * (ε + n * dt * (C * dt ^ 2)) ≤ R / 4 →
        ‖u n - y (n * dt)‖ ≤ Real.exp (Λ * (n * dt)) * (ε + n * dt * (C * dt ^ 2)) := by
  obtain ⟨C, Λ, δ, h1, h2, h3, h4⟩ := C75_imex_runge_kutta (F := F) (G := G) (y := y) (c := fun j => j / 3) sil3Tableau_ok
    (by
      intro i hi
      simp only [List.length_cons, List.length_nil] at hi
      interval_cases i <;> simp)
    (by
      intro i hi
      simp only [List.length_cons, List.length_nil] at hi
      interval_cases i <;> simp)
    (by simp) (fun j => by positivity)
    (by
      intro i h1 h2
      simp only [List.length_cons, List.length_nil] at h2
      interval_cases i <;> simp [Finset.sum_range_succ] <;> norm_num)
    (by
      intro i h1 h2
      simp only [List.length_cons, List.length_nil] at h2
      interval_cases i <;> simp [Finset.sum_range_succ] <;> norm_num)
    (by simp [Finset.sum_range_succ]; norm_num) (by simp [Finset.sum_range_succ]; norm_num) (by simp [Finset.sum_range_succ]; norm_num)
    (by simp [Finset.sum_range_succ]; norm_num) hy hM hR hL hF
  refine ⟨C, Λ, δ, h1, h2, h3, fun dt hdt hle Ginv hG6 hG3 hG4 u hrun => h4 dt hdt hle Ginv (sil3_steps hG6 hG3 hG4) u fun n => ?_⟩
  have := hrun n
  unfold imexSIL3 at this
  obtain ⟨tab, ht, hr⟩ := Except.bind_eq_ok.1 this
  rw [sil3Tableau_ok] at ht
  rw [Except.ok.inj ht]
  exact hr

/-- The coefficients of `crank_nicolson_rk3` as an implicit-explicit Runge-Kutta method. -/
noncomputable def cnrk3Ex (i j : ℕ) : ℝ := (([[], [1 / 3], [-3 / 16, 15 / 16], [1 / 6, 3 / 10, 8 / 15]] : List (List ℝ)).getD i []).getD j 0
noncomputable def cnrk3Im (i j : ℕ) : ℝ := (([[], [1 / 6, 1 / 6], [1 / 6, 3 / 8, 5 / 24], [1 / 6, 3 / 8, 1 / 3, 1 / 8]] : List (List ℝ)).getD i []).getD j 0

theorem cnrk3_step {F G : V → V} {Ginv : V → ℝ → V} {dt : ℝ} (h6 : Spec.SolvesImplicit G Ginv (dt / 6)) (h5 : Spec.SolvesImplicit G Ginv (dt * 5 / 24))
    (h8 : Spec.SolvesImplicit G Ginv (dt / 8)) {u r : V} (h : crankNicolsonRK3 F G Ginv dt u = .ok r) :
    Spec.IsIMEXStep 4 cnrk3Ex cnrk3Im (cnrk3Ex 3) (cnrk3Im 3) F G dt u r := by
  obtain ⟨U, k, hU0, hres, hk0, hk, hU⟩ := C39_low_storage ([0, 1 / 3, 3 / 4, 1] : List ℝ) [0, -5 / 9, -153 / 128] [1 / 3, 15 / 16, 8 / 15] rfl rfl F G Ginv dt (by
      intro i hi
      simp only [List.length_cons, List.length_nil] at hi
      interval_cases i <;> simp only [List.getD_cons_zero, List.getD_cons_succ]
      · rw [show dt * (1 / 3 - 0) / 2 = dt / 6 by ring]; exact h6
      · rw [show dt * (3 / 4 - 1 / 3) / 2 = dt * 5 / 24 by ring]; exact h5
      · rw [show dt * (1 - 3 / 4) / 2 = dt / 8 by ring]; exact h8) u
  have hr : r = U 3 := by
    unfold crankNicolsonRK3 at h
    rw [hres] at h
    exact (Except.ok.inj h).symm
  have k0 := hk0 (by simp)
  have k1 := hk 0 (by simp)
  have k2 := hk 1 (by simp)
  have u1 := hU 0 (by simp)
  have u2 := hU 1 (by simp)
  have u3 := hU 2 (by simp)
  simp only [List.getD_cons_zero, List.getD_cons_succ, Nat.reduceAdd, zero_add, hU0] at k1 k2 u1 u2 u3
  have e3 : U 3 = u + dt • ∑ j ∈ Finset.range 3, cnrk3Ex 3 j • F (U j) + dt • ∑ j ∈ Finset.range 4, cnrk3Im 3 j • G (U j) := by
    simp only [Finset.sum_range_succ, Finset.sum_range_zero, cnrk3Ex, cnrk3Im, List.getD_cons_zero, List.getD_cons_succ, hU0]
    rw [k2, k1, k0] at u3
    rw [k1, k0] at u2
    rw [k0] at u1
    linear_combination (norm := module) u3 + u2 + u1
  refine ⟨U, hU0, ?_, ?_⟩
  · intro i hi hs
    interval_cases i
    · simp only [Finset.sum_range_succ, Finset.sum_range_zero, cnrk3Ex, cnrk3Im, List.getD_cons_zero, List.getD_cons_succ, hU0]
      rw [k0] at u1
      linear_combination (norm := module) u1
    · simp only [Finset.sum_range_succ, Finset.sum_range_zero, cnrk3Ex, cnrk3Im, List.getD_cons_zero, List.getD_cons_succ, hU0]
      rw [k1, k0] at u2
      rw [k0] at u1
      linear_combination (norm := module) u2 + u1
    · exact e3
  · rw [hr, e3, Finset.sum_range_succ (fun j => cnrk3Ex 3 j • F (U j)) 3]
    simp only [show cnrk3Ex 3 3 = 0 by simp [cnrk3Ex], zero_smul, add_zero]

/-- **C75** `crank_nicolson_rk3` converges to second order. -/
theorem C75_crank_nicolson_rk3 (hy : SolvesODE (fun x => F x + G x) y) (hM : ∀ k, 1 ≤ k → k ≤ 3 → ∃ M, SmoothPath k M y) (hR : 0 < R) (hL : 0 ≤ L) (hF : LipschitzNear F y R L) :
    ∃ C Λ δ : ℝ, 0 ≤ C ∧ 0 ≤ Λ ∧ 0 < δ ∧ ∀ dt, 0 ≤ dt → dt ≤ δ → ∀ Ginv : V → ℝ → V,
      Spec.SolvesImplicit G Ginv (dt / 6) → Spec.SolvesImplicit G Ginv (dt * 5 / 24) → Spec.SolvesImplicit G Ginv (dt / 8) →
      ∀ u : ℕ → V, (∀ n, crankNicolsonRK3 F G Ginv dt (u n) = .ok (u (n + 1))) →
      ∀ ε, ‖u 0 - y 0‖ ≤ ε → ∀ n : ℕ, Real.exp (Λ * (n * dt)) * (ε + n * dt * (C * dt ^ 2)) ≤ R / 4 →
        ‖u n - y (n * dt)‖ ≤ Real.exp (Λ * (n * dt)) * (ε + n * dt * (C * dt ^ 2)) := by
  obtain ⟨C, Λ, δ, h1, h2, h3, h4⟩ := imex_second_order (F := F) (G := G) (y := y) (c := fun j => ([0, 1 / 3, 3 / 4, 1] : List ℝ).getD j 0) (s := 4)
    (aEx := cnrk3Ex) (aIm := cnrk3Im) (bEx := cnrk3Ex 3) (bIm := cnrk3Im 3) hy hM hR hL hF rfl
    (fun j => by
      by_cases hj : j < 4
      · interval_cases j <;> norm_num
      · rw [List.getD_eq_default _ _ (by simpa using hj)])
    (by
      intro i h1 h2
      interval_cases i <;> simp [Finset.sum_range_succ, cnrk3Ex] <;> norm_num)
    (by
      intro i h1 h2
      interval_cases i <;> simp [Finset.sum_range_succ, cnrk3Im] <;> norm_num)
    (by simp [Finset.sum_range_succ, cnrk3Ex]; norm_num) (by simp [Finset.sum_range_succ, cnrk3Im]; norm_num) (by simp [Finset.sum_range_succ, cnrk3Ex]; norm_num)
    (by simp [Finset.sum_range_succ, cnrk3Im]; norm_num)
  exact ⟨C, Λ, δ, h1, h2, h3, fun dt hdt hle Ginv hG6 hG5 hG8 u hrun => h4 dt hdt hle u fun n => cnrk3_step hG6 hG5 hG8 (hrun n)⟩

end
end JaxCfd
