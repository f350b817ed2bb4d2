import Verif.Props.Imex
import Mathlib.Tactic.IntervalCases

/-! # C39: the concrete implicit-explicit schemes -/

namespace JaxCfd

set_option linter.unusedSectionVars false

section
variable {K V : Type} [Field K] [DecidableEq K] [AddCommGroup V] [Module K V]

/-- **C39** `imex_runge_kutta` keeps steady states (`F u + G u = 0`) fixed, for every tableau whose explicit and implicit rows have
equal sums. -/
theorem C39_steady {aEx aIm : List (List K)} {bEx bIm : List K} {t : ImExTableau K}
    (ht : mkImExTableau aEx aIm bEx bIm = .ok t)
    (hrE : ∀ i < aEx.length, i + 1 ≤ (aEx.getD i []).length) (hrI : ∀ i < aIm.length, i + 2 ≤ (aIm.getD i []).length)
    (hsum : ∀ i, 0 < i → i < bEx.length → ∑ j ∈ Finset.range i, (aEx.getD (i - 1) []).getD j 0 =
      ∑ j ∈ Finset.range (i + 1), (aIm.getD (i - 1) []).getD j 0)
    (hb : ∑ j ∈ Finset.range bEx.length, bEx.getD j 0 = ∑ j ∈ Finset.range bEx.length, bIm.getD j 0)
    (F G : V → V) (Ginv : V → K → V) (dt : K)
    (hG : ∀ i, 0 < i → i < bEx.length → Spec.UniqueImplicit G Ginv (dt * (aIm.getD (i - 1) []).getD i 0)) (u : V) (hu : F u + G u = 0) :
    imexRK t F G Ginv dt u = .ok u := by
  have hF : F u = -G u := by rwa [add_eq_zero_iff_eq_neg] at hu
  apply C39_textbook_unique ht hrE hrI F G Ginv dt hG
  refine ⟨fun _ => u, rfl, ?_, ?_⟩
  · intro i h1 h2
    rw [← Finset.sum_smul, ← Finset.sum_smul, hsum i h1 h2, hF]
    simp
  · dsimp only
    rw [← Finset.sum_smul, ← Finset.sum_smul, hb, hF]
    simp

theorem sil3Tableau_ok : mkImExTableau (K := K) [[1 / 3], [1 / 6, 1 / 2], [1 / 2, -1 / 2, 1]]
    [[1 / 6, 1 / 6], [1 / 3, 0, 1 / 3], [3 / 8, 0, 3 / 8, 1 / 4]] [1 / 2, -1 / 2, 1, 0] [3 / 8, 0, 3 / 8, 1 / 4] =
    .ok ⟨[[1 / 3], [1 / 6, 1 / 2], [1 / 2, -1 / 2, 1]], [[1 / 6, 1 / 6], [1 / 3, 0, 1 / 3], [3 / 8, 0, 3 / 8, 1 / 4]],
      [1 / 2, -1 / 2, 1, 0], [3 / 8, 0, 3 / 8, 1 / 4]⟩ :=
  mkImExTableau_eq_ok.2 ⟨⟨rfl, rfl, rfl⟩, rfl⟩

/-- The step sizes of the implicit equations of `imex_rk_sil3`. -/
theorem sil3_steps {p : K → Prop} {dt : K} (h6 : p (dt / 6)) (h3 : p (dt / 3)) (h4 : p (dt / 4)) (i : ℕ) (hi : 0 < i)
    (hs : i < [(1 : K) / 2, -1 / 2, 1, 0].length) :
    p (dt * (([[1 / 6, 1 / 6], [1 / 3, 0, 1 / 3], [3 / 8, 0, 3 / 8, 1 / 4]] : List (List K)).getD (i - 1) []).getD i 0) := by
  simp only [List.length_cons, List.length_nil] at hs
  interval_cases i
  · simpa [div_eq_mul_inv] using h6
  · simpa [div_eq_mul_inv] using h3
  · simpa [div_eq_mul_inv] using h4

/-- **C39** The concrete schemes keep steady states fixed (`crank_nicolson_rk4`, with rounded coefficients, only nearly, see
`C39_rk4_coefficients`). -/
theorem C39_schemes_steady [CharZero K] (F G : V → V) (Ginv : V → K → V) (dt : K) (u : V) (hu : F u + G u = 0) :
    (Spec.UniqueImplicit G Ginv dt → backwardForwardEuler F Ginv dt u = u) ∧
    (Spec.UniqueImplicit G Ginv (dt / 2) → crankNicolsonRK2 F G Ginv dt u = u) ∧
    (Spec.UniqueImplicit G Ginv (dt / 6) → Spec.UniqueImplicit G Ginv (dt * 5 / 24) → Spec.UniqueImplicit G Ginv (dt / 8) →
      crankNicolsonRK3 F G Ginv dt u = .ok u) ∧
    (Spec.UniqueImplicit G Ginv (dt / 6) → Spec.UniqueImplicit G Ginv (dt / 3) → Spec.UniqueImplicit G Ginv (dt / 4) →
      imexSIL3 F G Ginv dt u = .ok u) := by
  have hF : F u = -G u := by rwa [add_eq_zero_iff_eq_neg] at hu
  have e : ∀ (x : V) (h h' : K), Spec.UniqueImplicit G Ginv h' → x = u - h • G u → h' = h → Ginv x h' = u := by
    rintro x h h' hG rfl rfl; exact hG u
  refine ⟨fun hG => ?_, fun hG => ?_, fun h6 h5 h8 => ?_, fun h6 h3 h4 => ?_⟩
  · unfold backwardForwardEuler
    refine e _ dt _ hG ?_ rfl
    rw [hF]; module
  · have hG : Spec.UniqueImplicit G Ginv (1 / 2 * dt) := by rwa [one_div_mul_eq_div]
    have h1 : Ginv (u + (1 / 2 * dt) • G u + dt • F u) (1 / 2 * dt) = u := by
      refine e _ (1 / 2 * dt) _ hG ?_ rfl
      rw [hF]; module
    unfold crankNicolsonRK2
    simp only [h1]
    refine e _ (1 / 2 * dt) _ hG ?_ rfl
    rw [hF]; module
  · unfold crankNicolsonRK3 lowStorageRKCN
    rw [if_neg (by simp)]
    simp only [List.length_cons, List.length_nil, Nat.zero_add, Nat.reduceAdd]
    rw [show List.range 3 = [0, 1, 2] by rfl]
    rw [List.foldlM_cons, lowStorageStage_ok _ _ _ _ _ _ _ _ _ (by simp) (by simp) (by simp), Except.bind_ok,
      List.foldlM_cons, lowStorageStage_ok _ _ _ _ _ _ _ _ _ (by simp) (by simp) (by simp), Except.bind_ok,
      List.foldlM_cons, lowStorageStage_ok _ _ _ _ _ _ _ _ _ (by simp) (by simp) (by simp), Except.bind_ok,
      List.foldlM_nil]
    simp only [List.getD_cons_zero, List.getD_cons_succ]
    rw [e (u + ((1 / 3 : K) * dt) • (F u + (0 : K) • (0 : V)) + (1 / 2 * dt * (1 / 3 - 0)) • G u) (1 / 2 * dt * (1 / 3 - 0)) _
      (by rw [show 1 / 2 * dt * (1 / 3 - 0) = dt / 6 by ring]; exact h6) (by rw [hF]; module) rfl]
    rw [e (u + ((15 / 16 : K) * dt) • (F u + (-5 / 9 : K) • (F u + (0 : K) • (0 : V))) + (1 / 2 * dt * (3 / 4 - 1 / 3)) • G u)
      (1 / 2 * dt * (3 / 4 - 1 / 3)) _ (by rw [show 1 / 2 * dt * (3 / 4 - 1 / 3) = dt * 5 / 24 by ring]; exact h5) (by rw [hF]; module) rfl]
    rw [e (u + ((8 / 15 : K) * dt) • (F u + (-153 / 128 : K) • (F u + (-5 / 9 : K) • (F u + (0 : K) • (0 : V)))) +
      (1 / 2 * dt * (1 - 3 / 4)) • G u) (1 / 2 * dt * (1 - 3 / 4)) _ (by rw [show 1 / 2 * dt * (1 - 3 / 4) = dt / 8 by ring]; exact h8) (by rw [hF]; module) rfl]
    rfl
  · unfold imexSIL3
    refine C39_steady sil3Tableau_ok ?_ ?_ ?_ ?_ F G Ginv dt (sil3_steps h6 h3 h4) u hu
    · intro i hi
      simp only [List.length_cons, List.length_nil] at hi
      interval_cases i <;> simp
    · intro i hi
      simp only [List.length_cons, List.length_nil] at hi
      interval_cases i <;> simp
    · intro i h1 h2
      simp only [List.length_cons, List.length_nil] at h2
      interval_cases i <;> simp [Finset.sum_range_succ] <;> norm_num
    · simp [Finset.sum_range_succ]
      norm_num

/-- **C39** The coefficients of `crank_nicolson_rk4`: the amount of explicit forcing in each stage differs from the stage's fraction
of the time step by less than `10⁻¹²`, but not exactly by zero. -/
theorem C39_rk4_coefficients :
    ∃ α β γ : ℕ → ℚ, (∀ (F G : ℚ → ℚ) (Ginv : ℚ → ℚ → ℚ) (dt u : ℚ), crankNicolsonRK4 F G Ginv dt u =
        lowStorageRKCN ((List.range 6).map α) ((List.range 5).map β) ((List.range 5).map γ) F G Ginv dt u) ∧
      ∃ c : ℕ → ℚ, c 0 = 1 ∧ (∀ k < 4, c (k + 1) = 1 + β (k + 1) * c k) ∧
        (∀ k < 5, |γ k * c k - (α (k + 1) - α k)| < 1 / 10 ^ 12) ∧ γ 3 * c 3 ≠ α 4 - α 3 := by
  refine ⟨fun k => [0, 1496590219993 / 10000000000000, 3704009573644 / 10000000000000, 6222557631345 / 10000000000000,
      9582821306748 / 10000000000000, 1].getD k 0,
    fun k => [0, -4178904745 / 10000000000, -1192151694643 / 1000000000000, -1697784692471 / 1000000000000,
      -1514183444257 / 1000000000000].getD k 0,
    fun k => [1496590219993 / 10000000000000, 3792103129999 / 10000000000000, 8229550293869 / 10000000000000,
      6994504559488 / 10000000000000, 1530572479681 / 10000000000000].getD k 0, ?_, ?_⟩
  · intros; rfl
  · refine ⟨fun k => [1,
      1 + (-4178904745 / 10000000000) * (1),
      1 + (-1192151694643 / 1000000000000) * (1 + (-4178904745 / 10000000000) * (1)),
      1 + (-1697784692471 / 1000000000000) * (1 + (-1192151694643 / 1000000000000) * (1 + (-4178904745 / 10000000000) * (1))),
      1 + (-1514183444257 / 1000000000000) * (1 + (-1697784692471 / 1000000000000) * (1 + (-1192151694643 / 1000000000000) * (1 + (-4178904745 / 10000000000) * (1))))].getD k 0, rfl, ?_, ?_, ?_⟩
    · intro k hk
      interval_cases k <;> rfl
    · intro k hk
      interval_cases k <;> norm_num [abs_lt]
    · norm_num

/-- **C39** `imex_rk_sil3` written out.  The scheme is stiffly accurate: with a correct implicit solver the result is its last stage,
so it satisfies `r - dt/4 G(r) = ...` itself. -/
theorem C39_sil3 [CharZero K] (F G : V → V) (Ginv : V → K → V) (dt : K) (hG6 : Spec.SolvesImplicit G Ginv (dt / 6))
    (hG3 : Spec.SolvesImplicit G Ginv (dt / 3)) (hG4 : Spec.SolvesImplicit G Ginv (dt / 4)) (y0 : V) :
    ∃ Y1 Y2 r, imexSIL3 F G Ginv dt y0 = .ok r ∧
      Y1 = y0 + dt • (1 / 3 : K) • F y0 + dt • ((1 / 6 : K) • G y0 + (1 / 6 : K) • G Y1) ∧
      Y2 = y0 + dt • ((1 / 6 : K) • F y0 + (1 / 2 : K) • F Y1) + dt • ((1 / 3 : K) • G y0 + (1 / 3 : K) • G Y2) ∧
      r = y0 + dt • ((1 / 2 : K) • F y0 - (1 / 2 : K) • F Y1 + F Y2) +
        dt • ((3 / 8 : K) • G y0 + (3 / 8 : K) • G Y2 + (1 / 4 : K) • G r) := by
  obtain ⟨r, hr, Y, hY0, hY, hrr⟩ := C39_textbook sil3Tableau_ok (by
      intro i hi
      simp only [List.length_cons, List.length_nil] at hi
      interval_cases i <;> simp) (by
      intro i hi
      simp only [List.length_cons, List.length_nil] at hi
      interval_cases i <;> simp) F G Ginv dt (sil3_steps hG6 hG3 hG4) y0
  have h1 := hY 1 (by norm_num) (by simp)
  have h2 := hY 2 (by norm_num) (by simp)
  have h3 := hY 3 (by norm_num) (by simp)
  simp only [Finset.sum_range_succ, Finset.sum_range_zero, Nat.reduceAdd, Nat.reduceSub, List.getD_cons_zero, List.getD_cons_succ,
    List.length_cons, List.length_nil, Nat.zero_add, hY0] at h1 h2 h3 hrr
  have hr3 : r = Y 3 := by
    refine hrr.trans (Eq.trans ?_ h3.symm)
    module
  refine ⟨Y 1, Y 2, r, ?_, ?_, ?_, ?_⟩
  · unfold imexSIL3
    rw [Except.bind_eq_ok]
    exact ⟨_, sil3Tableau_ok, hr⟩
  · refine h1.trans ?_
    module
  · refine h2.trans ?_
    module
  · rw [hr3]
    refine h3.trans ?_
    module

/-- **C39** For linear explicit terms and no implicit ones the schemes are the Taylor polynomials of the exponential: of degree 1
(`backward_forward_euler`), 2 (`crank_nicolson_rk2`) and 3 (`crank_nicolson_rk3`, `imex_rk_sil3`). -/
theorem C39_explicit_linear [CharZero K] (A : V →ₗ[K] V) (Ginv : V → K → V)
    (hG : ∀ h, Spec.SolvesImplicit (fun _ => 0) Ginv h) (dt : K) (u : V) :
    backwardForwardEuler A Ginv dt u = u + dt • A u ∧
    crankNicolsonRK2 A (fun _ => 0) Ginv dt u = u + dt • A u + (dt ^ 2 / 2) • A (A u) ∧
    crankNicolsonRK3 A (fun _ => 0) Ginv dt u =
      .ok (u + dt • A u + (dt ^ 2 / 2) • A (A u) + (dt ^ 3 / 6) • A (A (A u))) ∧
    imexSIL3 A (fun _ => 0) Ginv dt u =
      .ok (u + dt • A u + (dt ^ 2 / 2) • A (A u) + (dt ^ 3 / 6) • A (A (A u))) := by
  have hid : ∀ x h, Ginv x h = x := by
    intro x h
    have := hG h x
    simpa using this
  refine ⟨?_, ?_, ?_, ?_⟩
  · unfold backwardForwardEuler
    rw [hid]
  · unfold crankNicolsonRK2
    simp only [hid, smul_zero, add_zero, map_add, map_smul]
    module
  · unfold crankNicolsonRK3 lowStorageRKCN
    rw [if_neg (by simp)]
    simp only [List.length_cons, List.length_nil, Nat.zero_add, Nat.reduceAdd]
    rw [show List.range 3 = [0, 1, 2] by rfl]
    rw [List.foldlM_cons, lowStorageStage_ok _ _ _ _ _ _ _ _ _ (by simp) (by simp) (by simp), Except.bind_ok,
      List.foldlM_cons, lowStorageStage_ok _ _ _ _ _ _ _ _ _ (by simp) (by simp) (by simp), Except.bind_ok,
      List.foldlM_cons, lowStorageStage_ok _ _ _ _ _ _ _ _ _ (by simp) (by simp) (by simp), Except.bind_ok,
      List.foldlM_nil]
    simp only [List.getD_cons_zero, List.getD_cons_succ, hid, smul_zero, add_zero, map_add, map_smul]
    show Except.ok _ = Except.ok _
    congr 1
    module
  · obtain ⟨Y1, Y2, r, hr, h1, h2, h3⟩ := C39_sil3 A (fun _ => 0) Ginv dt (hG _) (hG _) (hG _) u
    simp only [smul_zero, add_zero] at h1 h2 h3
    rw [hr, h3, h2, h1]
    congr 1
    simp only [map_add, map_smul]
    module

end

section Stability

/-- **C39** Unconditional stability of the implicit parts: if the implicit terms are linear and dissipative (`⟨G x, x⟩ ≤ 0`, such as
diffusion) then for every `dt ≥ 0` `backward_forward_euler` and `crank_nicolson_rk2` without explicit terms do not increase the norm,
and neither does a low-storage scheme with increasing alphas. -/
theorem C39_dissipative {V : Type} [NormedAddCommGroup V] [InnerProductSpace ℝ V] (G : V →ₗ[ℝ] V)
    (hdiss : ∀ x, Inner.inner ℝ (G x) x ≤ 0) (Ginv : V → ℝ → V) (hG : ∀ h, 0 ≤ h → Spec.SolvesImplicit G Ginv h) (dt : ℝ) (hdt : 0 ≤ dt) (u : V) :
    ‖backwardForwardEuler (fun _ => 0) Ginv dt u‖ ≤ ‖u‖ ∧ ‖crankNicolsonRK2 (fun _ => 0) G Ginv dt u‖ ≤ ‖u‖ ∧
      ∀ (α β γ : List ℝ) (r : V), α.length = β.length + 1 → γ.length = β.length →
        (∀ k < β.length, α.getD k 0 ≤ α.getD (k + 1) 0) → lowStorageRKCN α β γ (fun _ => 0) G Ginv dt u = .ok r → ‖r‖ ≤ ‖u‖ := by
  have be : ∀ (x y : V) (h : ℝ), 0 ≤ h → y = x + h • G y → ‖y‖ ≤ ‖x‖ := by
    intro x y h hh hy
    have h1 : Inner.inner ℝ y y = Inner.inner ℝ x y + h * Inner.inner ℝ (G y) y := by
      have : Inner.inner ℝ y y = Inner.inner ℝ (x + h • G y) y := congrArg (fun z => Inner.inner ℝ z y) hy
      rw [this, inner_add_left, real_inner_smul_left]
    have h2 := real_inner_le_norm x y
    have h3 := mul_nonneg hh (neg_nonneg.2 (hdiss y))
    rw [real_inner_self_eq_norm_sq] at h1
    by_contra hc
    have hc := not_le.1 hc
    have hx := norm_nonneg x
    nlinarith
  have cn : ∀ (x y : V) (h : ℝ), 0 ≤ h → y = x + h • (G x + G y) → ‖y‖ ≤ ‖x‖ := by
    intro x y h hh hy
    have h1 : Inner.inner ℝ (y - x) (y + x) = h * Inner.inner ℝ (G (y + x)) (y + x) := by
      have : y - x = h • G (y + x) := by
        rw [sub_eq_iff_eq_add, map_add, add_comm (G y), add_comm]
        exact hy
      rw [this, real_inner_smul_left]
    have h2 : Inner.inner ℝ (y - x) (y + x) = ‖y‖ ^ 2 - ‖x‖ ^ 2 := by
      rw [inner_sub_left, inner_add_right, inner_add_right, real_inner_comm x y, real_inner_self_eq_norm_sq,
        real_inner_self_eq_norm_sq]
      ring
    have h3 := mul_nonneg hh (neg_nonneg.2 (hdiss (y + x)))
    have : ‖y‖ ^ 2 ≤ ‖x‖ ^ 2 := by nlinarith
    exact (sq_le_sq₀ (norm_nonneg _) (norm_nonneg _)).1 this
  refine ⟨?_, ?_, ?_⟩
  · apply be u _ dt hdt
    have := C39_backward_forward_euler (fun _ => 0) G Ginv dt (hG dt hdt) u
    simpa using this
  · obtain ⟨u1, _, h⟩ := C39_crank_nicolson_rk2 (fun _ => 0) G Ginv dt (hG _ (by linarith)) u
    apply cn u _ (dt / 2) (by linarith)
    simpa using h
  · intro α β γ r ha hc hinc hr
    obtain ⟨w, h, h0, hres, hh0, hh, hw⟩ := C39_low_storage α β γ ha hc (fun _ => 0) G Ginv dt (fun k hk => hG _ (by
      have := mul_nonneg hdt (sub_nonneg.2 (hinc k hk))
      linarith)) u
    have hz : ∀ k < β.length, h k = 0 := by
      intro k
      induction k with
      | zero => intro hk; exact hh0 hk
      | succ k ih => intro hk; rw [hh k hk, ih (by omega)]; simp
    have hle : ∀ k ≤ β.length, ‖w k‖ ≤ ‖u‖ := by
      intro k
      induction k with
      | zero => intro _; rw [h0]
      | succ k ih =>
        intro hk
        refine le_trans (cn (w k) _ (dt * (α.getD (k + 1) 0 - α.getD k 0) / 2) ?_ ?_) (ih (by omega))
        · have := hinc k (by omega)
          have := mul_nonneg hdt (sub_nonneg.2 this)
          linarith
        · have := hw k (by omega)
          rw [hz k (by omega), smul_zero, add_zero] at this
          exact this
    rw [hres] at hr
    have := Except.ok.inj hr
    rw [← this]
    exact hle _ le_rfl

/-- **C39** `imex_rk_sil3` is A-stable in the implicit terms: for `y' = q y` with `Re q ≤ 0`, treated implicitly, no step of any
size increases the modulus. -/
theorem C39_sil3_stable (q : ℂ) (hq : q.re ≤ 0) (Ginv : ℂ → ℝ → ℂ) (hG : ∀ h, 0 ≤ h → Spec.SolvesImplicit (fun y => q * y) Ginv h) (dt : ℝ)
    (hdt : 0 ≤ dt) (u : ℂ) :
    ∃ r, imexSIL3 (fun _ => 0) (fun y => q * y) Ginv dt u = .ok r ∧ ‖r‖ ≤ ‖u‖ := by
  obtain ⟨Y1, Y2, r, hr, -, h2, h3⟩ := C39_sil3 (fun _ => 0) (fun y => q * y) Ginv dt (hG _ (by linarith)) (hG _ (by linarith)) (hG _ (by linarith)) u
  refine ⟨r, hr, ?_⟩
  simp only [smul_zero, add_zero, sub_zero, Complex.real_smul] at h2 h3
  push_cast at h2 h3
  obtain ⟨z, hz⟩ : ∃ z : ℂ, z = dt * q := ⟨_, rfl⟩
  have hzre : z.re ≤ 0 := by
    rw [hz]; simp
    exact mul_nonpos_of_nonneg_of_nonpos hdt hq
  have e2 : (1 - z / 3) * Y2 = (1 + z / 3) * u := by
    rw [hz]; linear_combination h2
  have e3 : (1 - z / 4) * r = u + 3 / 8 * z * (u + Y2) := by
    rw [hz]; linear_combination h3
  have e : (1 - z / 3) * (1 - z / 4) * r = (1 + 5 * z / 12) * u := by
    linear_combination (1 - z / 3) * e3 + 3 / 8 * z * e2
  have hn := congrArg Complex.normSq e
  rw [Complex.normSq_mul, Complex.normSq_mul (1 + 5 * z / 12)] at hn
  have hle : Complex.normSq (1 + 5 * z / 12) ≤ Complex.normSq ((1 - z / 3) * (1 - z / 4)) := by
    have hx : z.re ≤ 0 := hzre
    generalize hx' : z.re = x at hx
    generalize hy' : z.im = y
    have e1 : z = ⟨x, y⟩ := Complex.ext hx' hy'
    have A : (1 + 5 * z / 12) = ⟨1 + 5 * x / 12, 5 * y / 12⟩ := by
      rw [e1]; apply Complex.ext <;> simp [Complex.div_re, Complex.div_im, Complex.normSq] <;> ring
    have B : (1 - z / 3) = ⟨1 - x / 3, -y / 3⟩ := by
      rw [e1]; apply Complex.ext <;> simp [Complex.div_re, Complex.div_im, Complex.normSq] <;> ring
    have C : (1 - z / 4) = ⟨1 - x / 4, -y / 4⟩ := by
      rw [e1]; apply Complex.ext <;> simp [Complex.div_re, Complex.div_im, Complex.normSq] <;> ring
    rw [Complex.normSq_mul, A, B, C]
    simp only [Complex.normSq_mk]
    nlinarith [mul_nonneg (neg_nonneg.2 hx) (sq_nonneg x), mul_nonneg (neg_nonneg.2 hx) (sq_nonneg y), sq_nonneg (x ^ 2),
      sq_nonneg (y ^ 2), mul_nonneg (sq_nonneg x) (sq_nonneg y)]
  have hpos : 0 < Complex.normSq ((1 - z / 3) * (1 - z / 4)) := by
    rw [Complex.normSq_pos]
    have hne : ∀ c : ℝ, 0 < c → (1 - z / c : ℂ) ≠ 0 := by
      intro c hc h0
      have := congrArg Complex.re h0
      simp at this
      have : z.re / c ≤ 0 := div_nonpos_of_nonpos_of_nonneg hzre hc.le
      linarith
    have h3 := hne 3 (by norm_num)
    have h4 := hne 4 (by norm_num)
    push_cast at h3 h4
    exact mul_ne_zero h3 h4
  have hsq : Complex.normSq r ≤ Complex.normSq u := by
    have : Complex.normSq ((1 - z / 3) * (1 - z / 4)) * Complex.normSq r ≤
        Complex.normSq ((1 - z / 3) * (1 - z / 4)) * Complex.normSq u := by
      rw [hn]
      exact mul_le_mul_of_nonneg_right hle (Complex.normSq_nonneg u)
    exact le_of_mul_le_mul_left this hpos
  rw [Complex.normSq_eq_norm_sq, Complex.normSq_eq_norm_sq] at hsq
  exact (sq_le_sq₀ (norm_nonneg _) (norm_nonneg _)).1 hsq

end Stability

/-! ### Non-vacuity -/

/-- an implicit solver that is correct for all steps `h ≥ 0`: `G y = q y` with `Re q ≤ 0` (diffusion of a Fourier mode for real `q`) -/
theorem modeSolver (q : ℂ) (hq : q.re ≤ 0) (h : ℝ) (hh : 0 ≤ h) :
    Spec.SolvesImplicit (K := ℝ) (fun y : ℂ => q * y) (fun x h => x / (1 - h * q)) h ∧
      Spec.UniqueImplicit (K := ℝ) (fun y : ℂ => q * y) (fun x h => x / (1 - h * q)) h := by
  have hne : (1 - h * q : ℂ) ≠ 0 := by
    intro h0
    have := congrArg Complex.re h0
    simp at this
    have := mul_nonpos_of_nonneg_of_nonpos hh hq
    linarith
  constructor
  · intro x
    simp only [Complex.real_smul]
    field_simp
  · intro y
    simp only [Complex.real_smul]
    rw [div_eq_iff hne]
    ring

/-- diffusion at the rate `3` by Crank-Nicolson -/
example (dt : ℝ) (hdt : 0 ≤ dt) (u : ℂ) : ‖crankNicolsonRK2 (fun _ => 0) (LinearMap.mulLeft ℝ (-3 : ℂ)) (fun x (h : ℝ) => x / (1 - h * (-3))) dt u‖ ≤ ‖u‖ :=
  (C39_dissipative (LinearMap.mulLeft ℝ (-3 : ℂ)) (fun x => by
    simp [Complex.inner]
    nlinarith [sq_nonneg x.re, sq_nonneg x.im]) _ (fun h hh => (modeSolver (-3) (by norm_num) h hh).1) dt hdt u).2.1

/-- diffusion at the rate `3` by `imex_rk_sil3` -/
example (dt : ℝ) (hdt : 0 ≤ dt) (u : ℂ) : ∃ r, imexSIL3 (fun _ => 0) (fun y => (-3 : ℂ) * y) (fun x (h : ℝ) => x / (1 - h * (-3))) dt u = .ok r ∧ ‖r‖ ≤ ‖u‖ :=
  C39_sil3_stable (-3) (by norm_num) _ (fun h hh => (modeSolver (-3) (by norm_num) h hh).1) dt hdt u

/-- a step of a two-stage scheme for `y' = -y²` (explicit) `-2 y` (implicit); the second explicit slope is skipped -/
example : imexRK ⟨[[1]], [[0, 1]], [1, 0], [0, 1]⟩ (fun y : ℚ => -y ^ 2) (fun y => -2 * y) (fun x h => x / (1 + 2 * h)) (1 : ℚ) 2 =
    .ok (-2 / 3) := by
  norm_num [imexRK, imexStage, weightedSumOpt, stageUsed, anyCol, item, bind, Except.bind, pure, Except.pure, List.range',
    List.foldlM]

end JaxCfd
