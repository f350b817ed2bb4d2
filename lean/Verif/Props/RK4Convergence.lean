import Verif.Lemmas.Order
import Verif.Props.TimeConvergence

/-!
# C75: `classic_rk4` converges to fourth order
-/

namespace JaxCfd
variable {V : Type} [NormedAddCommGroup V] [NormedSpace ℝ V]

section
variable {f : V → V} {y : ℝ → V} {R L K : ℝ}

/-- The stages of the classical method, without projection. -/
noncomputable def rk4Stage2 (f : V → V) (h : ℝ) (u : V) : V := u + (h / 2) • f u
noncomputable def rk4Stage3 (f : V → V) (h : ℝ) (u : V) : V := u + (h / 2) • f (rk4Stage2 f h u)
noncomputable def rk4Stage4 (f : V → V) (h : ℝ) (u : V) : V := u + h • f (rk4Stage3 f h u)
noncomputable def rk4Step (f : V → V) (h : ℝ) (u : V) : V :=
  u + h • ((1 / 6 : ℝ) • f u + (1 / 3 : ℝ) • f (rk4Stage2 f h u) + (1 / 3 : ℝ) • f (rk4Stage3 f h u) + (1 / 6 : ℝ) • f (rk4Stage4 f h u))

/-- The local error of the classical method is of fifth order, and its stages are close to the solution. -/
theorem rk4_local (hy : SolvesODE f y) (hM : ∀ k, 1 ≤ k → k ≤ 5 → ∃ M, SmoothPath k M y) (hR : 0 < R) (hK : 0 ≤ K) (hF : SmoothNear f y R L K) :
    (Ord 2 fun h t => rk4Stage2 f h (y t) - y (t + 1 / 2 * h)) ∧ (Ord 2 fun h t => rk4Stage3 f h (y t) - y (t + 1 / 2 * h)) ∧
      (Ord 3 fun h t => rk4Stage4 f h (y t) - y (t + 1 * h)) ∧ Ord 5 fun h t => rk4Step f h (y t) - y (t + 1 * h) := by
  obtain ⟨M1, h1⟩ := hM 1 (by norm_num) (by norm_num)
  obtain ⟨M2, h2⟩ := hM 2 (by norm_num) (by norm_num)
  obtain ⟨M3, h3⟩ := hM 3 (by norm_num) (by norm_num)
  obtain ⟨M4, h4⟩ := hM 4 (by norm_num) (by norm_num)
  obtain ⟨M5, h5⟩ := hM 5 (by norm_num) (by norm_num)
  have hs : ∀ h t : ℝ, 0 ≤ h → 0 ≤ t → 0 ≤ t + 1 / 2 * h := fun h t hh ht => by positivity
  have hs1 : ∀ h t : ℝ, 0 ≤ h → 0 ≤ t → 0 ≤ t + 1 * h := fun h t hh ht => by positivity
  have hs0 : ∀ h t : ℝ, 0 ≤ h → 0 ≤ t → 0 ≤ t := fun h t hh ht => ht
  let a : ℝ → V := fun t => iteratedDeriv 2 y t
  let b : ℝ → V := fun t => iteratedDeriv 3 y t
  let c : ℝ → V := fun t => iteratedDeriv 4 y t
  let J : ℝ → V →L[ℝ] V := fun s => fderiv ℝ f (y s)
  have oa : Ord 0 fun _ t => a t := h2.ord_zero
  have ob : Ord 0 fun _ t => b t := h3.ord_zero
  have oJ0 : OrdOp 0 fun _ t => J t := hF.ordOp hR hs0
  have oJh : OrdOp 0 fun h t => J (t + 1 / 2 * h) := hF.ordOp hR hs
  have oJ1 : OrdOp 0 fun h t => J (t + 1 * h) := hF.ordOp hR hs1
  have dJh : OrdOp 1 fun h t => J (t + 1 / 2 * h) - J t := hF.ordOp_sub hK hR h1 (by norm_num)
  have dJ1 : OrdOp 1 fun h t => J (t + 1 * h) - J t := hF.ordOp_sub hK hR h1 (by norm_num)
  -- Taylor expansions
  have A1 : Ord 4 fun h t => y (t + 1 / 2 * h) - (y t + (h / 2) • f (y t) + (h ^ 2 / 8) • a t + (h ^ 3 / 48) • b t) :=
    (h4.ord (c := 1 / 2) (by norm_num)).congr fun h t _ ht => by
      simp only [Finset.sum_range_succ, Finset.sum_range_zero, Nat.factorial, iteratedDeriv_zero, iteratedDeriv_one, hy.deriv_eq ht]
      push_cast
      module
  have A1' : Ord 4 fun h t => y (t + 1 * h) - (y t + h • f (y t) + (h ^ 2 / 2) • a t + (h ^ 3 / 6) • b t) :=
    (h4.ord (c := 1) (by norm_num)).congr fun h t _ ht => by
      simp only [Finset.sum_range_succ, Finset.sum_range_zero, Nat.factorial, iteratedDeriv_zero, iteratedDeriv_one, hy.deriv_eq ht]
      push_cast
      module
  have A5 : Ord 5 fun h t => y (t + 1 * h) - (y t + h • f (y t) + (h ^ 2 / 2) • a t + (h ^ 3 / 6) • b t + (h ^ 4 / 24) • c t) :=
    (h5.ord (c := 1) (by norm_num)).congr fun h t _ ht => by
      simp only [Finset.sum_range_succ, Finset.sum_range_zero, Nat.factorial, iteratedDeriv_zero, iteratedDeriv_one, hy.deriv_eq ht]
      push_cast
      module
  have A2 : Ord 3 fun h t => f (y (t + 1 / 2 * h)) - (f (y t) + (h / 2) • a t + (h ^ 2 / 8) • b t) :=
    (h4.deriv.ord (c := 1 / 2) (by norm_num)).congr fun h t hh ht => by
      simp only [Finset.sum_range_succ, Finset.sum_range_zero, Nat.factorial, ← iteratedDeriv_succ', iteratedDeriv_one, hy.deriv_eq ht, hy.deriv_eq (hs h t hh ht)]
      simp only [zero_add, iteratedDeriv_one, hy.deriv_eq ht, hy.deriv_eq (hs h t hh ht), Nat.reduceAdd]
      push_cast
      module
  have A3 : Ord 4 fun h t => f (y (t + 1 / 2 * h)) - (f (y t) + (h / 2) • a t + (h ^ 2 / 8) • b t + (h ^ 3 / 48) • c t) :=
    (h5.deriv.ord (c := 1 / 2) (by norm_num)).congr fun h t hh ht => by
      simp only [Finset.sum_range_succ, Finset.sum_range_zero, Nat.factorial, ← iteratedDeriv_succ', iteratedDeriv_one, hy.deriv_eq ht, hy.deriv_eq (hs h t hh ht)]
      simp only [zero_add, iteratedDeriv_one, hy.deriv_eq ht, hy.deriv_eq (hs h t hh ht), Nat.reduceAdd]
      push_cast
      module
  have A4 : Ord 4 fun h t => f (y (t + 1 * h)) - (f (y t) + h • a t + (h ^ 2 / 2) • b t + (h ^ 3 / 6) • c t) :=
    (h5.deriv.ord (c := 1) (by norm_num)).congr fun h t hh ht => by
      simp only [Finset.sum_range_succ, Finset.sum_range_zero, Nat.factorial, ← iteratedDeriv_succ', iteratedDeriv_one, hy.deriv_eq ht, hy.deriv_eq (hs1 h t hh ht)]
      simp only [zero_add, iteratedDeriv_one, hy.deriv_eq ht, hy.deriv_eq (hs1 h t hh ht), Nat.reduceAdd]
      push_cast
      module
  -- second stage
  have S2 : Ord 4 fun h t => rk4Stage2 f h (y t) - y (t + 1 / 2 * h) + ((h ^ 2 / 8) • a t + (h ^ 3 / 48) • b t) :=
    (A1.scale (-1) 0).congr fun h t _ _ => by unfold rk4Stage2; module
  have S2' : Ord 2 fun h t => rk4Stage2 f h (y t) - y (t + 1 / 2 * h) :=
    ((S2.mono (by norm_num : 2 ≤ 4)).add (((oa.scale (-1 / 8) 2)).add ((ob.scale (-1 / 48) 3).mono (by norm_num)))).congr fun h t _ _ => by module
  have k2 : Ord 4 fun h t => f (rk4Stage2 f h (y t)) - (f (y (t + 1 / 2 * h)) - (h ^ 2 / 8) • J (t + 1 / 2 * h) (a t) - (h ^ 3 / 48) • J t (b t)) := by
    have q1 := hF.linearise_ord hK hR hs (k := 1) S2'
    have q2 := Ord.op oJh S2
    have q3 := (Ord.op dJh ob).scale (-1 / 48) 3
    refine ((q1.add q2).add q3).congr fun h t _ _ => ?_
    simp only [map_add, map_sub, map_smul, ContinuousLinearMap.sub_apply, J]
    module
  -- third stage
  have S3 : Ord 4 fun h t => rk4Stage3 f h (y t) - y (t + 1 / 2 * h) - ((h ^ 2 / 8) • a t + (h ^ 3 / 24) • b t - (h ^ 3 / 16) • J t (a t)) := by
    have q1 := (k2.scale (1 / 2) 1).mono (by norm_num : 4 ≤ 4 + 1)
    have q2 := A2.scale (1 / 2) 1
    have q3 := (Ord.op dJh oa).scale (-1 / 16) 3
    have q4 := (Ord.op oJ0 ob).scale (-1 / 96) 4
    refine ((((q1.add q2).add q3).add q4).sub A1).congr fun h t _ _ => ?_
    unfold rk4Stage3
    simp only [ContinuousLinearMap.sub_apply]
    module
  have S3' : Ord 2 fun h t => rk4Stage3 f h (y t) - y (t + 1 / 2 * h) :=
    ((S3.mono (by norm_num : 2 ≤ 4)).add (((oa.scale (1 / 8) 2).add ((ob.scale (1 / 24) 3).mono (by norm_num))).sub (((Ord.op oJ0 oa).scale (1 / 16) 3).mono (by norm_num)))).congr fun h t _ _ => by
      module
  have k3 : Ord 4 fun h t => f (rk4Stage3 f h (y t)) -
      (f (y (t + 1 / 2 * h)) + (h ^ 2 / 8) • J (t + 1 / 2 * h) (a t) + (h ^ 3 / 24) • J t (b t) - (h ^ 3 / 16) • J t (J t (a t))) := by
    have q1 := hF.linearise_ord hK hR hs (k := 1) S3'
    have q2 := Ord.op oJh S3
    have q3 := (Ord.op dJh ob).scale (1 / 24) 3
    have q4 := (Ord.op dJh (Ord.op oJ0 oa)).scale (-1 / 16) 3
    refine (((q1.add q2).add q3).add q4).congr fun h t _ _ => ?_
    simp only [map_add, map_sub, map_smul, ContinuousLinearMap.sub_apply, J]
    module
  -- fourth stage
  have S4 : Ord 4 fun h t => rk4Stage4 f h (y t) - y (t + 1 * h) + ((h ^ 3 / 24) • b t - (h ^ 3 / 8) • J t (a t)) := by
    have q1 := (k3.scale 1 1).mono (by norm_num : 4 ≤ 4 + 1)
    have q2 := A2.scale 1 1
    have q3 := (Ord.op dJh oa).scale (1 / 8) 3
    have q4 := ((Ord.op oJ0 ob).scale (1 / 24) 4)
    have q5 := ((Ord.op oJ0 (Ord.op oJ0 oa)).scale (-1 / 16) 4)
    refine (((((q1.add q2).add q3).add q4).add q5).sub A1').congr fun h t _ _ => ?_
    unfold rk4Stage4
    simp only [ContinuousLinearMap.sub_apply]
    module
  have S4' : Ord 3 fun h t => rk4Stage4 f h (y t) - y (t + 1 * h) :=
    ((S4.mono (by norm_num : 3 ≤ 4)).sub ((ob.scale (1 / 24) 3).sub ((Ord.op oJ0 oa).scale (1 / 8) 3))).congr fun h t _ _ => by module
  have k4 : Ord 4 fun h t => f (rk4Stage4 f h (y t)) - (f (y (t + 1 * h)) - (h ^ 3 / 24) • J t (b t) + (h ^ 3 / 8) • J t (J t (a t))) := by
    have q1 := (hF.linearise_ord hK hR hs1 (k := 2) S4').mono (by norm_num : 4 ≤ 2 * (2 + 1))
    have q2 := Ord.op oJ1 S4
    have q3 := (Ord.op dJ1 ob).scale (-1 / 24) 3
    have q4 := (Ord.op dJ1 (Ord.op oJ0 oa)).scale (1 / 8) 3
    refine (((q1.add q2).add q3).add q4).congr fun h t _ _ => ?_
    simp only [map_add, map_sub, map_smul, ContinuousLinearMap.sub_apply, J]
    module
  refine ⟨S2', S3', S4', ?_⟩
  have q1 := k2.scale (1 / 3) 1
  have q2 := k3.scale (1 / 3) 1
  have q3 := k4.scale (1 / 6) 1
  have q4 := A3.scale (2 / 3) 1
  have q5 := A4.scale (1 / 6) 1
  refine (((((q1.add q2).add q3).add q4).add q5).sub A5).congr fun h t _ _ => ?_
  unfold rk4Step
  module

/-- The classical method amplifies errors by at most `exp (L h)`. -/
theorem rk4_stable (hF : LipschitzNear f y R L) (hL : 0 ≤ L) {h t : ℝ} (hh : 0 ≤ h) (ht : 0 ≤ t) (hLh : L * h ≤ 1 / 2)
    (h2 : ‖rk4Stage2 f h (y t) - y (t + 1 / 2 * h)‖ ≤ R / 2) (h3 : ‖rk4Stage3 f h (y t) - y (t + 1 / 2 * h)‖ ≤ R / 2) (h4 : ‖rk4Stage4 f h (y t) - y (t + 1 * h)‖ ≤ R / 2)
    {u : V} (hu : ‖u - y t‖ ≤ R / 4) : ‖rk4Step f h u - rk4Step f h (y t)‖ ≤ Real.exp (L * h) * ‖u - y t‖ := by
  set e := ‖u - y t‖ with he
  have he0 : 0 ≤ e := norm_nonneg _
  have hR : 0 ≤ R := by linarith
  set x := L * h with hx
  have hx0 : 0 ≤ x := by positivity
  have near : ∀ {X U : V} {s q : ℝ}, 0 ≤ s → ‖U - y s‖ ≤ R / 2 → ‖X - U‖ ≤ q * e → q ≤ 2 → 0 ≤ q → ‖f X - f U‖ ≤ L * (q * e) := fun {X U s q} hs hU hX hq hq0 => by
    have hXs : ‖X - y s‖ ≤ R := by
      have := norm_add_le (X - U) (U - y s)
      rw [sub_add_sub_cancel] at this
      nlinarith
    exact (hF s hs X U hXs (by linarith)).trans (mul_le_mul_of_nonneg_left hX hL)
  have step : ∀ {g : ℝ} {k l : V} {q : ℝ}, 0 ≤ g → ‖k - l‖ ≤ L * (q * e) → ‖u + g • k - (y t + g • l)‖ ≤ (1 + g * L * q) * e := fun {g k l q} hg hk => by
    rw [show u + g • k - (y t + g • l) = (u - y t) + g • (k - l) by module]
    refine (norm_add_le _ _).trans ?_
    rw [norm_smul, Real.norm_of_nonneg hg]
    have := mul_le_mul_of_nonneg_left hk hg
    rw [← he]
    linarith
  have k1 : ‖f u - f (y t)‖ ≤ L * (1 * e) := near ht (by rw [sub_self, norm_zero]; linarith) (by rw [one_mul]) (by norm_num) (by norm_num)
  have s2 := step (g := h / 2) (by positivity) k1
  have e2 : 1 + h / 2 * L * 1 = 1 + x / 2 := by rw [hx]; ring
  rw [e2] at s2
  have k2 : ‖f (rk4Stage2 f h u) - f (rk4Stage2 f h (y t))‖ ≤ L * ((1 + x / 2) * e) := near (by positivity) h2 s2 (by linarith) (by positivity)
  have s3 := step (g := h / 2) (by positivity) k2
  have e3 : 1 + h / 2 * L * (1 + x / 2) = 1 + x / 2 + x ^ 2 / 4 := by rw [hx]; ring
  rw [e3] at s3
  have k3 : ‖f (rk4Stage3 f h u) - f (rk4Stage3 f h (y t))‖ ≤ L * ((1 + x / 2 + x ^ 2 / 4) * e) := near (by positivity) h3 s3 (by nlinarith) (by positivity)
  have s4 := step (g := h) (by positivity) k3
  have e4 : 1 + h * L * (1 + x / 2 + x ^ 2 / 4) = 1 + x + x ^ 2 / 2 + x ^ 3 / 4 := by rw [hx]; ring
  rw [e4] at s4
  have hx2 : x ^ 2 ≤ 1 / 4 := by nlinarith
  have hx3 : x ^ 3 ≤ 1 / 8 := by nlinarith
  have k4 : ‖f (rk4Stage4 f h u) - f (rk4Stage4 f h (y t))‖ ≤ L * ((1 + x + x ^ 2 / 2 + x ^ 3 / 4) * e) := near (by positivity) h4 s4 (by linarith) (by positivity)
  have es : rk4Step f h u - rk4Step f h (y t) = (u - y t) + h • ((1 / 6 : ℝ) • (f u - f (y t)) + (1 / 3 : ℝ) • (f (rk4Stage2 f h u) - f (rk4Stage2 f h (y t))) +
      (1 / 3 : ℝ) • (f (rk4Stage3 f h u) - f (rk4Stage3 f h (y t))) + (1 / 6 : ℝ) • (f (rk4Stage4 f h u) - f (rk4Stage4 f h (y t)))) := by
    unfold rk4Step
    module
  rw [es]
  have hsum : ‖(1 / 6 : ℝ) • (f u - f (y t)) + (1 / 3 : ℝ) • (f (rk4Stage2 f h u) - f (rk4Stage2 f h (y t))) +
      (1 / 3 : ℝ) • (f (rk4Stage3 f h u) - f (rk4Stage3 f h (y t))) + (1 / 6 : ℝ) • (f (rk4Stage4 f h u) - f (rk4Stage4 f h (y t)))‖ ≤
      L * ((1 + x / 2 + x ^ 2 / 6 + x ^ 3 / 24) * e) := by
    refine ((norm_add_le _ _).trans (add_le_add ((norm_add_le _ _).trans (add_le_add ((norm_add_le _ _).trans (add_le_add le_rfl le_rfl)) le_rfl)) le_rfl)).trans ?_
    simp only [norm_smul]
    norm_num only [Real.norm_eq_abs, abs_of_nonneg]
    linarith
  have hexp : 1 + x + x ^ 2 / 2 + x ^ 3 / 6 + x ^ 4 / 24 ≤ Real.exp x := by
    have := Real.sum_le_exp_of_nonneg hx0 5
    simp only [Finset.sum_range_succ, Finset.sum_range_zero, Nat.factorial] at this
    norm_num at this
    linarith
  refine (norm_add_le _ _).trans ?_
  rw [norm_smul, Real.norm_of_nonneg hh, ← he]
  have h5 := mul_le_mul_of_nonneg_left hsum hh
  have h6 := mul_le_mul_of_nonneg_right hexp he0
  have e7 : h * (L * ((1 + x / 2 + x ^ 2 / 6 + x ^ 3 / 24) * e)) = (x + x ^ 2 / 2 + x ^ 3 / 6 + x ^ 4 / 24) * e := by rw [hx]; ring
  linarith

end

section
variable {F : V → V} {P : V →ₗ[ℝ] V} {y : ℝ → V} {R L K : ℝ}

theorem rk4_total {dt : ℝ} {u w : V} (hP : IsProjection P) (hu : P u = u) (h : classicRK4 (succeeds F) (succeeds P) dt u = .ok w) : w = rk4Step (fun x => P (F x)) dt u ∧ P w = w := by
  rw [C38_classic_rk4] at h
  obtain rfl := Except.ok.inj h
  refine ⟨?_, hP _⟩
  unfold rk4Step rk4Stage4 rk4Stage3 rk4Stage2
  simp only [map_smul, map_add, hu]

/-- **C75** The classical Runge-Kutta method (with projection) converges to fourth order: there are constants such that for all small time steps and any number of steps the error is at
most `exp (L t) (ε + t C dt⁴)`, as long as this stays within the neighbourhood of the solution in which the right hand side is smooth. -/
theorem C75_classic_rk4 (hP : IsProjection P) (hy : SolvesODE (fun x => P (F x)) y) (hM : ∀ k, 1 ≤ k → k ≤ 5 → ∃ M, SmoothPath k M y) (hR : 0 < R) (hK : 0 ≤ K)
    (hF : SmoothNear (fun x => P (F x)) y R L K) :
    ∃ C δ : ℝ, 0 ≤ C ∧ 0 < δ ∧ ∀ dt, 0 ≤ dt → dt ≤ δ → ∀ u : ℕ → V, P (u 0) = u 0 → (∀ n, classicRK4 (succeeds F) (succeeds P) dt (u n) = .ok (u (n + 1))) →
      ∀ ε, ‖u 0 - y 0‖ ≤ ε → ∀ n : ℕ, Real.exp (L * (n * dt)) * (ε + n * dt * (C * dt ^ 4)) ≤ R / 4 →
        ‖u n - y (n * dt)‖ ≤ Real.exp (L * (n * dt)) * (ε + n * dt * (C * dt ^ 4)) := by
  obtain ⟨o2, o3, o4, C, δ₁, hC, hd1, -, h5⟩ := rk4_local hy hM hR hK hF
  obtain ⟨δ₂, hd2, h2⟩ := o2.small (k := 1) (by positivity : 0 < R / 2)
  obtain ⟨δ₃, hd3, h3⟩ := o3.small (k := 1) (by positivity : 0 < R / 2)
  obtain ⟨δ₄, hd4, h4⟩ := o4.small (k := 2) (by positivity : 0 < R / 2)
  have hL := hF.nonneg hR.le
  refine ⟨C, min (min δ₁ δ₂) (min (min δ₃ δ₄) (1 / (2 * (L + 1)))), hC, lt_min (lt_min hd1 hd2) (lt_min (lt_min hd3 hd4) (by positivity)), ?_⟩
  intro dt hdt hle u hu0 hrun ε hε n hn
  have l1 : dt ≤ δ₁ := hle.trans ((min_le_left _ _).trans (min_le_left _ _))
  have l2 : dt ≤ δ₂ := hle.trans ((min_le_left _ _).trans (min_le_right _ _))
  have l3 : dt ≤ δ₃ := hle.trans ((min_le_right _ _).trans ((min_le_left _ _).trans (min_le_left _ _)))
  have l4 : dt ≤ δ₄ := hle.trans ((min_le_right _ _).trans ((min_le_left _ _).trans (min_le_right _ _)))
  have l5 : dt ≤ 1 / (2 * (L + 1)) := hle.trans ((min_le_right _ _).trans (min_le_right _ _))
  have hLd : L * dt ≤ 1 / 2 := by
    rw [le_div_iff₀ (by positivity)] at l5
    nlinarith
  have hfix : ∀ n, P (u n) = u n := fun n => by
    induction n with
    | zero => exact hu0
    | succ n ih => exact (rk4_total hP ih (hrun n)).2
  refine accumulate (e := fun n => ‖u n - y (n * dt)‖) (ρ := R / 4) hL hdt (by positivity) (fun n => norm_nonneg _) (by simpa using hε) (fun n hn => ?_) n hn
  have ht : 0 ≤ (n : ℝ) * dt := by positivity
  have et : ((n + 1 : ℕ) : ℝ) * dt = n * dt + 1 * dt := by push_cast; ring
  have hs := rk4_stable hF.lipschitz hL hdt ht hLd (h2 dt hdt l2 _ ht) (h3 dt hdt l3 _ ht) (h4 dt hdt l4 _ ht) hn
  have hl := h5 dt hdt l1 _ ht
  rw [et, (rk4_total hP (hfix n) (hrun n)).1]
  refine le_trans ?_ ((add_le_add hs hl).trans (le_of_eq (by ring)))
  rw [← sub_add_sub_cancel (rk4Step (fun x => P (F x)) dt (u n)) (rk4Step (fun x => P (F x)) dt (y (n * dt)))]
  exact norm_add_le _ _

end
end JaxCfd
