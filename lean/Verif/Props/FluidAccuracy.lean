import Verif.Props.AccuracyConvection
import Verif.Lemmas.FluidStep
import Verif.Props.Convergence

/-!
# C76: accuracy of the pressure projection and of the Navier-Stokes steps
-/

namespace JaxCfd
variable {d : ℕ} [HasNan ℝ]

/-- The values of the components. -/
def fieldData (v : Fin d → GridVariable d ℝ) (a : Fin d) (i : Idx d) : ℝ := (v a).array.data i

omit [HasNan ℝ] in
theorem box_card (s : Fin d → ℕ) : (box s).card = ∏ a, s a := by
  unfold box
  rw [Fintype.card_piFinset]
  exact Finset.prod_congr rfl fun a _ => by rw [Int.card_Ico, sub_zero, Int.toNat_natCast]

/-- The samples of `V` at the points of the faces. -/
noncomputable def samplesOn (g : Grid d ℝ) (V : Fin d → (Fin d → ℝ) → ℝ) : Fin d → GridVariable d ℝ := fun a =>
  ⟨⟨⟨g.shape, fun i => V a (g.position (fun b => if b = a then 1 else 1 / 2) i)⟩, fun b => if b = a then 1 else 1 / 2, g⟩, periodicBC d⟩

theorem samplesOn_field (g : Grid d ℝ) (V : Fin d → (Fin d → ℝ) → ℝ) : PeriodicField g (samplesOn g V) := ⟨fun _ => ⟨rfl, rfl, fun _ => rfl⟩, fun _ => rfl⟩

omit [HasNan ℝ] in
theorem PeriodicField.offset {g : Grid d ℝ} {w : Fin d → GridVariable d ℝ} (hw : PeriodicField g w) (a : Fin d) : (w a).array.offset = fun b => if b = a then 1 else 1 / 2 :=
  funext fun b => (hw.1 a).2.2 b

theorem rmsError_eq {g : Grid d ℝ} {w : Fin d → GridVariable d ℝ} (hw : PeriodicField g w) (V : Fin d → (Fin d → ℝ) → ℝ) :
    rmsError g w V = n2 g.shape (fun a i => fieldData w a i - fieldData (samplesOn g V) a i) / Real.sqrt (box g.shape).card := by
  unfold rmsError
  rw [← box_card, Real.sqrt_div' _ (Nat.cast_nonneg _)]
  congr 1
  rw [show n2 g.shape (fun a i => fieldData w a i - fieldData (samplesOn g V) a i) = Real.sqrt (n2 g.shape (fun a i => fieldData w a i - fieldData (samplesOn g V) a i) ^ 2) from
    (Real.sqrt_sq (n2_nonneg _)).symm, n2_sq']
  refine congrArg Real.sqrt (Finset.sum_congr rfl fun a _ => Finset.sum_congr rfl fun i _ => ?_)
  rw [hw.offset a]
  rfl

/-- The pressure projection with an exact solver subtracts a gradient and leaves no divergence. -/
theorem projection_gradient (hd : d ≠ 0) {g : Grid d ℝ} (hs : ∀ a, 0 < g.shape a) {solve : PressureSolver d ℝ} (hex : ExactSolver g solve) {u : Fin d → GridVariable d ℝ}
    (hu : PeriodicField g u) : ∃ p q, projection u solve = .ok p ∧ SameLayout u p ∧ PeriodicField g p ∧
      (∀ a i, InR g.shape i → fieldData p a i = fieldData u a i - dGrad g.shape g.step q a i) ∧ ∀ i, InR g.shape i → dDiv g.shape g.step (fieldData p) i = 0 := by
  obtain ⟨bc, q, hq, hsol⟩ := hex u hu
  obtain ⟨x, hx, hxe⟩ := VelocityField.projection_eq hd (hu.velocity hs) hu.walls hq
  obtain ⟨p, hp, hl, hpf, hdf, -, -⟩ := exact_projection hd hs hex hu
  have e := hp.symm.trans hx
  have e := Except.ok.inj e
  refine ⟨p, q.data, hp, hl, hpf, fun a i hi => ?_, fun i hi => ?_⟩
  · have : fieldData p a i = x a i := by rw [e]; rfl
    rw [this, hxe a i hi]
    congr 1
    unfold VelocityField.grad dGrad
    rw [VelocityField.pvar_above, if_pos (by rw [hu.2 a]; rfl)]
  · obtain ⟨D, hD, h0⟩ := hdf
    rw [hpf.divergence hd hs] at hD
    rw [← h0 i hi, ← Except.ok.inj hD]
    rfl

omit [HasNan ℝ] in
theorem divergenceFree_dDiv [HasNan ℝ] (hd : d ≠ 0) {g : Grid d ℝ} (hs : ∀ a, 0 < g.shape a) {u : Fin d → GridVariable d ℝ} (hu : PeriodicField g u) (h : DivergenceFree g u) :
    ∀ i, InR g.shape i → dDiv g.shape g.step (fieldData u) i = 0 := fun i hi => by
  obtain ⟨D, hD, h0⟩ := h
  rw [hu.divergence hd hs] at hD
  rw [← h0 i hi, ← Except.ok.inj hD]
  rfl

/-- The discrete divergence of the samples of an incompressible velocity. -/
theorem samples_divergence (hd : d ≠ 0) {g : Grid d ℝ} (hg : g.Valid) {V : Fin d → (Fin d → ℝ) → ℝ} (hV : ∀ a, PeriodicOn g (V a)) {M : Fin d → ℝ} (hM : ∀ a, SmoothAlong 3 a (M a) (V a))
    (h0 : ∀ x, ∑ a, partialDeriv 1 a (V a) x = 0) :
    l2 (box g.shape) (dDiv g.shape g.step (fieldData (samplesOn g V))) ≤ (∑ a, M a * g.step a ^ 2 / 24) * Real.sqrt (box g.shape).card := by
  obtain ⟨r, hr, hrg, hrs, hro, hra⟩ := C73_divergence hd g hg (samplesOn g V) (samplesOn_field g V) V hV (fun _ _ _ => rfl) M hM
  rw [(samplesOn_field g V).divergence hd fun a => (hg a).1] at hr
  obtain rfl := Except.ok.inj hr
  have hM0 : ∀ a, 0 ≤ M a := fun a => (abs_nonneg _).trans ((hM a).2 0)
  refine l2_le_of_bound (Finset.sum_nonneg fun a _ => by have := hM0 a; positivity) fun i hi => ?_
  have := hra i (mem_box.1 hi)
  beta_reduce at this
  rw [h0, sub_zero] at this
  exact this

omit [HasNan ℝ] in
theorem diagonal_eq {g : Grid d ℝ} (hg : g.Valid) : l2 Finset.univ (fun a => g.step a * g.shape a) = g.diagonal := by
  unfold l2 Grid.diagonal
  exact congrArg Real.sqrt (Finset.sum_congr rfl fun a _ => by beta_reduce; rw [hg.step_mul a])

/-- **C76** The pressure projection (with an exact solver) computes the Helmholtz decomposition to second order: applied to a velocity within `ε` of `V + ∇Q` with `V` incompressible, it
returns `V` up to a root mean square error of at most `√d (ε + M_Q h²/24)` plus the diagonal of the domain times `Σ M h² / 24`. -/
theorem C76_projection (hd : d ≠ 0) (g : Grid d ℝ) (hg : g.Valid) (solve : PressureSolver d ℝ) (hex : ExactSolver g solve) (w : Fin d → GridVariable d ℝ) (hw : PeriodicField g w)
    (V : Fin d → (Fin d → ℝ) → ℝ) (Q : (Fin d → ℝ) → ℝ) (hV : ∀ a, PeriodicOn g (V a)) (hQ : PeriodicOn g Q) (M : Fin d → ℝ) (hM : ∀ a, SmoothAlong 3 a (M a) (V a)) (N η : ℝ)
    (hN : ∀ a, SmoothAlong 3 a N Q) (hη : ∀ a, g.step a ≤ η) (h0 : ∀ x, ∑ a, partialDeriv 1 a (V a) x = 0) (ε : ℝ)
    (hε : ∀ a, (w a).array.Approximates (fun x => V a x + partialDeriv 1 a Q x) ε) :
    ∃ p, projection w solve = .ok p ∧ PeriodicField g p ∧ DivergenceFree g p ∧
      rmsError g p V ≤ Real.sqrt d * (ε + N * η ^ 2 / 24) + g.diagonal * ∑ a, M a * g.step a ^ 2 / 24 := by
  have hpos : ∀ a, 0 < g.shape a := fun a => (hg a).1
  obtain ⟨p, q, hp, -, hpf, hpe, hp0⟩ := projection_gradient hd hpos hex hw
  obtain ⟨vt, q', -, -, hvf, hve, hv0⟩ := projection_gradient hd hpos hex (samplesOn_field g V)
  obtain ⟨p', hp', -, -, hpd, -⟩ := exact_projection hd hpos hex hw
  rw [hp] at hp'
  obtain rfl := Except.ok.inj hp'
  refine ⟨p, hp, hpf, hpd, ?_⟩
  have hN0 : 0 ≤ N := (abs_nonneg _).trans ((hN ⟨0, Nat.pos_of_ne_zero hd⟩).2 0)
  have hε0 : 0 ≤ ε := by
    have := hε ⟨0, Nat.pos_of_ne_zero hd⟩ 0 (by rw [(hw.1 _).2.1]; exact fun a => ⟨le_rfl, Int.natCast_pos.2 (hpos a)⟩)
    exact (abs_nonneg _).trans this
  have hη0 : 0 ≤ η := (hg.step_pos ⟨0, Nat.pos_of_ne_zero hd⟩).le.trans (hη _)
  -- the samples of the potential, at the cell centres
  set Qs : GridVariable d ℝ := ⟨⟨⟨g.shape, fun i => Q (g.position (fun _ => 1 / 2) i)⟩, fun _ => 1 / 2, g⟩, periodicBC d⟩ with hQs
  have hQp : Qs.Periodic := ⟨fun _ => rfl, fun a => ⟨rfl, hpos a⟩⟩
  have hgrad : ∀ a i, InR g.shape i → |dGrad g.shape g.step Qs.array.data a i - partialDeriv 1 a Q (g.position (fun b => if b = a then 1 else 1 / 2) i)| ≤ N * η ^ 2 / 24 := fun a i hi => by
    obtain ⟨r, hr, h1, h2, h3, h4⟩ := C73_forward_difference hQp hg hQ (fun _ _ => rfl) a N (hN a)
    rw [forwardDifference_periodic hQp] at hr
    obtain rfl := Except.ok.inj hr
    have := h4 i hi
    dsimp only at this
    have ho : Function.update (fun _ : Fin d => (1 / 2 : ℚ)) a (1 / 2 + 1 / 2) = fun b => if b = a then 1 else 1 / 2 := by
      funext b
      rcases eq_or_ne b a with rfl | hb
      · rw [Function.update_self, if_pos rfl]; norm_num
      · rw [Function.update_of_ne hb, if_neg hb]
    rw [ho] at this
    refine this.trans ?_
    have h5 : g.step a ^ 2 ≤ η ^ 2 := pow_le_pow_left₀ (hg.step_pos a).le (hη a) 2
    have h6 := mul_le_mul_of_nonneg_left h5 hN0
    show N * g.step a ^ 2 / 24 ≤ _
    linarith
  have b1 : n2 g.shape (fun a i => fieldData p a i - fieldData vt a i) ≤ (ε + N * η ^ 2 / 24) * (Real.sqrt d * Real.sqrt (box g.shape).card) := by
    refine (projection_contracts (q := fun i => (q i - q' i) - Qs.array.data i)
      (u := fun a i => fieldData w a i - fieldData (samplesOn g V) a i - dGrad g.shape g.step Qs.array.data a i) (fun a i hi => ?_)
      (fun i hi => by rw [dDiv_sub, hp0 i hi, hv0 i hi, sub_zero])).trans (n2_le_of_bound (by positivity) fun a i hi => ?_)
    · rw [hpe a i hi, hve a i hi, dGrad_sub, dGrad_sub]
      ring
    · have h1 := hε a i (by rw [(hw.1 a).2.1]; exact hi)
      rw [(hw.1 a).1, hw.offset a] at h1
      have h2 := hgrad a i hi
      show |(w a).array.data i - V a (g.position _ i) - _| ≤ _
      rw [abs_le] at *
      constructor <;> linarith [h1.1, h1.2, h2.1, h2.2]
  have b2 := projection_near (fun a => hg.step_pos a) hve hv0
  rw [diagonal_eq hg] at b2
  have b3 := samples_divergence hd hg hV hM h0
  have b4 : n2 g.shape (fun a i => fieldData p a i - fieldData (samplesOn g V) a i) ≤
      n2 g.shape (fun a i => fieldData p a i - fieldData vt a i) + n2 g.shape (dGrad g.shape g.step q') := by
    rw [n2_congr (y := fun a i => (fieldData p a i - fieldData vt a i) - dGrad g.shape g.step q' a i) fun a i hi => by rw [hve a i hi]; ring]
    exact n2_sub_le _ _
  have hN' : 0 < Real.sqrt (box g.shape).card := Real.sqrt_pos.2 (by
    rw [box_card]
    exact_mod_cast Finset.prod_pos fun a _ => hpos a)
  rw [rmsError_eq hpf, div_le_iff₀ hN']
  have hdiag : 0 ≤ g.diagonal := Real.sqrt_nonneg _
  have b5 := mul_le_mul_of_nonneg_left b3 hdiag
  linarith

end JaxCfd
