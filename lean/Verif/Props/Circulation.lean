import Verif.Props.SpectralStep

/-!
# C64: the circulation over any number of spectral time steps
-/

namespace JaxCfd

/-- The low-storage scheme for `m' = -λ m`, treated implicitly: one Crank-Nicolson factor per stage. -/
theorem rkcn_decay (lam : ℝ) (α β γ : List ℝ) (ha : α.length = β.length + 1) (hc : γ.length = β.length) (dt : ℝ) (m : ℂ) :
    lowStorageRKCN (K := ℝ) α β γ (fun _ : ℂ => 0) (fun m => -(lam : ℂ) * m) (fun m h => 1 / (1 + h * lam) * m) dt m =
      .ok (((∏ k ∈ Finset.range β.length, (1 - dt * (α.getD (k + 1) 0 - α.getD k 0) / 2 * lam) / (1 + dt * (α.getD (k + 1) 0 - α.getD k 0) / 2 * lam) : ℝ) : ℂ) * m) := by
  have key : ∀ n ≤ β.length, (List.range n).foldlM (lowStorageStage α β γ (fun _ : ℂ => 0) (fun m => -(lam : ℂ) * m) (fun m h => 1 / (1 + h * lam) * m) dt) (0, m) =
      .ok (0, ((∏ k ∈ Finset.range n, (1 - dt * (α.getD (k + 1) 0 - α.getD k 0) / 2 * lam) / (1 + dt * (α.getD (k + 1) 0 - α.getD k 0) / 2 * lam) : ℝ) : ℂ) * m) := by
    intro n
    induction n with
    | zero => intro _; simp [pure, Except.pure]
    | succ n ih =>
      intro hn
      rw [List.range_succ, List.foldlM_append, ih (by omega)]
      simp only [Except.bind_ok, List.foldlM_cons, List.foldlM_nil]
      rw [lowStorageStage_ok α β γ _ _ _ dt _ n (by omega) (by omega) (by omega), Finset.prod_range_succ]
      simp only [Except.bind_ok, smul_zero, add_zero]
      refine congrArg Except.ok (Prod.ext rfl ?_)
      simp only [Complex.real_smul]
      push_cast
      ring
  unfold lowStorageRKCN
  rw [if_neg (by omega), key _ le_rfl]
  rfl

/-- The fractions of the time step between the stages of `crank_nicolson_rk4`. -/
noncomputable def rk4Fractions : Fin 5 → ℝ :=
  ![0.1496590219993, 0.3704009573644 - 0.1496590219993, 0.6222557631345 - 0.3704009573644, 0.9582821306748 - 0.6222557631345, 1 - 0.9582821306748]

/-- The factor by which `crank_nicolson_rk4` damps a quantity that decays at rate `lam`. -/
noncomputable def dampingFactor (lam dt : ℝ) : ℝ := ∏ k, (1 - dt * rk4Fractions k / 2 * lam) / (1 + dt * rk4Fractions k / 2 * lam)

theorem dampingFactor_zero (dt : ℝ) : dampingFactor 0 dt = 1 := by
  unfold dampingFactor
  exact Finset.prod_eq_one fun k _ => by simp

theorem rk4_decay (lam dt : ℝ) (m : ℂ) :
    crankNicolsonRK4 (K := ℝ) (fun _ : ℂ => 0) (fun m => -(lam : ℂ) * m) (fun m h => 1 / (1 + h * lam) * m) dt m = .ok ((dampingFactor lam dt : ℂ) * m) := by
  unfold crankNicolsonRK4
  rw [rkcn_decay lam _ _ _ (by rfl) (by rfl) dt m]
  refine congrArg Except.ok ?_
  congr 2
  unfold dampingFactor
  rw [Finset.prod_range fun k => _]
  refine Finset.prod_congr rfl fun k _ => ?_
  unfold rk4Fractions
  fin_cases k <;> norm_num

theorem dampingFactor_abs {lam dt : ℝ} (hl : 0 ≤ lam) (hd : 0 ≤ dt) : |dampingFactor lam dt| ≤ 1 := by
  unfold dampingFactor
  rw [Finset.abs_prod]
  refine Finset.prod_le_one (fun k _ => abs_nonneg _) fun k _ => ?_
  have hk : 0 ≤ dt * rk4Fractions k / 2 * lam := by
    have : 0 ≤ rk4Fractions k := by
      unfold rk4Fractions
      fin_cases k <;> norm_num
    positivity
  rw [abs_div, abs_of_pos (a := 1 + _) (by linarith), div_le_one (by linarith), abs_le]
  constructor <;> linarith

/-- `rkcn_map` for `crank_nicolson_rk4`. -/
theorem rk4_map {V W : Type} [AddCommGroup V] [Module ℝ V] [AddCommGroup W] [Module ℝ W] (S : V → Prop) (φ : V →ₗ[ℝ] W) (h0 : S 0)
    (hadd : ∀ u v, S u → S v → S (u + v)) (hsmul : ∀ (c : ℝ) u, S u → S (c • u)) {F G : V → V} {Ginv : V → ℝ → V} {F' G' : W → W} {Ginv' : W → ℝ → W}
    (hF : ∀ u, S u → S (F u) ∧ φ (F u) = F' (φ u)) (hG : ∀ u, S u → S (G u) ∧ φ (G u) = G' (φ u))
    (hGi : ∀ u h, S u → S (Ginv u h) ∧ φ (Ginv u h) = Ginv' (φ u) h) (dt : ℝ) (u : V) (hu : S u) :
    ∃ r, crankNicolsonRK4 F G Ginv dt u = .ok r ∧ S r ∧ crankNicolsonRK4 F' G' Ginv' dt (φ u) = .ok (φ r) := by
  unfold crankNicolsonRK4
  exact rkcn_map S φ h0 hadd hsmul hF hG hGi _ _ _ (by rfl) (by rfl) dt u hu

/-! ### The field of the spectrum -/

theorem shape2 (g : Grid 2 ℝ) : ![g.shape 0, g.shape 1] = g.shape := by
  funext b
  fin_cases b <;> rfl

theorem sum_points (g : Grid 2 ℝ) (f : Idx 2 → ℝ) : ∑ j ∈ points (g.shape 0) (g.shape 1), f ![j.1, j.2] = ∑ i ∈ box g.shape, f i := by
  refine Finset.sum_bij' (fun j _ => ![j.1, j.2]) (fun i _ => (i 0, i 1)) (fun j hj => ?_) (fun i hi => ?_) (fun j _ => rfl) (fun i _ => ML.eta2 i) fun j _ => rfl
  · unfold points at hj
    rw [Finset.mem_product, Finset.mem_Ico, Finset.mem_Ico] at hj
    refine mem_box.2 fun a => ?_
    fin_cases a
    · exact hj.1
    · exact hj.2
  · have h := mem_box.1 hi
    unfold points
    rw [Finset.mem_product, Finset.mem_Ico, Finset.mem_Ico]
    exact ⟨h 0, h 1⟩

theorem symArr_half {g : Grid 2 ℝ} (hg : g.Proper) (he : g.shape 1 % 2 = 0) {x : NArr 2 ℂ} (hs : x.shape = rfftShape2 g) :
    ML.HalfSpectrum g (symArr (g.shape 0) (g.shape 1) x) := by
  refine ⟨hs, _, ML.multiplier_HSym (f := fullSpectrum (g.shape 0) (g.shape 1) x) (fun a => (hg a).1) (fullSpectrum_band _ _ x).herm, fun i hi => ?_⟩
  have hi' : InR (rfftShape2 g) i := by rw [← hs]; exact hi
  obtain ⟨⟨h0, h1⟩, h2, h3⟩ := ML.half_mem.1 hi'
  have hz : ∀ p : ℤ × ℤ, p ∉ band ((g.shape 0 - 1) / 2) ((g.shape 1 - 1) / 2) → fullSpectrum (g.shape 0) (g.shape 1) x p = 0 := fun p hp => if_neg hp
  have hb := centred_bounds (hg 0).1 (i 0)
  have hb1 := centred_bounds (hg 1).1 (i 1)
  have hM0 := (hg 1).1
  show fullSpectrum (g.shape 0) (g.shape 1) x (centred (g.shape 0) (i 0), i 1) = _
  unfold ML.multiplier
  by_cases hc : 2 * i 1 = g.shape 1
  · rw [hz _ (fun h => by have := (mem_band.1 h).2; dsimp only at this; omega)]
    rw [if_pos]
    right
    have : centred (g.shape 1) (i 1) = -i 1 := by
      unfold centred
      rw [show i 1 + ((g.shape 1 / 2 : ℕ) : ℤ) = g.shape 1 by omega, Int.emod_self]; omega
    omega
  · have hcc : centred (g.shape 1) (i 1) = i 1 := ML.centred_unique (by simp) (by omega) (by omega)
    rw [hcc]
    split_ifs with h
    · refine hz _ fun h' => ?_
      have := mem_band.1 h'
      dsimp only at this
      omega
    · rfl

/-- The spectrum of the field of a half spectrum: only the first column may change, to its hermitian part. -/
theorem rfftn_field {g : Grid 2 ℝ} (hg : g.Proper) (he : g.shape 1 % 2 = 0) {x : NArr 2 ℂ} (hs : x.shape = rfftShape2 g)
    (hx : NoNyquist (g.shape 0) (g.shape 1) x) :
    (irfftn (k := 1) x).shape = g.shape ∧ ∀ r c : ℤ, 0 ≤ r → r < g.shape 0 → 0 ≤ c → c ≤ (g.shape 1 / 2 : ℕ) →
      (rfftn (k := 1) (irfftn (k := 1) x)).data ![r, c] =
        if c = 0 then (x.data ![r, 0] + (starRingEnd ℂ) (x.data ![(-r) % g.shape 0, 0])) / 2 else x.data ![r, c] := by
  have hsh : (irfftn (k := 1) x).shape = g.shape := (irfftn2_shape he hs).trans (shape2 g)
  refine ⟨hsh, fun r c h0 h1 h2 h3 => ?_⟩
  have hh := (symArr_half hg he hs).field he (hg 1).1
  have e : (rfftn (k := 1) (irfftn (k := 1) x)).data ![r, c] = (rfftn (k := 1) (irfftn (k := 1) (symArr (g.shape 0) (g.shape 1) x))).data ![r, c] := by
    rw [rfftn2 (hsh.trans (shape2 g).symm), rfftn2 (hh.1.trans (shape2 g).symm)]
    refine Finset.sum_congr rfl fun j hj => ?_
    unfold points at hj
    rw [Finset.mem_product, Finset.mem_Ico, Finset.mem_Ico] at hj
    rw [irfftn_sym (hg 0).1 he (hg 1).1 hs hx _ hj.2.1]
  have hmem : InR (rfftShape2 g) ![r, c] := ML.half_mem.2 ⟨⟨h0, h1⟩, h2, h3⟩
  rw [e, hh.2.2 ![r, c] (by rw [hh.2.1]; show InR x.shape _; rw [hs]; exact hmem)]
  exact fullSpectrum_eq (hg 0).1 he (hg 1).1 hx h0 h1 h2 h3

/-- The sum of the field over the grid is the real part of the mean mode. -/
theorem sum_field {g : Grid 2 ℝ} (hg : g.Proper) (he : g.shape 1 % 2 = 0) {x : NArr 2 ℂ} (hs : x.shape = rfftShape2 g)
    (hx : NoNyquist (g.shape 0) (g.shape 1) x) : ∑ j ∈ points (g.shape 0) (g.shape 1), fieldOf x j = (x.data ![0, 0]).re := by
  obtain ⟨h1, h2⟩ := rfftn_field hg he hs hx
  have h0 := h2 0 0 le_rfl (by have := (hg 0).1; omega) le_rfl (by omega)
  rw [if_pos rfl, ML.zero2, ML.rfftn_mean, h1, neg_zero, Int.zero_emod] at h0
  unfold fieldOf
  rw [sum_points g]
  rw [ML.zero2, Complex.add_conj, ← ML.zero2] at h0
  have h3 : (2 * ((x.data ![0, 0]).re : ℂ)) / 2 = ((x.data ![0, 0]).re : ℂ) := by ring
  push_cast at h0
  rw [h3] at h0
  exact_mod_cast h0

/-- The field of a Nyquist-free spectrum is Nyquist free. -/
theorem NoNyquist.field {g : Grid 2 ℝ} (hg : g.Proper) (he : g.shape 1 % 2 = 0) {x : NArr 2 ℂ} (hs : x.shape = rfftShape2 g)
    (hx : NoNyquist (g.shape 0) (g.shape 1) x) : ML.NyquistFree g (irfftn (k := 1) x) := by
  intro r c h0 h1 h2 h3 h5
  have hx0 := hx r c h0 h1 h2 h3 h5
  have hM := (hg 1).1
  rw [(rfftn_field hg he hs hx).2 r c h0 h1 h2 h3]
  split_ifs with hc
  · subst hc
    have hr : 2 * r = g.shape 0 := by omega
    have hr' : (-r) % (g.shape 0 : ℤ) = r := by
      have e : -r = r - (g.shape 0 : ℤ) := by omega
      rw [e, Int.sub_emod_right, Int.emod_eq_of_lt h0 h1]
    rw [hr', hx0]
    simp
  · exact hx0

/-- What is asked of a forcing: for velocity components on the grid without Nyquist frequencies it returns such components. -/
def GoodForcing (g : Grid 2 ℝ) (forcing : Option (NArr 2 ℝ → NArr 2 ℝ → NArr 2 ℝ × NArr 2 ℝ)) : Prop :=
  ∀ f, forcing = some f → ∀ u v : NArr 2 ℝ, u.shape = g.shape → v.shape = g.shape → ML.NyquistFree g u → ML.NyquistFree g v →
    ((f u v).1.shape = g.shape ∧ (f u v).2.shape = g.shape) ∧ ML.NyquistFree g (f u v).1 ∧ ML.NyquistFree g (f u v).2

theorem NoNyquist.add {N M : ℕ} {x y z : NArr 2 ℂ} (hx : NoNyquist N M x) (hy : NoNyquist N M y) (hz : ∀ i, z.data i = x.data i + y.data i) : NoNyquist N M z :=
  fun r c h0 h1 h2 h3 h4 => by rw [hz, hx r c h0 h1 h2 h3 h4, hy r c h0 h1 h2 h3 h4, add_zero]

theorem explicit_mean {g : Grid 2 ℝ} (hg : g.Proper) (he : g.shape 1 % 2 = 0) (h3 : 3 ≤ g.shape 0) (b : Bool)
    {forcing : Option (NArr 2 ℝ → NArr 2 ℝ → NArr 2 ℝ × NArr 2 ℝ)} (hf : GoodForcing g forcing) {w : NArr 2 ℂ} (hs : w.shape = rfftShape2 g)
    (hw : NoNyquist (g.shape 0) (g.shape 1) w) :
    ∃ z, nsExplicit g (some b) forcing w = .ok z ∧ z.shape = rfftShape2 g ∧ z.data ![0, 0] = 0 ∧ NoNyquist (g.shape 0) (g.shape 1) z := by
  obtain ⟨z, hz, hzs, hz0, hzn⟩ := nsAdvection_mean hg he (some b) hs hw
  have hzn' := hzn rfl h3
  have hN0 : g.shape 0 ≠ 0 := (hg 0).1
  unfold nsExplicit
  rw [hz]
  cases hfo : forcing with
  | none => exact ⟨z, rfl, hzs, hz0, hzn'⟩
  | some f =>
    simp only [Except.bind_ok]
    set vx := irfftn (k := 1) (velocitySpectrum g w).1 with hvx
    set vy := irfftn (k := 1) (velocitySpectrum g w).2 with hvy
    have sx : vx.shape = g.shape := (irfftn2_shape he (x := (velocitySpectrum g w).1) hs).trans (shape2 g)
    have sy : vy.shape = g.shape := (irfftn2_shape he (x := (velocitySpectrum g w).2) hs).trans (shape2 g)
    have nx : ML.NyquistFree g vx := NoNyquist.field hg he (x := (velocitySpectrum g w).1) hs (hw.mul
      (m := fun r c => Complex.I * waveY g (centred (g.shape 0) r, c) / ((waveX g (centred (g.shape 0) r, c) ^ 2 + waveY g (centred (g.shape 0) r, c) ^ 2 : ℝ) : ℂ))
      fun r c h1 h2 h3 h4 => by
        refine (congrArg Prod.fst (v2v_coef hg (fun r c => w.data ![r, c]) (fun _ => w.data ![r, c]) r c h1 h2 rfl)).trans ?_
        unfold velXCoef streamCoef
        ring)
    have ny : ML.NyquistFree g vy := NoNyquist.field hg he (x := (velocitySpectrum g w).2) hs (hw.mul
      (m := fun r c => -(Complex.I * waveX g (centred (g.shape 0) r, c) / ((waveX g (centred (g.shape 0) r, c) ^ 2 + waveY g (centred (g.shape 0) r, c) ^ 2 : ℝ) : ℂ)))
      fun r c h1 h2 h3 h4 => by
        refine (congrArg Prod.snd (v2v_coef hg (fun r c => w.data ![r, c]) (fun _ => w.data ![r, c]) r c h1 h2 rfl)).trans ?_
        unfold velYCoef streamCoef
        ring)
    obtain ⟨⟨f1, f2⟩, n1, n2⟩ := hf f hfo vx vy sx sy nx ny
    have e1 : (rfftn (k := 1) (f vx vy).1).shape = rfftShape2 g := ML.rfftn_grid_shape f1
    have e2 : (rfftn (k := 1) (f vx vy).2).shape = rfftShape2 g := ML.rfftn_grid_shape f2
    have hif : ¬ ((rfftn (k := 1) (f vx vy).1).shape ≠ z.shape ∨ (rfftn (k := 1) (f vx vy).2).shape ≠ z.shape ∨ z.shape ≠ rfftShape2 g) := by
      rw [e1, e2, hzs]; simp
    refine ⟨_, if_neg hif, hzs, ?_, ?_⟩
    · show z.data ![0, 0] + spectralCurl2d g _ 0 0 = 0
      have m1 : (rfftMesh g 0 0).1 = 0 := (fftfreq_eq_zero (hg.step_pos 0) le_rfl (by omega)).2 rfl
      have m2 : (rfftMesh g 0 0).2 = 0 := (rfftfreq_eq_zero (hg.step_pos 1) (hg 1).1).2 rfl
      unfold spectralCurl2d
      rw [hz0, m1, m2]
      simp
    · intro r c h0 h1 h2 h4 h5
      show z.data ![r, c] + spectralCurl2d g (fun r c => ((rfftn (k := 1) (f vx vy).1).data ![r, c], (rfftn (k := 1) (f vx vy).2).data ![r, c])) r c = 0
      unfold spectralCurl2d
      dsimp only
      rw [hzn' r c h0 h1 h2 h4 h5, n1 r c h0 h1 h2 h4 h5, n2 r c h0 h1 h2 h4 h5]
      simp

/-- One step: see `C64_circulation`. -/
theorem step_mean {g : Grid 2 ℝ} (hg : g.Proper) (he : g.shape 1 % 2 = 0) (h3 : 3 ≤ g.shape 0) (nu drag dt : ℝ) (b : Bool)
    {forcing : Option (NArr 2 ℝ → NArr 2 ℝ → NArr 2 ℝ × NArr 2 ℝ)} (hf : GoodForcing g forcing) {w : NArr 2 ℂ} (hs : w.shape = rfftShape2 g)
    (hw : NoNyquist (g.shape 0) (g.shape 1) w) :
    ∃ z, nsStep nu drag g (some b) forcing dt w = .ok z ∧ z.shape = rfftShape2 g ∧ NoNyquist (g.shape 0) (g.shape 1) z ∧
      z.data ![0, 0] = (dampingFactor drag dt : ℂ) * w.data ![0, 0] := by
  have hN0 : g.shape 0 ≠ 0 := (hg 0).1
  have hL : nsLinear nu drag g 0 0 = -(drag : ℂ) := by
    have m1 : (rfftMesh g 0 0).1 = 0 := (fftfreq_eq_zero (hg.step_pos 0) le_rfl (by omega)).2 rfl
    have m2 : (rfftMesh g 0 0).2 = 0 := (rfftfreq_eq_zero (hg.step_pos 1) (hg 1).1).2 rfl
    unfold nsLinear nsLaplace
    rw [m1, m2]
    simp
  let S : (Idx 2 → ℂ) → Prop := fun u => NoNyquist (g.shape 0) (g.shape 1) ⟨rfftShape2 g, u⟩
  have hu : S w.data := hw
  obtain ⟨z0, hz0, -⟩ := explicit_mean hg he h3 b hf hs hw
  obtain ⟨r, hr, hrS, hrφ⟩ := rk4_map S (LinearMap.proj (R := ℝ) (φ := fun _ : Idx 2 => ℂ) ![0, 0]) (fun _ _ _ _ _ _ _ => rfl)
    (fun u v h1 h2 => h1.add h2 (z := ⟨rfftShape2 g, u + v⟩) fun i => rfl)
    (fun c u h => h.mul (y := ⟨rfftShape2 g, c • u⟩) (m := fun _ _ => (c : ℂ)) fun _ _ _ _ _ _ => Complex.real_smul)
    (F := onSpectra g (nsExplicit g (some b) forcing)) (G := onSpectra g (nsImplicit nu drag g)) (Ginv := fun w h => onSpectra g (fun w => nsSolve nu drag g w h) w)
    (F' := fun _ => 0) (G' := fun m => -(drag : ℂ) * m) (Ginv' := fun m h => 1 / (1 + h * drag) * m)
    (fun u hS => by
      obtain ⟨z, e1, e2, e3, e4⟩ := explicit_mean hg he h3 b hf (w := ⟨rfftShape2 g, u⟩) rfl hS
      have : onSpectra g (nsExplicit g (some b) forcing) u = z.data := by unfold onSpectra; rw [e1]
      rw [this]
      exact ⟨e4, e3⟩)
    (fun u hS => by
      have : onSpectra g (nsImplicit nu drag g) u = fun i => nsLinear nu drag g (i 0) (i 1) * u i := by
        unfold onSpectra nsImplicit; rw [if_pos rfl]
      rw [this]
      exact ⟨hS.mul (m := fun r c => nsLinear nu drag g r c) fun _ _ _ _ _ _ => rfl, congrArg (· * u ![0, 0]) hL⟩)
    (fun u h hS => by
      have : onSpectra g (fun w => nsSolve nu drag g w h) u = fun i => 1 / (1 - h * nsLinear nu drag g (i 0) (i 1)) * u i := by
        unfold onSpectra nsSolve; beta_reduce; rw [if_pos rfl]
      rw [this]
      refine ⟨hS.mul (m := fun r c => 1 / (1 - h * nsLinear nu drag g r c)) fun _ _ _ _ _ _ => rfl, ?_⟩
      show 1 / (1 - h * nsLinear nu drag g 0 0) * u ![0, 0] = 1 / (1 + h * drag) * u ![0, 0]
      rw [hL]; ring)
    dt w.data hu
  have h4 := rk4_decay drag dt (w.data ![0, 0])
  refine ⟨⟨w.shape, r⟩, ?_, hs, hrS, Except.ok.inj (hrφ.symm.trans h4)⟩
  unfold nsStep
  rw [hz0]
  simp only [Except.bind_ok]
  rw [hr]
  rfl

/-! ### The theorems -/

/-- **C64.** The Navier-Stokes solver over any number of steps.  Start from any vorticity spectrum without Nyquist frequencies, on any
grid with at least three rows and an even number of columns, with the 2/3 filter on, any viscosity, drag and time step, and without forcing or
with any forcing that maps Nyquist-free velocity fields on the grid to such fields.  Then every step succeeds, no state ever contains Nyquist frequencies, and the
circulation (the sum of the vorticity over the grid) after `n` steps is the initial one times `dampingFactor drag dt ^ n`. -/
theorem C64_circulation {g : Grid 2 ℝ} (hg : g.Proper) (he : g.shape 1 % 2 = 0) (h3 : 3 ≤ g.shape 0) (nu drag dt : ℝ) (b : Bool)
    {forcing : Option (NArr 2 ℝ → NArr 2 ℝ → NArr 2 ℝ × NArr 2 ℝ)} (hf : GoodForcing g forcing) (w : NArr 2 ℂ) (hs : w.shape = rfftShape2 g)
    (hw : NoNyquist (g.shape 0) (g.shape 1) w) :
    ∃ x : ℕ → NArr 2 ℂ, x 0 = w ∧ (∀ n, nsStep nu drag g (some b) forcing dt (x n) = .ok (x (n + 1))) ∧
      (∀ n, (x n).shape = w.shape ∧ NoNyquist (g.shape 0) (g.shape 1) (x n)) ∧
      ∀ n, ∑ j ∈ points (g.shape 0) (g.shape 1), fieldOf (x n) j = dampingFactor drag dt ^ n * ∑ j ∈ points (g.shape 0) (g.shape 1), fieldOf w j := by
  let T := {y : NArr 2 ℂ // y.shape = rfftShape2 g ∧ NoNyquist (g.shape 0) (g.shape 1) y}
  have hstep : ∀ y : T, ∃ z : T, nsStep nu drag g (some b) forcing dt y.1 = .ok z.1 ∧ z.1.data ![0, 0] = (dampingFactor drag dt : ℂ) * y.1.data ![0, 0] := fun y => by
    obtain ⟨z, e1, e2, e3, e4⟩ := step_mean hg he h3 nu drag dt b hf y.2.1 y.2.2
    exact ⟨⟨z, e2, e3⟩, e1, e4⟩
  choose next hn1 hn2 using hstep
  let x : ℕ → T := fun n => Nat.rec ⟨w, hs, hw⟩ (fun _ y => next y) n
  refine ⟨fun n => (x n).1, rfl, fun n => hn1 (x n), fun n => ⟨(x n).2.1.trans hs.symm, (x n).2.2⟩, fun n => ?_⟩
  beta_reduce
  rw [sum_field hg he (x n).2.1 (x n).2.2, sum_field hg he hs hw]
  have : (x n).1.data ![0, 0] = ((dampingFactor drag dt ^ n : ℝ) : ℂ) * w.data ![0, 0] := by
    induction n with
    | zero => simp [x]
    | succ n ih =>
      show (next (x n)).1.data ![0, 0] = _
      rw [hn2, ih, pow_succ]
      push_cast
      ring
  rw [this, Complex.re_ofReal_mul]

/-- **C64.** Without drag the circulation is conserved; with drag it never grows in absolute value (drag and time step nonnegative). -/
theorem C64_damping (dt : ℝ) : dampingFactor 0 dt = 1 ∧ ∀ drag, 0 ≤ drag → 0 ≤ dt → |dampingFactor drag dt| ≤ 1 :=
  ⟨dampingFactor_zero dt, fun _ h1 h2 => dampingFactor_abs h1 h2⟩

/-- **C64.** `modular_spectral_step_fn`: without the filter step it is the step of the solver; with it, on an `n × n` grid (`n ≥ 4` even), the
result is again a Nyquist-free spectrum, the spectrum of the field of the solver's step with mode `k` damped by
`(10⁻⁶) ^ (|k/n|²)²`, and with the same circulation as without the filter. -/
theorem C64_filter_step {g : Grid 2 ℝ} (hg : g.Proper) {n : ℕ} (hn : ∀ a, g.shape a = n) (he : n % 2 = 0) (h4 : 3 ≤ n) (nu drag dt : ℝ) (b : Bool)
    {forcing : Option (NArr 2 ℝ → NArr 2 ℝ → NArr 2 ℝ × NArr 2 ℝ)} (hf : GoodForcing g forcing) (w : NArr 2 ℂ) (hs : w.shape = rfftShape2 g)
    (hw : NoNyquist n n w) :
    ∃ x, nsStep nu drag g (some b) forcing dt w = .ok x ∧ modularSpectralStep nu drag g (some b) forcing false dt w = .ok x ∧
      ∃ z, modularSpectralStep nu drag g (some b) forcing true dt w = .ok z ∧ z.shape = w.shape ∧ NoNyquist n n z ∧
        (∀ i : Idx 2, InR w.shape i → z.data i = (((1 / 10 ^ 6 : ℝ) ^ (frequencySq n i ^ 2) : ℝ) : ℂ) * (rfftn (k := 1) (irfftn (k := 1) x)).data i) ∧
        ∑ j ∈ points n n, fieldOf z j = ∑ j ∈ points n n, fieldOf x j := by
  have hwg : NoNyquist (g.shape 0) (g.shape 1) w := by rw [hn, hn]; exact hw
  have heg : g.shape 1 % 2 = 0 := by rw [hn]; exact he
  obtain ⟨x, hx, hxs, hxn, -⟩ := step_mean hg heg (by rw [hn]; exact h4) nu drag dt b hf hs hwg
  obtain ⟨hfs, hfv⟩ := rfftn_field hg heg hxs hxn
  have hsq : (irfftn (k := 1) x).shape = fun _ => n := by rw [hfs]; funext a; exact hn a
  obtain ⟨y, hy, hys, hyk⟩ := C64_exponential_filter (alpha := 1 / 10 ^ 6) (by norm_num) 2 he (by omega) (irfftn (k := 1) x) hsq
  have hsum := C64_exponential_filter_mean (alpha := 1 / 10 ^ 6) (by norm_num) 2 (by norm_num) he (by omega) (irfftn (k := 1) x) y hsq hy
  have hyg : y.shape = g.shape := hys.trans hfs
  have hyM : y.shape (Fin.last 1) % 2 = 0 := by rw [hyg]; exact heg
  have hzs : (rfftn (k := 1) y).shape = rfftShape2 g := ML.rfftn_grid_shape hyg
  have hspec : ∀ u : NArr 2 ℝ, spectrum u = (rfftn (k := 1) u).data := fun u => by
    funext k
    unfold spectrum
    rw [fftn_eq]
    rfl
  have hmode : ∀ i : Idx 2, InR (rfftShape2 g) i → (rfftn (k := 1) y).data i =
      (((1 / 10 ^ 6 : ℝ) ^ (frequencySq n i ^ 2) : ℝ) : ℂ) * (rfftn (k := 1) (irfftn (k := 1) x)).data i := fun i hi => by
    rw [← hspec, ← hspec]
    obtain ⟨⟨a1, a2⟩, a3, a4⟩ := ML.half_mem.1 hi
    refine hyk i ?_
    rw [hfs]
    intro a
    have hh := hn 1
    fin_cases a
    · exact ⟨a1, a2⟩
    · refine ⟨a3, ?_⟩
      show i 1 < g.shape 1
      omega
  have hzn : NoNyquist n n (rfftn (k := 1) y) := by
    intro r c h0 h1 h2 h3 h5
    have hh0 := hn 0
    have hh1 := hn 1
    have hmem : InR (rfftShape2 g) ![r, c] := ML.half_mem.2 ⟨⟨h0, show r < g.shape 0 by omega⟩, h2, show c ≤ (g.shape 1 / 2 : ℕ) by omega⟩
    rw [hmode _ hmem, hfv r c h0 (by omega) h2 (by omega)]
    have hx0 := hxn r c h0 (by omega) h2 (by omega) (by omega)
    split_ifs with hc
    · subst hc
      have hr : 2 * r = n := by omega
      have hr' : (-r) % (g.shape 0 : ℤ) = r := by
        have e : -r = r - (g.shape 0 : ℤ) := by omega
        rw [e, Int.sub_emod_right, Int.emod_eq_of_lt h0 (by omega)]
      rw [hr', hx0]
      simp
    · rw [hx0, mul_zero]
  refine ⟨x, hx, ?_, rfftn (k := 1) y, ?_, hzs.trans hs.symm, hzn, fun i hi => hmode i (by rw [← hs]; exact hi), ?_⟩
  · unfold modularSpectralStep
    rw [hx]
    rfl
  · unfold modularSpectralStep
    rw [hx]
    simp only [Except.bind_ok, if_true]
    rw [hy]
    rfl
  · have hback := irfftn_rfftn (k := 1) y hyM
    have e1 := sum_points g (irfftn (k := 1) (rfftn (k := 1) y)).data
    have e2 := sum_points g (irfftn (k := 1) x).data
    rw [hn, hn] at e1 e2
    unfold fieldOf
    rw [e1, e2]
    unfold NArr.sum at hsum
    rw [hys, hfs] at hsum
    rw [← hsum]
    refine Finset.sum_congr rfl fun i hi => hback.2 i ?_
    rw [hback.1, hyg]
    exact inr_of_mem_box hi

/-- Non-vacuity: a wave on a mean vorticity on the 4 × 4 grid, with a linear forcing. -/
example : NoNyquist 4 4 ⟨![4, 3], fun i => if i = ![1, 1] then 1 else if i = ![0, 0] then 5 else 0⟩ ∧
    GoodForcing ML.unitGrid4 (some fun u v => (u.map (3 * ·), v.map (3 * ·))) := by
  have hlin : ∀ u : NArr 2 ℝ, u.shape = ML.unitGrid4.shape → ML.NyquistFree ML.unitGrid4 u → ML.NyquistFree ML.unitGrid4 (u.map (3 * ·)) := by
    intro u hu h r c h0 h1 h2 h3 h4
    have hsh : u.shape = ![4, 4] := by
      rw [hu]
      funext b
      fin_cases b <;> rfl
    have := h r c h0 h1 h2 h3 h4
    rw [rfftn2 hsh] at this
    rw [rfftn2 (x := u.map (3 * ·)) hsh]
    have e : ∀ j ∈ points 4 4, ((((u.map (3 * ·)).data ![j.1, j.2] : ℝ) : ℂ)) * (starRingEnd ℂ) (wave2 4 4 ((![r, c] : Idx 2) 0, (![r, c] : Idx 2) 1) j) =
        3 * ((u.data ![j.1, j.2] : ℂ) * (starRingEnd ℂ) (wave2 4 4 ((![r, c] : Idx 2) 0, (![r, c] : Idx 2) 1) j)) := fun j _ => by
      show (((3 * u.data ![j.1, j.2] : ℝ)) : ℂ) * _ = _
      push_cast
      ring
    rw [Finset.sum_congr rfl e, ← Finset.mul_sum, this, mul_zero]
  constructor
  · intro r c h0 h1 h2 h3 h4
    have e1 : (![r, c] : Idx 2) ≠ ![1, 1] := fun h => by
      have a := congrFun h 0
      have b := congrFun h 1
      simp at a b
      omega
    have e2 : (![r, c] : Idx 2) ≠ ![0, 0] := fun h => by
      have a := congrFun h 0
      have b := congrFun h 1
      simp at a b
      omega
    dsimp only
    rw [if_neg e1, if_neg e2]
  · intro f hf u v hu hv hun hvn
    injection hf with hf
    subst hf
    exact ⟨⟨hu, hv⟩, hlin u hu hun, hlin v hv hvn⟩

end JaxCfd
