import Verif.Props.Circulation
import Verif.Props.VorticityForcing

/-!
# C64: the scheme of the spectral step, and the velocity the forcings see
-/

namespace JaxCfd

/-- `C39_low_storage` for a solver that only has to work at the parameters of the stages. -/
theorem low_storage_stages {K V : Type} [Field K] [LinearOrder K] [IsStrictOrderedRing K] [AddCommGroup V] [Module K V] (α β γ : List K)
    (ha : α.length = β.length + 1) (hc : γ.length = β.length) (F G : V → V) (Ginv : V → K → V) (dt : K)
    (hG : ∀ k < β.length, ∀ x, Ginv x (dt * (α.getD (k + 1) 0 - α.getD k 0) / 2) -
      (dt * (α.getD (k + 1) 0 - α.getD k 0) / 2) • G (Ginv x (dt * (α.getD (k + 1) 0 - α.getD k 0) / 2)) = x) (u0 : V) :
    ∃ u h : ℕ → V, u 0 = u0 ∧ lowStorageRKCN α β γ F G Ginv dt u0 = .ok (u β.length) ∧
      (0 < β.length → h 0 = F u0) ∧ (∀ k, k + 1 < β.length → h (k + 1) = F (u (k + 1)) + β.getD (k + 1) 0 • h k) ∧
      ∀ k < β.length, u (k + 1) = u k + (γ.getD k 0 * dt) • h k +
        (dt * (α.getD (k + 1) 0 - α.getD k 0) / 2) • (G (u k) + G (u (k + 1))) :=
  C39_low_storage α β γ ha hc F G Ginv dt hG u0

/-- The multipliers of the previous slope in the stages of `crank_nicolson_rk4` (zero for the first). -/
noncomputable def rk4Memory : Fin 5 → ℝ := ![0, -0.4178904745, -1.192151694643, -1.697784692471, -1.514183444257]

/-- The weights of the slopes in the stages of `crank_nicolson_rk4`. -/
noncomputable def rk4Weights : Fin 5 → ℝ := ![0.1496590219993, 0.3792103129999, 0.8229550293869, 0.6994504559488, 0.1530572479681]

/-- A forcing that returns components on the grid for velocities on the grid. -/
def GridForcing (g : Grid 2 ℝ) (forcing : Option (NArr 2 ℝ → NArr 2 ℝ → NArr 2 ℝ × NArr 2 ℝ)) : Prop :=
  ∀ f, forcing = some f → ∀ u v : NArr 2 ℝ, u.shape = g.shape → v.shape = g.shape → (f u v).1.shape = g.shape ∧ (f u v).2.shape = g.shape

theorem nsAdvection_shape {g : Grid 2 ℝ} (he : g.shape 1 % 2 = 0) (smooth : Option Bool) {w : NArr 2 ℂ} (hs : w.shape = rfftShape2 g) :
    ∃ z, nsAdvection g smooth w = .ok z ∧ z.shape = rfftShape2 g := by
  unfold nsAdvection
  rw [if_neg (by rw [hs]; simp)]
  dsimp only
  have e : ∀ x : NArr 2 ℂ, x.shape = w.shape → (irfftn (k := 1) x).shape = g.shape := fun x hx =>
    (irfftn2_shape he (hx.trans hs)).trans (shape2 g)
  have hh : ∀ d : Idx 2 → ℝ, (rfftn (k := 1) ⟨(irfftn (k := 1) ⟨w.shape, fun i => (vorticityToVelocity g (fun r c => w.data ![r, c]) (i 0) (i 1)).1⟩).shape, d⟩).shape =
      rfftShape2 g := fun d => ML.rfftn_grid_shape (e _ rfl)
  cases smooth with
  | none => exact ⟨_, rfl, hh _⟩
  | some b => exact ⟨_, if_pos (hh _), hh _⟩

theorem nsExplicit_shape {g : Grid 2 ℝ} (he : g.shape 1 % 2 = 0) (smooth : Option Bool)
    {forcing : Option (NArr 2 ℝ → NArr 2 ℝ → NArr 2 ℝ × NArr 2 ℝ)} (hf : GridForcing g forcing) {w : NArr 2 ℂ} (hs : w.shape = rfftShape2 g) :
    ∃ z, nsExplicit g smooth forcing w = .ok z ∧ z.shape = rfftShape2 g := by
  obtain ⟨z, hz, hzs⟩ := nsAdvection_shape he smooth hs
  unfold nsExplicit
  rw [hz]
  cases hfo : forcing with
  | none => exact ⟨z, rfl, hzs⟩
  | some f =>
    simp only [Except.bind_ok]
    set vx := irfftn (k := 1) (velocitySpectrum g w).1 with hvx
    set vy := irfftn (k := 1) (velocitySpectrum g w).2 with hvy
    have sx : vx.shape = g.shape := (irfftn2_shape he (x := (velocitySpectrum g w).1) hs).trans (shape2 g)
    have sy : vy.shape = g.shape := (irfftn2_shape he (x := (velocitySpectrum g w).2) hs).trans (shape2 g)
    obtain ⟨f1, f2⟩ := hf f hfo vx vy sx sy
    have e1 : (rfftn (k := 1) (f vx vy).1).shape = rfftShape2 g := ML.rfftn_grid_shape f1
    have e2 : (rfftn (k := 1) (f vx vy).2).shape = rfftShape2 g := ML.rfftn_grid_shape f2
    have hif : ¬ ((rfftn (k := 1) (f vx vy).1).shape ≠ z.shape ∨ (rfftn (k := 1) (f vx vy).2).shape ≠ z.shape ∨ z.shape ≠ rfftShape2 g) := by
      rw [e1, e2, hzs]; simp
    exact ⟨_, if_neg hif, hzs⟩

/-- **C64.** One step of `modular_spectral_step_fn` without the filter: for nonnegative `dt`, viscosity and drag, any forcing on the grid and any
vorticity spectrum, the step succeeds and is the low-storage scheme of the paper for the explicit terms `F` (advection and forcing) and the
implicit terms `G` (viscosity and drag) of the equation: slopes `h 0 = F(w)`, `h k = F(u k) + β_k h (k-1)`, and five Crank-Nicolson stages
`u (k+1) = u k + γ_k dt h k + dt a_k / 2 (G(u k) + G(u (k+1)))` over the fractions `a_k` of the step. -/
theorem C64_ns_step {g : Grid 2 ℝ} (he : g.shape 1 % 2 = 0) (nu drag dt : ℝ) (hnu : 0 ≤ nu) (hdrag : 0 ≤ drag) (hdt : 0 ≤ dt) (smooth : Option Bool)
    (forcing : Option (NArr 2 ℝ → NArr 2 ℝ → NArr 2 ℝ × NArr 2 ℝ)) (hf : GridForcing g forcing) (w : NArr 2 ℂ) (hs : w.shape = rfftShape2 g) :
    ∃ (z : NArr 2 ℂ) (u F G : ℕ → NArr 2 ℂ) (h : ℕ → Idx 2 → ℂ), modularSpectralStep nu drag g smooth forcing false dt w = .ok z ∧ z.shape = rfftShape2 g ∧ u 0 = w ∧ z = u 5 ∧
      (∀ k, nsExplicit g smooth forcing (u k) = .ok (F k) ∧ nsImplicit nu drag g (u k) = .ok (G k)) ∧ h 0 = (F 0).data ∧
      (∀ k : Fin 4, ∀ i, h (k + 1) i = (F (k + 1)).data i + rk4Memory k.succ * h k i) ∧
      ∀ k : Fin 5, ∀ i, (u (k + 1)).data i = (u k).data i + dt * rk4Weights k * h k i +
        dt * rk4Fractions k / 2 * ((G k).data i + (G (k + 1)).data i) := by
  have hE := fun u : Idx 2 → ℂ => nsExplicit_shape he smooth hf (w := ⟨rfftShape2 g, u⟩) rfl
  have hI : ∀ u : Idx 2 → ℂ, nsImplicit nu drag g ⟨rfftShape2 g, u⟩ = .ok ⟨rfftShape2 g, fun i => nsLinear nu drag g (i 0) (i 1) * u i⟩ := fun u => if_pos rfl
  choose F hF hFs using hE
  have eF : ∀ u, onSpectra g (nsExplicit g smooth forcing) u = (F u).data := fun u => by unfold onSpectra; rw [hF]
  have eG : ∀ u, onSpectra g (nsImplicit nu drag g) u = fun i => nsLinear nu drag g (i 0) (i 1) * u i := fun u => by unfold onSpectra; rw [hI]
  have hw : w = ⟨rfftShape2 g, w.data⟩ := by rw [← hs]
  have hsol : ∀ μ : ℝ, 0 ≤ μ → ∀ x : Idx 2 → ℂ, onSpectra g (fun w => nsSolve nu drag g w μ) x -
      μ • onSpectra g (nsImplicit nu drag g) (onSpectra g (fun w => nsSolve nu drag g w μ) x) = x := by
    intro μ hμ x
    obtain ⟨y, hy, hys, -, z, hz, hyz⟩ := C48_ns_solve g nu drag μ hnu hdrag hμ ⟨rfftShape2 g, x⟩ rfl
    have e1 : onSpectra g (fun w => nsSolve nu drag g w μ) x = y.data := by unfold onSpectra; beta_reduce; rw [hy]
    have ey : y = ⟨rfftShape2 g, y.data⟩ := by
      have : y.shape = rfftShape2 g := hys
      rw [← this]
    have e2 : onSpectra g (nsImplicit nu drag g) y.data = z.data := by
      unfold onSpectra
      rw [← ey, hz]
    rw [e1, e2]
    funext i
    refine Eq.trans ?_ (hyz i)
    simp
  have hmu : ∀ k : Fin 5, 0 ≤ dt * rk4Fractions k / 2 := fun k => by
    have : 0 ≤ rk4Fractions k := by
      unfold rk4Fractions
      fin_cases k <;> norm_num
    positivity
  obtain ⟨u, h, hu0, hr, hh0, hh, hu⟩ := low_storage_stages (K := ℝ) (V := Idx 2 → ℂ)
    [0, 1496590219993 / 10000000000000, 3704009573644 / 10000000000000, 6222557631345 / 10000000000000,
      9582821306748 / 10000000000000, 1]
    [0, -4178904745 / 10000000000, -1192151694643 / 1000000000000, -1697784692471 / 1000000000000,
      -1514183444257 / 1000000000000]
    [1496590219993 / 10000000000000, 3792103129999 / 10000000000000, 8229550293869 / 10000000000000,
      6994504559488 / 10000000000000, 1530572479681 / 10000000000000] (by rfl) (by rfl)
    (onSpectra g (nsExplicit g smooth forcing)) (onSpectra g (nsImplicit nu drag g)) (fun w h => onSpectra g (fun w => nsSolve nu drag g w h) w) dt
    (fun k hk x => by
      have hk' : k < 5 := hk
      refine hsol _ ?_ x
      have := hmu ⟨k, hk'⟩
      unfold rk4Fractions at this
      interval_cases k <;> norm_num at this ⊢ <;> linarith) w.data
  have hstep : modularSpectralStep nu drag g smooth forcing false dt w = .ok ⟨rfftShape2 g, u 5⟩ := by
    unfold modularSpectralStep nsStep crankNicolsonRK4
    rw [hr, hw, hF]
    rfl
  refine ⟨_, fun k => ⟨rfftShape2 g, u k⟩, fun k => F (u k), fun k => ⟨rfftShape2 g, fun i => nsLinear nu drag g (i 0) (i 1) * u k i⟩, h, hstep, rfl, ?_, rfl, fun k => ⟨hF _, hI _⟩, ?_, ?_, ?_⟩
  · show (⟨rfftShape2 g, u 0⟩ : NArr 2 ℂ) = w
    rw [hu0, ← hw]
  · rw [hh0 (by norm_num), eF]
    beta_reduce
    rw [hu0]
  · intro k i
    have e := congrFun (hh k (by have := k.2; simp; omega)) i
    rw [eF] at e
    refine e.trans ?_
    rw [Pi.add_apply, Pi.smul_apply, Complex.real_smul]
    congr 3
    unfold rk4Memory
    fin_cases k <;> norm_num [Fin.succ]
  · intro k i
    have e := congrFun (hu k (by have := k.2; simp)) i
    have e1 : ([1496590219993 / 10000000000000, 3792103129999 / 10000000000000, 8229550293869 / 10000000000000,
      6994504559488 / 10000000000000, 1530572479681 / 10000000000000] : List ℝ).getD k 0 = rk4Weights k := by
      unfold rk4Weights
      fin_cases k <;> norm_num
    have e2 : ([0, 1496590219993 / 10000000000000, 3704009573644 / 10000000000000, 6222557631345 / 10000000000000,
      9582821306748 / 10000000000000, 1] : List ℝ).getD (k + 1) 0 - ([0, 1496590219993 / 10000000000000, 3704009573644 / 10000000000000, 6222557631345 / 10000000000000,
      9582821306748 / 10000000000000, 1] : List ℝ).getD k 0 = rk4Fractions k := by
      unfold rk4Fractions
      fin_cases k <;> norm_num
    rw [e1, e2, eG, eG] at e
    refine e.trans ?_
    simp only [Pi.add_apply, Pi.smul_apply, Complex.real_smul]
    push_cast
    ring

/-! ### The velocity the forcings see -/

/-- **C64.** The velocity at which `vorticity_space_forcing` evaluates the forcing, for a vorticity `ω` on the grid without Nyquist frequencies:
both components are on the grid at offset `(0, 0)` with periodic boundary conditions; the velocity has mean zero, it is divergence free, and its
curl is `ω` (mode by mode, except the mean of `ω`, which no periodic velocity has). -/
theorem C64_forcing_velocity {g : Grid 2 ℝ} (hg : g.Proper) (he : g.shape 1 % 2 = 0) (ω : NArr 2 ℝ) (hω : ω.shape = g.shape) (hn : ML.NyquistFree g ω) :
    let v := spectralVelocity g (rfftn (k := 1) ω)
    (∀ a, (v a).array.offset = (fun _ => 0) ∧ (v a).array.grid = g ∧ (v a).bc = periodicBC 2 ∧ (v a).array.shape = g.shape ∧ ∑ i ∈ box g.shape, (v a).array.data i = 0) ∧
      ∀ r c : ℤ, 0 ≤ r → r < g.shape 0 → 0 ≤ c → c ≤ (g.shape 1 / 2 : ℕ) →
        waveX g (centred (g.shape 0) r, c) * (rfftn (k := 1) (v 0).array.toNArr).data ![r, c] +
          waveY g (centred (g.shape 0) r, c) * (rfftn (k := 1) (v 1).array.toNArr).data ![r, c] = 0 ∧
        Complex.I * waveX g (centred (g.shape 0) r, c) * (rfftn (k := 1) (v 1).array.toNArr).data ![r, c] -
          Complex.I * waveY g (centred (g.shape 0) r, c) * (rfftn (k := 1) (v 0).array.toNArr).data ![r, c] =
            if r = 0 ∧ c = 0 then 0 else (rfftn (k := 1) ω).data ![r, c] := by
  intro v
  obtain ⟨p, hp, ⟨hp1, hp2⟩, hd1, hd2⟩ := ML.decoder_field g hg he ω hω hn
  have hs := ML.rfftn_grid_shape hω
  have hp0 : ML.spectralVorticityDecoder g (rfftn (k := 1) ω) = .ok ((v 0).array.toNArr, (v 1).array.toNArr) := if_pos hs
  have hpv : p = ((v 0).array.toNArr, (v 1).array.toNArr) := Except.ok.inj (hp.symm.trans hp0)
  obtain ⟨hsol, ⟨hm0, hm1⟩, -⟩ := ML.C61_decoder_solenoidal g hg he ω hω hn p hp
  rw [hpv] at hp1 hp2 hd1 hd2 hsol hm0 hm1
  dsimp only at hp1 hp2 hd1 hd2 hsol hm0 hm1
  refine ⟨fun a => ?_, fun r c h0 h1 h2 h3 => ?_⟩
  · fin_cases a
    · exact ⟨rfl, rfl, rfl, hp1, hm0⟩
    · exact ⟨rfl, rfl, rfl, hp2, hm1⟩
  · have hmem : InR (rfftShape2 g) ![r, c] := ML.half_mem.2 ⟨⟨h0, h1⟩, h2, h3⟩
    have hx := deriv_x hg r c h0 h1
    have hy := deriv_y hg r c
    constructor
    · have h := hsol r c h0 h1 h2 h3
      refine mul_left_cancel₀ Complex.I_ne_zero ?_
      rw [mul_zero, mul_add, ← mul_assoc, ← mul_assoc, ← hx, ← hy]
      linear_combination twoPiI * h
    · have hc := C47_curl g hg (fun r c => (rfftn (k := 1) ω).data ![r, c]) r c h0 h1
      rw [← hc, ← hx, ← hy, hd1 _ hmem, hd2 _ hmem]
      unfold spectralCurl2d
      simp only [Matrix.cons_val_zero, Matrix.cons_val_one]
      ring

/-- **C64.** `spectral_kolmogorov_forcing` is the constant force `sin(4 y)` along the first axis at the grid points (offset `(0, 0)`), whatever
the velocity. -/
theorem C64_spectral_kolmogorov (g : Grid 2 ℝ) :
    ∃ F, spectralKolmogorovForcing g = .ok F ∧ ∃ f, (∀ v, F v = .ok f) ∧ (∀ a, (f a).shape = g.shape) ∧ (f 0).offset = (fun _ => 0) ∧
      (∀ i, (f 1).data i = 0) ∧ ∀ i : Idx 2, InR g.shape i → (f 0).data i = Real.sin (4 * ((g.domain 1).1 + i 1 * g.step 1)) := by
  obtain ⟨F, hF, f, hf, hs, ho, -, hz, hd⟩ := kolmogorov_zero_offsets g 1 4 false
  unfold mlKolmogorovForcing at hF
  obtain ⟨K, hK, h2⟩ := Except.bind_eq_ok.1 hF
  rw [if_neg (by simp)] at h2
  have e : K = F := Except.ok.inj h2
  refine ⟨F, by rw [← e]; exact hK, f, hf, hs, ho, hz, fun i hi => ?_⟩
  have := hd i hi
  simpa using this

/-- Non-vacuity: one step with the constant force `(1, 0)` on the 4 × 4 grid. -/
example : ∃ z, modularSpectralStep 1 0 ML.unitGrid4 (some true) (some fun u v => (⟨u.shape, fun _ => 1⟩, ⟨v.shape, fun _ => 0⟩)) false (1 / 10)
    ⟨rfftShape2 ML.unitGrid4, fun _ => 1⟩ = .ok z := by
  obtain ⟨z, -, -, -, -, h, -⟩ := C64_ns_step (g := ML.unitGrid4) (by norm_num [ML.unitGrid4]) 1 0 (1 / 10) (by norm_num) le_rfl (by norm_num) (some true)
    (some fun u v => (⟨u.shape, fun _ => 1⟩, ⟨v.shape, fun _ => 0⟩)) (fun f hf u v hu hv => by
      have := Option.some.inj hf
      subst this
      exact ⟨hu, hv⟩) ⟨rfftShape2 ML.unitGrid4, fun _ => 1⟩ rfl
  exact ⟨z, h⟩

end JaxCfd
