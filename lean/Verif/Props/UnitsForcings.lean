import Verif.Props.UnitsSteps
import Verif.Props.Forcings
import Verif.Props.SubgridStep

/-!
# C77: no hidden units — forcings, filters and eddy viscosity
-/

namespace JaxCfd
variable {d : ℕ} {l m τ n : ℝ}

/-! ## Forcings -/

/-- **C77** Linear forcing: the coefficient is in units of the forcing over those of the velocity. -/
theorem C77_linear_forcing (n : ℝ) (c : ℝ) : TendencyUnitsCommute (d := d) l τ (n * (l / τ)) (fun _ => True) (linearForcing c) (linearForcing (n * c)) :=
  fun u u' _ h => RelS.ok fun a => (h a).2.2.gmap fun x => by ring

/-- **C77** No forcing, in any units. -/
theorem C77_no_forcing (n : ℝ) : TendencyUnitsCommute (d := d) l τ n (fun _ => True) noForcing noForcing :=
  fun u u' _ h => RelS.ok fun a => (h a).2.2.gmap fun x => by ring

/-- **C77** Sums of forcings. -/
theorem C77_sum_forcings (Adm : (Fin d → GridVariable d ℝ) → Prop) {fs fs' : List (ForcingFn d)} (h : List.Forall₂ (TendencyUnitsCommute l τ n Adm) fs fs') :
    TendencyUnitsCommute l τ n Adm (sumForcings fs) (sumForcings fs') := by
  intro u u' hu huu
  unfold sumForcings
  refine RelS.bind (R := List.Forall₂ fun u v : Fin d → GridArray d ℝ => ∀ a, (u a).InUnits l n (v a)) ?_ fun r s hrs => sumFields_inUnits hrs
  induction h with
  | nil => exact RelS.ok .nil
  | cons hab _ ih =>
    rw [List.mapM_cons, List.mapM_cons]
    exact RelS.bind (hab u u' hu huu) fun x x' hx => RelS.bind ih fun xs xs' hxs => RelS.ok (.cons hx hxs)

theorem sineArray_inUnits (hl : l ≠ 0) (g : Grid d ℝ) (n scale k : ℝ) (o : Fin d → ℚ) (along : Fin d) :
    RelS (GridArray.InUnits l n) (sineArray g scale k o along) (sineArray (g.inUnits l) (n * scale) (k / l) o along) := by
  intro u hu
  obtain ⟨u', e, h1, h2, h3, h4⟩ := sineArray_ok g scale k o along
  obtain ⟨v, f, k1, k2, k3, k4⟩ := sineArray_ok (g.inUnits l) (n * scale) (k / l) o along
  rw [e] at hu
  obtain rfl := Except.ok.inj hu
  refine ⟨v, f, k1.trans h1.symm, by rw [k2, h2], k3.trans h3.symm, fun i hi => ?_⟩
  rw [h3] at hi
  rw [k4 i hi, h4 i hi]
  have : k / l * coord v along i = k * coord u' along i := by
    unfold coord
    rw [k1, k2, h1, h2, Grid.inUnits_step]
    show k / l * (l * (g.domain along).1 + ((i along : ℝ) + ((o along : ℚ) : ℝ)) * (l * g.step along)) = _
    field_simp
  rw [this]
  ring

/-- **C77** Kolmogorov forcing: the wavenumber is in inverse lengths. -/
theorem C77_kolmogorov (hl : l ≠ 0) (g : Grid d ℝ) (n scale k : ℝ) (swap : Bool) (offsets : Option (Fin d → Fin d → ℚ)) :
    RelS (TendencyUnitsCommute l τ n fun _ => True) (kolmogorovForcing g scale k swap offsets) (kolmogorovForcing (g.inUnits l) (n * scale) (k / l) swap offsets) := by
  unfold kolmogorovForcing
  split
  · exact RelS.error _ _
  · refine RelS.bind (sineArray_inUnits hl g n scale k _ _) fun u v huv => ?_
    split
    · exact RelS.error _ _
    · refine RelS.ok fun _ _ _ _ => RelS.ok fun a => ?_
      by_cases h : a = ⟨if swap then 1 else 0, by split <;> omega⟩
      · rw [if_pos h, if_pos h]; exact huv
      · rw [if_neg h, if_neg h]
        exact ⟨rfl, rfl, huv.shape, fun _ _ => (mul_zero _).symm⟩

/-- **C77** `simple_turbulence_forcing` of the Kolmogorov type; the linear coefficient is in units of the forcing over those of the velocity.
(The Taylor-Green type ignores the domain of the grid and does have a hidden unit of length.) -/
theorem C77_simple_turbulence (hl : 0 < l) (hτ : 0 < τ) (g : Grid d ℝ) (n magnitude k c : ℝ) :
    RelS (TendencyUnitsCommute l τ n fun _ => True) (simpleTurbulenceForcing g magnitude k c "kolmogorov") (simpleTurbulenceForcing (g.inUnits l) (n * magnitude) (k / l) (n / (l / τ) * c) "kolmogorov") := by
  unfold simpleTurbulenceForcing
  rw [if_pos rfl, if_pos rfl]
  refine RelS.bind (C77_kolmogorov hl.ne' g n magnitude k false none) fun F F' hF => RelS.ok (C77_sum_forcings _ (.cons ?_ (.cons hF .nil)))
  have := C77_linear_forcing (d := d) (l := l) (τ := τ) (n / (l / τ)) c
  rwa [div_mul_cancel₀ _ (div_pos hl hτ).ne'] at this

/-! ## Spectral filters -/

theorem angularMagnitude_inUnits (hl : 0 < l) (g : Grid d ℝ) (k : Idx d) : angularMagnitude (g.inUnits l) k = angularMagnitude g k / l := by
  unfold angularMagnitude
  have : ∀ a, 2 * Real.pi * fftfreq ((g.inUnits l).shape a) ((g.inUnits l).step a) (k a) = (2 * Real.pi * fftfreq (g.shape a) (g.step a) (k a)) / l := fun a => by
    have := hl.ne'
    unfold fftfreq
    rw [Grid.inUnits_step]
    show 2 * Real.pi * (_ / (((g.shape a : ℕ) : ℝ) * (l * g.step a))) = _
    rw [mul_left_comm, ← mul_div_assoc, ← mul_div_assoc, div_div, mul_comm l]
    rfl
  simp only [this, div_pow, ← Finset.sum_div]
  rw [Real.sqrt_div' _ (sq_nonneg l), Real.sqrt_sq hl.le]

theorem spectralFilter_inUnits (hl : 0 < l) (n : ℝ) {D D' : ℝ → ℝ} (hD : ∀ k, 0 < k → D' (k / l) = n * D k) {x y : NArr d ℝ} (h : x.Scaled m y) (g : Grid d ℝ) :
    RelS (NArr.Scaled (n * m)) (spectralFilter D x g) (spectralFilter D' y (g.inUnits l)) := by
  unfold spectralFilter
  split
  · exact RelS.error _ _
  · rw [show (g.inUnits l).shape = g.shape from rfl, h.1]
    split
    · exact RelS.error _ _
    · refine RelS.ok ⟨rfl, fun i hi => ?_⟩
      replace hi : InR x.shape i := hi
      have hgain : ∀ k, filterGain D' (g.inUnits l) k = n * filterGain D g k := fun k => by
        unfold filterGain
        rw [angularMagnitude_inUnits hl]
        by_cases h0 : 0 < angularMagnitude g k
        · rw [if_pos h0, if_pos (div_pos h0 hl), hD _ h0]
        · rw [if_neg h0, if_neg (fun h1 => h0 ((div_pos_iff_of_pos_right hl).1 h1)), mul_zero]
      have e1 : ∀ i : Idx d, InR x.shape i → (fftn (y.map fun r : ℝ => (r : ℂ))).data i = (m : ℂ) * (fftn (x.map fun r : ℝ => (r : ℂ))).data i := fun i hi => by
        have := axesOp_congr (s := x.shape) (fun a => fftKernel (x.shape a)) (List.finRange d) (x := (y.map fun r : ℝ => (r : ℂ)).data) (y := fun i => (m : ℂ) * (x.map fun r : ℝ => (r : ℂ)).data i)
          (fun i hi => by show ((y.data i : ℝ) : ℂ) = _; rw [h.2 i hi]; push_cast; rfl) i hi
        rw [axesOp_smul] at this
        unfold fftn
        rw [show (y.map fun r : ℝ => (r : ℂ)).shape = x.shape from h.1]
        exact this
      have e2 := axesOp_congr (s := x.shape) (fun a => ifftKernel (x.shape a)) (List.finRange d) (x := fun k => (fftn (y.map fun r : ℝ => (r : ℂ))).data k * (filterGain D' (g.inUnits l) k : ℂ))
        (y := fun k => ((n * m : ℝ) : ℂ) * ((fftn (x.map fun r : ℝ => (r : ℂ))).data k * (filterGain D g k : ℂ))) (fun i hi => by
          beta_reduce
          rw [e1 i hi, hgain]
          push_cast
          ring) i hi
      rw [axesOp_smul] at e2
      have e3 := congrArg Complex.re e2
      rw [Complex.re_ofReal_mul] at e3
      exact e3

/-- **C77** Filtered forcing: the spectral density is a function of the wavenumber, so in the other units it is `k ↦ n D(l k)`. -/
theorem C77_filtered_forcing (hl : 0 < l) (n : ℝ) {D D' : ℝ → ℝ} (hD : ∀ k, 0 < k → D' (k / l) = n * D k) (g : Grid d ℝ) :
    TendencyUnitsCommute l τ (n * (l / τ)) (fun _ => True) (filteredForcing D g) (filteredForcing D' (g.inUnits l)) := by
  intro u u' _ h
  refine RelS.seq (R := fun _ => GridArray.InUnits l (n * (l / τ))) fun a => ?_
  exact RelS.bind (spectralFilter_inUnits hl n hD (h a).2.2.2.2 g) fun x y hxy => RelS.ok ⟨(h a).2.2.offset, (h a).2.2.grid, hxy⟩

/-- **C77** Filtered linear forcing: the limits of the band are in inverse lengths. -/
theorem C77_filtered_linear_forcing (hl : 0 < l) (n lower upper c : ℝ) (g : Grid d ℝ) :
    TendencyUnitsCommute l τ (n * (l / τ)) (fun _ => True) (filteredLinearForcing lower upper c g) (filteredLinearForcing (lower / l) (upper / l) (n * c) (g.inUnits l)) := by
  refine C77_filtered_forcing hl n (fun k _ => ?_) g
  have e : (2 * Real.pi * (lower / l) ≤ k / l ∧ k / l ≤ 2 * Real.pi * (upper / l)) ↔ (2 * Real.pi * lower ≤ k ∧ k ≤ 2 * Real.pi * upper) := by
    rw [← mul_div_assoc, ← mul_div_assoc, div_le_div_iff_of_pos_right hl, div_le_div_iff_of_pos_right hl]
  by_cases h : 2 * Real.pi * lower ≤ k ∧ k ≤ 2 * Real.pi * upper
  · rw [if_pos h, if_pos (e.2 h)]
  · rw [if_neg h, if_neg (fun h' => h (e.1 h')), mul_zero]

/-! ## Eddy viscosity -/

section
variable [HasNan ℝ]

theorem strain_inUnits (hl : l ≠ 0) (l' : ℝ) {g : Grid d ℝ} {w u : Fin d → Idx d → ℝ} (h : ∀ a i, InR g.shape i → u a i = l' * w a i) (i j : Fin d) (p : Idx d) (hp : InR g.shape p) :
    strain (g.inUnits l) u i j p = l' / l * strain g w i j p := by
  unfold strain fwd
  rw [Grid.inUnits_step, Grid.inUnits_step, show (g.inUnits l).shape = g.shape from rfl, h _ _ hp, h _ _ hp, h _ _ (rollIdx_inR hp _ _), h _ _ (rollIdx_inR hp _ _), ← mul_sub, ← mul_sub, div_units hl, div_units hl]
  ring

omit [HasNan ℝ] in
theorem smagorinskyCutoff_inUnits (hd : d ≠ 0) (hl : 0 < l) {g : Grid d ℝ} (hg : ∀ a, 0 ≤ g.step a) : smagorinskyCutoff (g.inUnits l) = l * smagorinskyCutoff g := by
  unfold smagorinskyCutoff
  simp only [Grid.inUnits_step]
  rw [Finset.prod_mul_distrib, Finset.prod_const, Finset.card_univ, Fintype.card_fin, Real.mul_rpow (pow_nonneg hl.le d) (Finset.prod_nonneg fun a _ => hg a), ← Real.rpow_natCast, ← Real.rpow_mul hl.le,
    mul_one_div_cancel (Nat.cast_ne_zero.2 hd), Real.rpow_one]

theorem edgeViscosity_inUnits (hd : d ≠ 0) (hl : 0 < l) {l' : ℝ} (hl' : 0 ≤ l') (cs : ℝ) {g : Grid d ℝ} (hg : ∀ a, 0 ≤ g.step a) {w u : Fin d → Idx d → ℝ} (h : ∀ a i, InR g.shape i → u a i = l' * w a i)
    (i j : Fin d) (p : Idx d) (hp : InR g.shape p) : edgeViscosity cs (g.inUnits l) u i j p = l * l' * edgeViscosity cs g w i j p := by
  have hc : ∀ p, InR g.shape p → ∀ i j, centredStrain (g.inUnits l) u i j p = l' / l * centredStrain g w i j p := fun p hp i j => by
    unfold centredStrain
    rw [show (g.inUnits l).shape = g.shape from rfl, lerpAll_congr _ _ _ (fun p => l' / l * strain g w i j p) (fun p hp => strain_inUnits hl.ne' l' h i j p hp) p hp, lerpAll_smul]
  unfold edgeViscosity
  rw [show (g.inUnits l).shape = g.shape from rfl, lerpAll_congr _ _ _ (fun p => l * l' * centredViscosity cs g w p) (fun p hp => ?_) p hp, lerpAll_smul]
  unfold centredViscosity
  have e : (2 * ∑ i, ∑ j, centredStrain (g.inUnits l) u i j p ^ 2) = (l' / l) ^ 2 * (2 * ∑ i, ∑ j, centredStrain g w i j p ^ 2) := by
    simp only [Finset.mul_sum]
    refine Finset.sum_congr rfl fun i _ => Finset.sum_congr rfl fun j _ => ?_
    rw [hc p hp]
    ring
  rw [e, Real.sqrt_mul (sq_nonneg _), Real.sqrt_sq (div_nonneg hl' hl.le), smagorinskyCutoff_inUnits hd hl hg]
  have := hl.ne'
  field_simp

/-- **C77** The acceleration by the Smagorinsky model; the Smagorinsky constant has no unit. -/
theorem C77_smagorinsky (hd : d ≠ 0) (hl : 0 < l) (hτ : 0 < τ) (g : Grid d ℝ) (hs : ∀ a, 0 < g.shape a) (hg : ∀ a, 0 ≤ g.step a) (cs dt dt' : ℝ) :
    TendencyUnitsCommute l τ (l / τ ^ 2) (PeriodicField g) (evmModel (smagorinskyViscosity cs dt)) (evmModel (smagorinskyViscosity cs dt')) := by
  intro u u' hu h acc hacc
  have hu' : PeriodicField (g.inUnits l) u' := ⟨fun a => ⟨(h a).2.2.grid.trans (by rw [(hu.1 a).1]), (h a).2.2.shape.trans (hu.1 a).2.1, fun b => by show (u' a).array.offset b = _; rw [(h a).2.2.offset, (hu.1 a).2.2 b]⟩, fun a => by rw [(h a).1, hu.2 a, periodicBC_inUnits]⟩
  rw [evm_smagorinsky_eq hd hs cs dt hu] at hacc
  obtain rfl := Except.ok.inj hacc
  refine ⟨_, evm_smagorinsky_eq (g := g.inUnits l) hd hs cs dt' hu', fun a => ⟨rfl, rfl, rfl, fun p hp => ?_⟩⟩
  replace hp : InR g.shape p := hp
  have hh : ∀ a i, InR g.shape i → (u' a).array.data i = l / τ * (u a).array.data i := fun a i hi => (h a).2.2.data (by have := (hu.1 a).2.1; dsimp only at this; rw [this]; exact hi)
  have h0 : 0 ≤ l / τ := (div_pos hl hτ).le
  show eddyForce _ _ _ _ _ = _ * eddyForce _ _ _ _ _
  unfold eddyForce bwd
  rw [mul_neg, Finset.mul_sum]
  congr 1
  refine Finset.sum_congr rfl fun j _ => ?_
  beta_reduce
  rw [show (g.inUnits l).shape = g.shape from rfl, Grid.inUnits_step, edgeViscosity_inUnits hd hl h0 cs hg hh a j p hp, edgeViscosity_inUnits hd hl h0 cs hg hh a j _ (rollIdx_inR hp j (-1)), strain_inUnits hl.ne' _ hh a j p hp,
    strain_inUnits hl.ne' _ hh a j _ (rollIdx_inR hp j (-1))]
  have h1 := hl.ne'
  have h2 := hτ.ne'
  by_cases h3 : g.step j = 0
  · rw [h3]; simp
  field_simp

/-- **C77** The explicit Smagorinsky step, provided the unit of mass is such that densities stay as they are (`C77_smagorinsky_density`). -/
theorem C77_explicit_smagorinsky (hd : d ≠ 0) (hl : 0 < l) (hτ : 0 < τ) (g : Grid d ℝ) (hs : ∀ a, 0 < g.shape a) (hg : ∀ a, 0 ≤ g.step a) (dt cs density : ℝ) (viscosity : Option ℝ) (solve solve' : PressureSolver d ℝ)
    (hex : ExactSolver g solve) (hex' : ExactSolver (g.inUnits l) solve') (s : Stepper d) (hst : RungeKutta s) :
    UnitsCommute l τ (PeriodicField g) (explicitSmagorinsky dt cs none density viscosity solve none diffuse s)
      (explicitSmagorinsky (τ * dt) cs none density (viscosity.map fun nu => l ^ 2 / τ * nu) solve' none diffuse s) := by
  have := C77_step hτ (PeriodicField g) (fun _ x hu => withLeaves_periodic hu x) one_ne_zero density viscosity dt solve solve' (ExactSolver.unitsCommute hd hl g hs solve solve' hex hex') none none diffuse diffuse
    (some (smagorinskyForcing cs dt none)) (some (smagorinskyForcing cs (τ * dt) none))
    (fun u u' hu h => C77_default_convection hl hτ dt u u' (hu.periodic hs) h) (diffuse_unitsCommute hl)
    (Or.inr ⟨_, _, rfl, rfl, by rw [one_mul]; exact C77_smagorinsky hd hl hτ g hs hg cs dt (τ * dt)⟩) s hst
  simp only [one_mul] at this
  exact this

/-- **C77** … and with a forcing of the user. -/
theorem C77_explicit_smagorinsky_forced (hd : d ≠ 0) (hl : 0 < l) (hτ : 0 < τ) (g : Grid d ℝ) (hs : ∀ a, 0 < g.shape a) (hg : ∀ a, 0 ≤ g.step a) (dt cs density : ℝ) (viscosity : Option ℝ) (solve solve' : PressureSolver d ℝ)
    (hex : ExactSolver g solve) (hex' : ExactSolver (g.inUnits l) solve') (f f' : ForcingFn d) (hf : TendencyUnitsCommute l τ (l / τ ^ 2) (PeriodicField g) f f') (s : Stepper d) (hst : RungeKutta s) :
    UnitsCommute l τ (PeriodicField g) (explicitSmagorinsky dt cs (some f) density viscosity solve none diffuse s)
      (explicitSmagorinsky (τ * dt) cs (some f') density (viscosity.map fun nu => l ^ 2 / τ * nu) solve' none diffuse s) := by
  have := C77_step hτ (PeriodicField g) (fun _ x hu => withLeaves_periodic hu x) one_ne_zero density viscosity dt solve solve' (ExactSolver.unitsCommute hd hl g hs solve solve' hex hex') none none diffuse diffuse
    (some (smagorinskyForcing cs dt (some f))) (some (smagorinskyForcing cs (τ * dt) (some f')))
    (fun u u' hu h => C77_default_convection hl hτ dt u u' (hu.periodic hs) h) (diffuse_unitsCommute hl)
    (Or.inr ⟨_, _, rfl, rfl, by
      rw [one_mul]
      exact C77_sum_forcings _ (.cons hf (.cons (C77_smagorinsky hd hl hτ g hs hg cs dt (τ * dt)) .nil))⟩) s hst
  simp only [one_mul] at this
  exact this

/-- **C77** Where it fails: `explicit_smagorinsky_navier_stokes` divides the eddy *acceleration* by the density, so with a convection `C`
and the kinematic viscosity `nu / density` given, the tendency still depends on the unit of mass wherever the eddy acceleration is not 0. -/
theorem C77_smagorinsky_density {ρ : ℝ} (hρ : ρ ≠ 1) (density dt cs nu : ℝ) (C : ConvectFn d) (D : DiffuseFn d) (v T T' : Fin d → GridVariable d ℝ) (acc : Fin d → GridArray d ℝ)
    (hacc : evmModel (smagorinskyViscosity cs dt) v = .ok acc) (h : explicitTerms density (some nu) dt (some C) D (some (smagorinskyForcing cs dt none)) v = .ok T)
    (h' : explicitTerms (ρ * density) (some (ρ * nu)) dt (some C) D (some (smagorinskyForcing cs dt none)) v = .ok T') (a : Fin d) (i : Idx d) (hi : (acc a).data i ≠ 0) :
    (T' a).array.data i ≠ (T a).array.data i := by
  obtain ⟨h0, c, e, acc1, hc, he, h1, h2⟩ := (C59_explicit_terms density dt cs nu C D v T).1 h
  obtain ⟨h0', c', e', acc2, hc', he', h1', h2'⟩ := (C59_explicit_terms (ρ * density) dt cs (ρ * nu) C D v T').1 h'
  obtain rfl := Except.ok.inj (hacc.symm.trans h1)
  obtain rfl := Except.ok.inj (hacc.symm.trans h1')
  obtain rfl := Except.ok.inj (hc.symm.trans hc')
  have hρ0 : ρ ≠ 0 := left_ne_zero_of_mul h0'
  have hee : e' = e := funext fun a => Except.ok.inj ((he' a).symm.trans (by rw [mul_div_mul_left _ _ hρ0]; exact he a))
  rw [(h2 a).2.2 i, (h2' a).2.2 i, hee]
  intro hh
  have : (acc a).data i / (ρ * density) = (acc a).data i / density := by linarith
  rw [div_eq_div_iff h0' h0] at this
  exact hρ (mul_right_cancel₀ h0 (mul_left_cancel₀ hi (by linarith)))

end
end JaxCfd
