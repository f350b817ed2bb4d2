import Verif.Props.ImplicitNS

/-!
# C56: the semi-implicit step in a domain with walls

`semi_implicit_navier_stokes` adds `dt` times the explicit terms to the stored arrays, also to the values stored on the upper walls, and
passes the sum to `projection`, which takes the wall values as they are.
-/

namespace JaxCfd
variable {d : ℕ} [HasNan ℝ]

theorem VelocityField.of_layout {g : Grid d ℝ} {v w : Fin d → GridVariable d ℝ} (h : VelocityField g v) (e : SameLayout v w) :
    VelocityField g w :=
  ⟨h.1, fun a => ⟨by rw [(e a).2.1]; exact (h.2.1 a).1, by rw [(e a).2.2.2]; exact (h.2.1 a).2.1, by rw [(e a).1]; exact (h.2.1 a).2.2⟩,
    fun b => by simpa only [fun c => (e c).2.2.1] using h.2.2 b⟩

theorem DivergenceFree.congr_walls {g : Grid d ℝ} {v w : Fin d → GridVariable d ℝ} (hd : d ≠ 0) (h : VelocityField g v)
    (e : SameLayout v w) (he : ∀ a i, InR g.shape i → (w a).array.data i = (v a).array.data i) (hdf : DivergenceFree g v) :
    DivergenceFree g w := by
  have h' := h.of_layout e
  obtain ⟨f', hf', hfe'⟩ := h'.divergence_eq hd
  obtain ⟨f, hf, hfe⟩ := h.divergence_eq hd
  refine ⟨_, hf', fun i hi => ?_⟩
  obtain ⟨D, hD, h0⟩ := hdf
  rw [hf] at hD
  injection hD with hD
  have := h0 i hi
  rw [← hD] at this
  show f' i = 0
  rw [hfe' i hi, ← this]
  show _ = f i
  rw [hfe i hi]
  refine Finset.sum_congr rfl fun a _ => ?_
  rw [h.below_normal, h'.below_normal, (e a).2.2.1, he a i hi]
  congr 2
  by_cases hp : (v a).bc.types a = (.periodic, .periodic)
  · rw [if_pos hp, if_pos hp, he a _ (rollIdx_inR hi a (-1))]
  · rw [if_neg hp, if_neg hp]
    by_cases h0 : 0 < i a
    · rw [if_pos h0, if_pos h0, he a _ (hi.update a (by omega) (by have := hi a; omega))]
    · rw [if_neg h0, if_neg h0]

/-- **C56.** The default (forward Euler) step on a velocity field with walls, with the default pressure solver and any terms: the
divergence of the result at a cell is the mean divergence of `v + dt T` minus `dt T_a / h_a` for every axis `a` along which the cell
touches the upper wall, where `T` are the explicit terms.  It vanishes in particular if the terms vanish on the walls and the mean
divergence is zero. -/
theorem C56_wall_residual (hd : d ≠ 0) (g : Grid d ℝ) (v : Fin d → GridVariable d ℝ) (h : VelocityField g v) (hcl : Clean v)
    (hw : WallsStored v) (cutoff : ℝ) (hr : Resolved g cutoff) (eigh : EighFn ℝ) (heigh : ∀ m, m.Symmetric → IsEigh m (eigh m)) (tpu : Bool)
    (density : ℝ) (viscosity : Option ℝ) (dt : ℝ) (C : Option (ConvectFn d)) (Df : DiffuseFn d) (f : Option (ForcingFn d))
    (w : Fin d → GridVariable d ℝ)
    (hstep : semiImplicitNavierStokes density viscosity dt (defaultSolver tpu eigh cutoff) C Df f forwardEuler v = .ok w) :
    ∃ T D D', explicitTerms density viscosity dt C Df f v = .ok T ∧ SameLayout v T ∧ SameLayout v w ∧ WallsStored w ∧
      divergence (List.ofFn (advanced v T dt)) = .ok D ∧ divergence (List.ofFn w) = .ok D' ∧
      ∀ i : Idx d, InR g.shape i → D'.data i = D.toNArr.sum / ∏ b, (g.shape b : ℝ) - ∑ a : Fin d,
        if (v a).bc.types a = (.dirichlet, .dirichlet) ∧ i a + 1 = g.shape a then dt * (T a).array.data i / g.step a else 0 := by
  obtain ⟨T, p, hT, hTl, hp, hpl, rfl⟩ := (C56_forward_euler_step density viscosity dt _ C Df f v w hcl).1 hstep
  have hu : VelocityField g (advanced v T dt) := h.of_layout (withLeaves_layout v _)
  have hbc := hu.pressureBC hd
  obtain ⟨q, -, hq⟩ := C36_pressure_succeeds hd g _ hu cutoff hr eigh heigh tpu none (Or.inl rfl) _ hbc
  obtain ⟨s1, s2, s3, L, D, e1, e2, e4, e3⟩ := C36_pressure_poisson hd g _ hu cutoff hr eigh heigh tpu none _ hbc _ (Or.inr rfl) q hq
  obtain ⟨p', D0, D', L0, f1, f2, f3, f4, f5, f6, f7, -, f8, -, f9⟩ :=
    C33_unimposed_walls hd g _ hu (defaultSolver tpu eigh cutoff) _ q ⟨hbc, fun _ _ => hq, s1, s2, s3⟩
  rw [hp] at f1
  injection f1 with f1
  subst f1
  rw [e1] at f7
  rw [e2] at f5
  injection f7 with f7
  injection f5 with f5
  subst f7 f5
  have hst := hpl.state
  have hwv : VelocityField g (withLeaves v (leaves p)) := f2.of_layout hst.1
  obtain ⟨fw, hfw, hfwe⟩ := hwv.divergence_eq hd
  obtain ⟨fp, hfp, hfpe⟩ := f2.divergence_eq hd
  have hval : ∀ a i, InR g.shape i → (withLeaves v (leaves p) a).array.data i = (p a).array.data i := fun a i hi =>
    hst.2 a i (by rw [(f2.2.1 a).2.1]; exact hi)
  refine ⟨T, D, _, hT, hTl, withLeaves_layout v _, ?_, e2, hfw, fun i hi => ?_⟩
  · intro a i hi ht hl
    have hi' : InR g.shape i := by rw [← (h.2.1 a).2.1]; exact hi
    rw [hval a i hi', f3 a i (by rw [(f2.2.1 a).2.1]; exact hi') (by rw [(hpl a).2.2.1]; exact ht) (by rw [(hpl a).2.2.2]; exact hl),
      (hpl a).2.2.1]
    rfl
  · have hff : fw i = fp i := by
      rw [hfwe i hi, hfpe i hi]
      refine Finset.sum_congr rfl fun a _ => ?_
      rw [hwv.below_normal, f2.below_normal, hval a i hi, (hst.1 a).2.2.1]
      congr 2
      by_cases hpp : (p a).bc.types a = (.periodic, .periodic)
      · rw [if_pos hpp, if_pos hpp, hval a _ (rollIdx_inR hi a (-1))]
      · rw [if_neg hpp, if_neg hpp]
        by_cases h0 : 0 < i a
        · rw [if_pos h0, if_pos h0, hval a _ (hi.update a (by omega) (by have := hi a; omega))]
        · rw [if_neg h0, if_neg h0]
    have hD' : D'.data i = fp i := by
      rw [hfp] at f6
      injection f6 with f6
      rw [← f6]
    show fw i = _
    rw [hff, ← hD', f9 i hi, e3 i hi]
    have : ∀ a : Fin d, (if (advanced v T dt a).bc.types a = (.dirichlet, .dirichlet) ∧ i a + 1 = g.shape a then
        ((advanced v T dt a).array.data i - ((advanced v T dt a).bc.constantValues a).2) / g.step a else 0) =
        if (v a).bc.types a = (.dirichlet, .dirichlet) ∧ i a + 1 = g.shape a then dt * (T a).array.data i / g.step a else 0 := by
      intro a
      show (if (v a).bc.types a = (.dirichlet, .dirichlet) ∧ i a + 1 = g.shape a then
        (leaves v a i + dt * leaves T a i - ((v a).bc.constantValues a).2) / g.step a else 0) = _
      by_cases hc : (v a).bc.types a = (.dirichlet, .dirichlet) ∧ i a + 1 = g.shape a
      · have hi' : InR (v a).array.shape i := by rw [(h.2.1 a).2.1]; exact hi
        rw [if_pos hc, if_pos hc, leaves_inR hi', leaves_inR (by rw [(hTl a).2.2.2]; exact hi'),
          hw a i hi' hc.1 (by rw [(h.2.1 a).2.1]; exact hc.2), add_sub_cancel_left]
      · rw [if_neg hc, if_neg hc]
    rw [Finset.sum_congr rfl fun a _ => this a]
    ring

/-- **C56.** In a closed or periodic domain (wall velocities 0) the default step returns a divergence-free field if the explicit terms
vanish on the upper walls. -/
theorem C56_walls_divergence_free (hd : d ≠ 0) (g : Grid d ℝ) (v : Fin d → GridVariable d ℝ) (h : VelocityField g v) (hcl : Clean v)
    (hw : WallsStored v) (hclosed : ∀ a, (v a).bc.types a = (.periodic, .periodic) ∨ (v a).bc.bcValues a = (some 0, some 0))
    (cutoff : ℝ) (hr : Resolved g cutoff) (eigh : EighFn ℝ) (heigh : ∀ m, m.Symmetric → IsEigh m (eigh m)) (tpu : Bool)
    (density : ℝ) (viscosity : Option ℝ) (dt : ℝ) (C : Option (ConvectFn d)) (Df : DiffuseFn d) (f : Option (ForcingFn d))
    (T w : Fin d → GridVariable d ℝ) (hT : explicitTerms density viscosity dt C Df f v = .ok T)
    (hT0 : ∀ a i, InR g.shape i → (v a).bc.types a = (.dirichlet, .dirichlet) → i a + 1 = g.shape a → (T a).array.data i = 0)
    (hstep : semiImplicitNavierStokes density viscosity dt (defaultSolver tpu eigh cutoff) C Df f forwardEuler v = .ok w) :
    DivergenceFree g w := by
  obtain ⟨T', D, D', hT', hTl, -, -, hD, hD', he⟩ := C56_wall_residual hd g v h hcl hw cutoff hr eigh heigh tpu density viscosity dt C Df f w hstep
  rw [hT] at hT'
  injection hT' with hT'
  subst hT'
  have hu : VelocityField g (advanced v T dt) := h.of_layout (withLeaves_layout v _)
  have hsum : D.toNArr.sum = 0 := C22_closed_box_divergence _ hu.supported (fun a => by
    rcases h.2.2 a with hp | ⟨hdir, -⟩
    · exact Or.inl (hp a)
    · have hv0 : (v a).bc.bcValues a = (some 0, some 0) := by
        rcases hclosed a with e | e
        · rw [e] at hdir; cases hdir
        · exact e
      refine Or.inr ⟨by rw [(hu.2.1 a).2.2 a, if_pos rfl], hdir, hv0, fun i hi hl => ?_⟩
      have hi' : InR (v a).array.shape i := hi
      have hi'' : InR g.shape i := by rw [← (h.2.1 a).2.1]; exact hi'
      show leaves v a i + dt * leaves T a i = 0
      rw [leaves_inR hi', leaves_inR (by rw [(hTl a).2.2.2]; exact hi'), hw a i hi' hdir hl,
        hT0 a i hi'' hdir (by rw [← (h.2.1 a).2.1]; exact hl), mul_zero, add_zero]
      simp [BC.constantValues, hv0]) D hD
  refine ⟨D', hD', fun i hi => ?_⟩
  rw [he i hi, hsum, zero_div, zero_sub, neg_eq_zero]
  refine Finset.sum_eq_zero fun a _ => ?_
  by_cases hc : (v a).bc.types a = (.dirichlet, .dirichlet) ∧ i a + 1 = g.shape a
  · rw [if_pos hc, hT0 a i hi hc.1 hc.2, mul_zero, zero_div]
  · rw [if_neg hc]

/-- **C56** (a defect of the code).  If a cell touches the upper wall of axis `a` only, another cell touches no upper wall, and the explicit
terms at the wall point of the first do not vanish, then the result of the step is not divergence free. -/
theorem C56_wall_tendency_defect (hd : d ≠ 0) (g : Grid d ℝ) (v : Fin d → GridVariable d ℝ) (h : VelocityField g v) (hcl : Clean v)
    (hw : WallsStored v) (cutoff : ℝ) (hr : Resolved g cutoff) (eigh : EighFn ℝ) (heigh : ∀ m, m.Symmetric → IsEigh m (eigh m)) (tpu : Bool)
    (density : ℝ) (viscosity : Option ℝ) (dt : ℝ) (hdt : dt ≠ 0) (C : Option (ConvectFn d)) (Df : DiffuseFn d) (f : Option (ForcingFn d))
    (T w : Fin d → GridVariable d ℝ) (hT : explicitTerms density viscosity dt C Df f v = .ok T)
    (hstep : semiImplicitNavierStokes density viscosity dt (defaultSolver tpu eigh cutoff) C Df f forwardEuler v = .ok w)
    (a : Fin d) (ha : (v a).bc.types a = (.dirichlet, .dirichlet)) (hstp : g.step a ≠ 0) (i j : Idx d) (hi : InR g.shape i)
    (hj : InR g.shape j) (hia : i a + 1 = g.shape a) (hib : ∀ b, b ≠ a → i b + 1 ≠ g.shape b) (hjb : ∀ b, j b + 1 ≠ g.shape b)
    (hTi : (T a).array.data i ≠ 0) : ¬ DivergenceFree g w := by
  rintro ⟨D0, hD0, h0⟩
  obtain ⟨T', D, D', hT', hTl, -, -, hD, hD', he⟩ := C56_wall_residual hd g v h hcl hw cutoff hr eigh heigh tpu density viscosity dt C Df f w hstep
  rw [hT] at hT'
  injection hT' with hT'
  subst hT'
  rw [hD'] at hD0
  injection hD0 with hD0
  subst hD0
  have h1 := he j hj
  rw [h0 j hj, Finset.sum_eq_zero (fun b _ => if_neg fun hc => hjb b hc.2), sub_zero] at h1
  have h2 := he i hi
  rw [h0 i hi, ← h1, zero_sub, Finset.sum_eq_single a (fun b _ hb => if_neg fun hc => hib b hb hc.2) (fun hn => absurd (Finset.mem_univ a) hn),
    if_pos ⟨ha, hia⟩] at h2
  have h3 : dt * (T a).array.data i / g.step a = 0 := by linarith
  exact div_ne_zero (mul_ne_zero hdt hTi) hstp h3

theorem laplacian_supported' {u : GridVariable d ℝ} (hu : u.Supported) :
    ∃ r, laplacian u = .ok r ∧ r.shape = u.array.shape ∧ r.offset = u.array.offset ∧ r.grid = u.array.grid ∧ ∀ i, InR u.array.shape i →
      r.data i = ∑ a, (u.above a i + u.below a i - 2 * u.array.data i) / u.array.grid.step a ^ 2 := by
  choose p hp using fun a => shift_above hu a
  choose m hm using fun a => shift_below hu a
  refine ⟨_, laplacian_of_shift (fun a => (hp a).1) (fun a => (hm a).1) (fun a => (hp a).2.1)
    (fun a => (hp a).2.2.1) (fun a => (hp a).2.2.2.1)
    (fun a => (hm a).2.1) (fun a => (hm a).2.2.1) (fun a => (hm a).2.2.2.1), rfl, rfl, rfl, fun i hi => ?_⟩
  dsimp only
  refine Finset.sum_congr rfl fun a _ => ?_
  rw [(hp a).2.2.2.2 i hi, (hm a).2.2.2.2 i hi]

/-- No convection: zeros. -/
def noConvection : ConvectFn d := fun v => .ok fun a => gmap (fun x => x * 0) (v a).array

/-- The step without convection (Stokes flow) succeeds on every velocity field; its explicit terms are the viscous ones. -/
theorem stokes_step_ok (hd : d ≠ 0) (g : Grid d ℝ) (v : Fin d → GridVariable d ℝ) (h : VelocityField g v) (hcl : Clean v)
    (cutoff : ℝ) (hr : Resolved g cutoff) (eigh : EighFn ℝ) (heigh : ∀ m, m.Symmetric → IsEigh m (eigh m)) (tpu : Bool)
    (density viscosity dt : ℝ) (hρ : density ≠ 0) :
    ∃ T w, explicitTerms density (some viscosity) dt (some noConvection) diffuse none v = .ok T ∧
      semiImplicitNavierStokes density (some viscosity) dt (defaultSolver tpu eigh cutoff) (some noConvection) diffuse none forwardEuler v = .ok w ∧
      ∀ a i, InR g.shape i → (T a).array.data i = viscosity / density *
        ∑ b, ((v a).above b i + (v a).below b i - 2 * (v a).array.data i) / g.step b ^ 2 := by
  choose L hL hLs hLo hLg hLe using fun a => laplacian_supported' (h.supported a)
  let T : Fin d → GridVariable d ℝ := fun a => ⟨⟨⟨(v a).array.shape, fun i => (v a).array.data i * 0 + viscosity / density * (L a).data i⟩,
    (v a).array.offset, (v a).array.grid⟩, (v a).bc⟩
  have hT : explicitTerms density (some viscosity) dt (some noConvection) diffuse none v = .ok T := by
    refine ((C56_explicit_terms density dt noConvection diffuse v T).2.1 viscosity).2 ⟨hρ, _, fun a => gmap (fun x => viscosity / density * x) (L a),
      rfl, fun a => ?_, fun a => ⟨fun x hx => ?_, rfl, fun i => rfl⟩⟩
    · unfold diffuse
      rw [hL a]
      rfl
    · simp only [List.mem_cons, List.not_mem_nil, or_false] at hx
      rcases hx with rfl | rfl
      · exact ⟨rfl, rfl, rfl⟩
      · exact ⟨hLo a, hLg a, hLs a⟩
  have hu : VelocityField g (advanced v T dt) := h.of_layout (withLeaves_layout v _)
  have hbc := hu.pressureBC hd
  obtain ⟨q, -, hq⟩ := C36_pressure_succeeds hd g _ hu cutoff hr eigh heigh tpu none (Or.inl rfl) _ hbc
  obtain ⟨s1, s2, s3, -⟩ := C36_pressure_poisson hd g _ hu cutoff hr eigh heigh tpu none _ hbc _ (Or.inr rfl) q hq
  obtain ⟨p, hp, -⟩ := VelocityField.projection_eq_walls hd hu (solve := defaultSolver tpu eigh cutoff) (bc := _) (q := q)
    ⟨hbc, fun _ _ => hq, s1, s2, s3⟩
  refine ⟨T, _, hT, (C56_forward_euler_step density (some viscosity) dt _ _ _ _ v _ hcl).2 ⟨T, _, hT, fun a => ⟨rfl, rfl, rfl, rfl⟩, hp,
    fun a => ⟨rfl, ?_, rfl, ?_⟩, rfl⟩, fun a i hi => ?_⟩
  · exact (h.2.1 a).1.symm
  · exact (h.2.1 a).2.1.symm
  · show (v a).array.data i * 0 + viscosity / density * (L a).data i = _
    rw [hLe a i (by rw [(h.2.1 a).2.1]; exact hi), mul_zero, zero_add, (h.2.1 a).1]

/-- **C56.** The default convection is implemented for periodic domains only: if a component of the velocity is not periodic along some
axis, neither step returns with it (the code raises NotImplementedError). -/
theorem C56_default_convection_needs_periodic (v : Fin d → GridVariable d ℝ) (a b : Fin d) (hb : ((v a).bc.types b).1 ≠ .periodic)
    (density dt nu : ℝ) (viscosity : Option ℝ) (solve : PressureSolver d ℝ)
    (dsolve : (Fin d → GridVariable d ℝ) → ℝ → ℝ → Except Err (Fin d → GridVariable d ℝ)) (D : DiffuseFn d) (f : Option (ForcingFn d))
    (w : Fin d → GridVariable d ℝ) (hcl : Clean v) :
    advectVanLeerUsingLimiters (v a) v dt = .error .notImplemented ∧
    semiImplicitNavierStokes density viscosity dt solve none D f forwardEuler v ≠ .ok w ∧
    implicitDiffusionNavierStokes density nu dt solve dsolve none f v ≠ .ok w := by
  have h1 : advectVanLeerUsingLimiters (v a) v dt = .error .notImplemented := by
    unfold advectVanLeerUsingLimiters advectGeneral
    rw [if_neg]
    intro H
    unfold hasAllPeriodic isPeriodicBC at H
    rw [List.all_eq_true] at H
    have h1 := H (v a) (by simp)
    rw [List.all_eq_true] at h1
    have h2 := h1 b (List.mem_finRange b)
    exact hb (by simpa using h2)
  have h2 : ∀ c, defaultConvect dt v ≠ .ok c := by
    intro c hc
    have := (seqFin_eq_ok _ _).1 hc a
    rw [h1] at this
    cases this
  refine ⟨h1, fun h => ?_, fun h => ?_⟩
  · obtain ⟨T, p, hT, -⟩ := (C56_forward_euler_step density viscosity dt solve none D f v w hcl).1 h
    unfold explicitTerms at hT
    obtain ⟨c, hc, -⟩ := Except.bind_eq_ok.1 hT
    exact h2 c hc
  · unfold implicitDiffusionNavierStokes accelerations at h
    obtain ⟨t, ht, -⟩ := Except.bind_eq_ok.1 h
    obtain ⟨c, hc, -⟩ := Except.bind_eq_ok.1 ht
    exact h2 c hc

namespace Fixtures

/-- a periodic grid of 3 × 4 cells with a velocity field on it that is neither uniform nor divergence free -/
noncomputable def swirl (a : Fin 2) : GridVariable 2 ℝ :=
  ⟨⟨⟨![3, 4], fun i => if a = 0 then (i 0 : ℝ) * (i 1 : ℝ) else (i 0 : ℝ) ^ 2⟩, fun b => if b = a then 1 else 1 / 2, g34r⟩, periodicBC 2⟩

theorem swirl_field : PeriodicField g34r swirl := ⟨fun a => ⟨rfl, rfl, fun b => rfl⟩, fun a => rfl⟩

theorem g34r_pos (a : Fin 2) : 0 < g34r.shape a := by fin_cases a <;> simp [g34r]

/-- The periodic theorems apply to it: 100 steps of `classic_rk4` with the default terms and solver, and one with implicit diffusion. -/
example : ∃ w, repeated 0 (semiImplicitNavierStokes 2 (some 3) (1 / 10) (defaultSolver false exists_eigh.choose (1 / 1000000)) none diffuse none
    classicRK4) 100 swirl = .ok w ∧ DivergenceFree g34r w ∧ ∀ a, total g34r w a = total g34r swirl a := by
  obtain ⟨w, h1, -, h2, h3⟩ := C56_default_trajectory (by norm_num) g34r g34r_pos 2 (some 3) (Or.inl two_ne_zero) (1 / 10)
    (defaultSolver false exists_eigh.choose (1 / 1000000)) (C56_default_solver (by norm_num) g34r _ g34r_resolved _ exists_eigh.choose_spec false)
    classicRK4 C56_steppers.2.2.2 100 swirl swirl_field
  exact ⟨w, h1, h2 (Or.inl (by norm_num)), h3⟩

example : ∃ w, implicitDiffusionNavierStokes 2 3 (1 / 10) (defaultSolver false exists_eigh.choose (1 / 1000000))
    (fun u nu dt => diffusionFastDiag false exists_eigh.choose u nu dt none) none none swirl = .ok w ∧ DivergenceFree g34r w := by
  obtain ⟨w, h1, -, h2, -⟩ := C56_implicit_default_step (by norm_num) g34r g34r_pos 2 3 (1 / 10) (by norm_num)
    (defaultSolver false exists_eigh.choose (1 / 1000000)) (C56_default_solver (by norm_num) g34r _ g34r_resolved _ exists_eigh.choose_spec false)
    _ (C56_default_diffusion (by norm_num) g34r (fun b => by fin_cases b <;> simp [g34r]) (fun b => by fin_cases b <;> simp [g34r]) false _
      exists_eigh.choose_spec) swirl swirl_field
  exact ⟨w, h1, h2⟩

/-- a closed square box of 3 × 3 cells of size 1 -/
noncomputable def box3 : Grid 2 ℝ := ⟨![3, 3], ![(0, 3), (0, 3)]⟩

/-- a vortex around the interior grid point (2, 1): a divergence-free field with zero velocity on all walls -/
noncomputable def vortex (a : Fin 2) : GridVariable 2 ℝ :=
  ⟨⟨⟨![3, 3], fun i => if a = 0 then (if i = ![1, 0] then 1 else if i = ![1, 1] then -1 else 0)
      else (if i = ![1, 0] then -1 else if i = ![2, 0] then 1 else 0)⟩, fun b => if b = a then 1 else 1 / 2, box3⟩,
    ⟨.homogeneous, fun _ => (.dirichlet, .dirichlet), fun _ => (some 0, some 0)⟩⟩

theorem vortex_field : VelocityField box3 vortex :=
  ⟨fun b => by fin_cases b <;> simp [box3], fun a => ⟨rfl, rfl, fun b => rfl⟩, fun b => Or.inr ⟨rfl, fun c => ⟨Or.inl rfl, Or.inl rfl⟩⟩⟩

theorem box3_inR {i : Idx 2} : InR box3.shape i ↔ ∃ j k : Fin 3, i = ![(j : ℤ), (k : ℤ)] := by
  constructor
  · intro h
    have h0 : 0 ≤ i 0 ∧ i 0 < 3 := h 0
    have h1 : 0 ≤ i 1 ∧ i 1 < 3 := h 1
    refine ⟨⟨(i 0).toNat, by omega⟩, ⟨(i 1).toNat, by omega⟩, ?_⟩
    funext a
    fin_cases a
    · show i 0 = ((i 0).toNat : ℤ)
      omega
    · show i 1 = ((i 1).toNat : ℤ)
      omega
  · rintro ⟨j, k, rfl⟩ a
    fin_cases a
    · show (0 : ℤ) ≤ (j : ℤ) ∧ (j : ℤ) < 3
      omega
    · show (0 : ℤ) ≤ (k : ℤ) ∧ (k : ℤ) < 3
      omega

theorem vec_eq {x y z t : ℤ} : (![x, y] : Idx 2) = ![z, t] ↔ x = z ∧ y = t := by
  constructor
  · intro h
    exact ⟨congrFun h 0, congrFun h 1⟩
  · rintro ⟨rfl, rfl⟩
    rfl

theorem vortex_clean : Clean vortex := by
  intro a i hi
  have h : ∀ x y : ℤ, 0 ≤ x → x < 3 → 0 ≤ y → y < 3 → i ≠ ![x, y] := by
    rintro x y h1 h2 h3 h4 rfl
    exact hi fun a => by
      fin_cases a
      · exact ⟨h1, h2⟩
      · exact ⟨h3, h4⟩
  have e1 := h 1 0 (by norm_num) (by norm_num) (by norm_num) (by norm_num)
  have e2 := h 1 1 (by norm_num) (by norm_num) (by norm_num) (by norm_num)
  have e3 := h 2 0 (by norm_num) (by norm_num) (by norm_num) (by norm_num)
  simp [vortex, e1, e2, e3]

theorem vortex_walls : WallsStored vortex := by
  intro a i hi _ hl
  have hi' : InR box3.shape i := hi
  obtain ⟨j, k, rfl⟩ := box3_inR.1 hi'
  fin_cases a
  · have : (j : ℤ) + 1 = 3 := hl
    have h2 : (j : ℤ) = 2 := by omega
    simp [vortex, BC.constantValues, vec_eq, h2]
  · have : (k : ℤ) + 1 = 3 := hl
    have h2 : (k : ℤ) = 2 := by omega
    simp [vortex, BC.constantValues, vec_eq, h2]

theorem box3_step (a : Fin 2) : box3.step a = 1 := by fin_cases a <;> simp [box3, Grid.step] <;> norm_num

theorem box3_resolved : Resolved box3 (1 / 1000000) := by
  refine ⟨fun a => ?_, fun a => ?_, by norm_num, fun a => ?_⟩ <;> fin_cases a <;> simp [box3] <;> norm_num

theorem vortex_divergence_free : DivergenceFree box3 vortex := by
  obtain ⟨f, hf, he⟩ := vortex_field.divergence_eq (by norm_num)
  refine ⟨_, hf, fun i hi => ?_⟩
  show f i = 0
  rw [he i hi, Fin.sum_univ_two, vortex_field.below_normal, vortex_field.below_normal, box3_step, box3_step]
  obtain ⟨j, k, rfl⟩ := box3_inR.1 hi
  have h0 : (![(j : ℤ), (k : ℤ)] : Idx 2) 0 = j := rfl
  have h1 : (![(j : ℤ), (k : ℤ)] : Idx 2) 1 = k := rfl
  have u0 : ∀ x y z : ℤ, Function.update (![x, y] : Idx 2) 0 z = ![z, y] := fun x y z => by
    funext a; fin_cases a <;> rfl
  have u1 : ∀ x y z : ℤ, Function.update (![x, y] : Idx 2) 1 z = ![x, z] := fun x y z => by
    funext a; fin_cases a <;> rfl
  rw [h0, h1, u0, u1]
  fin_cases j <;> fin_cases k <;> simp [vortex, vec_eq, BC.constantValues]

/-- **C56** (a defect of the code).  A closed box, a divergence-free vortex at rest on all walls, viscosity and density 1, no convection: for
every `dt ≠ 0` the semi-implicit step with the default projection returns a field that is not divergence free. -/
theorem C56_vortex_defect (dt : ℝ) (hdt : dt ≠ 0) (eigh : EighFn ℝ) (heigh : ∀ m, m.Symmetric → IsEigh m (eigh m)) (tpu : Bool) :
    VelocityField box3 vortex ∧ WallsStored vortex ∧ DivergenceFree box3 vortex ∧
      ∃ w, semiImplicitNavierStokes 1 (some 1) dt (defaultSolver tpu eigh (1 / 1000000)) (some noConvection) diffuse none forwardEuler
        vortex = .ok w ∧ ¬ DivergenceFree box3 w := by
  obtain ⟨T, w, hT, hw, hTe⟩ := stokes_step_ok (by norm_num) box3 vortex vortex_field vortex_clean (1 / 1000000) box3_resolved eigh heigh tpu
    1 1 dt one_ne_zero
  have h20 : InR box3.shape (![2, 0] : Idx 2) := box3_inR.2 ⟨2, 0, rfl⟩
  refine ⟨vortex_field, vortex_walls, vortex_divergence_free, w, hw, C56_wall_tendency_defect (by norm_num) box3 vortex vortex_field
    vortex_clean vortex_walls (1 / 1000000) box3_resolved eigh heigh tpu 1 (some 1) dt hdt _ _ _ T w hT hw 0 rfl (by rw [box3_step]; norm_num)
    ![2, 0] ![0, 0] h20 (box3_inR.2 ⟨0, 0, rfl⟩) rfl (fun b hb => ?_) (fun b => ?_) ?_⟩
  · fin_cases b
    · exact absurd rfl hb
    · show (0 : ℤ) + 1 ≠ 3
      norm_num
  · fin_cases b
    · show (0 : ℤ) + 1 ≠ 3
      norm_num
    · show (0 : ℤ) + 1 ≠ 3
      norm_num
  · rw [hTe 0 _ h20, Fin.sum_univ_two, box3_step, box3_step]
    have u0 : ∀ x y z : ℤ, Function.update (![x, y] : Idx 2) 0 z = ![z, y] := fun x y z => by
      funext a; fin_cases a <;> rfl
    have u1 : ∀ x y z : ℤ, Function.update (![x, y] : Idx 2) 1 z = ![x, z] := fun x y z => by
      funext a; fin_cases a <;> rfl
    simp [GridVariable.above, GridVariable.below, vortex, vec_eq, BC.constantValues, u0, u1]

end Fixtures

end JaxCfd
