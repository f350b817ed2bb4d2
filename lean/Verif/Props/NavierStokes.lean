import Verif.Props.Equations

/-!
# C56: invariants of the Navier-Stokes steps on periodic domains
-/

namespace JaxCfd
variable {d : ℕ}

section RK
variable {K V : Type} [Field K] [DecidableEq K] [AddCommGroup V] [Module K V]

theorem sum_getD (b : List K) : ∑ j ∈ Finset.range b.length, b.getD j 0 = b.sum := by
  induction b with
  | nil => rfl
  | cons x b ih => rw [List.length_cons, Finset.sum_range_succ']; simp only [List.getD_cons_succ, List.getD_cons_zero, ih, List.sum_cons, add_comm]

/-- A linear functional that grows at the constant rate `m` along the vector field and is preserved by the projection. -/
theorem rk_linear_rate {a : List (List K)} {b : List K} {t : Tableau K} (ht : mkTableau a b = .ok t)
    (hrows : ∀ i < a.length, i + 1 ≤ (a.getD i []).length) (F P : V → Except Err V) (dt m : K) (u r : V) (l : V →ₗ[K] K)
    (hF : ∀ x k, F x = .ok k → l k = m) (hP : ∀ x y, P x = .ok y → l y = l x) (h : navierStokesRK t F P dt u = .ok r) :
    l r = l u + dt * (b.sum * m) := by
  obtain ⟨U, k, _, hk, _, hr⟩ := (C38_textbook ht hrows F P dt u r).1 h
  rw [hP _ _ hr, map_add, map_smul, map_sum, ← sum_getD b, Finset.sum_mul, smul_eq_mul]
  congr 2
  refine Finset.sum_congr rfl fun j hj => ?_
  rw [map_smul, hF _ _ (hk j (Finset.mem_range.1 hj)), smul_eq_mul]

end RK

variable [HasNan ℝ]

/-- The solver solves the pressure equation of every periodic velocity field on the grid. -/
def ExactSolver (g : Grid d ℝ) (solve : PressureSolver d ℝ) : Prop :=
  ∀ u, PeriodicField g u → ∃ bc q, Returns solve g u bc q ∧ SolvesPoisson u bc q

/-- The default solver of `projection` is exact. -/
theorem C56_default_solver (hd : d ≠ 0) (g : Grid d ℝ) (cutoff : ℝ) (hr : Resolved g cutoff) (eigh : EighFn ℝ)
    (heigh : ∀ m, m.Symmetric → IsEigh m (eigh m)) (tpu : Bool) : ExactSolver g (defaultSolver tpu eigh cutoff) := by
  intro u hu
  have hs : ∀ a, 0 < g.shape a := fun a => by have := hr.cells a; omega
  have h := hu.velocity hs
  have hbc := h.pressureBC hd
  obtain ⟨q, -, hq⟩ := C36_pressure_succeeds hd g u h cutoff hr eigh heigh tpu none (Or.inl rfl) _ hbc
  obtain ⟨s1, s2, s3, L, D, e1, e2, e4, e3⟩ := C36_pressure_poisson hd g u h cutoff hr eigh heigh tpu none _ hbc _ (Or.inr rfl) q hq
  refine ⟨_, q, ⟨hbc, fun _ _ => hq, s1, s2, s3⟩, L, D, e1, e2, fun i hi => ?_⟩
  rw [e3 i (by rw [← s1]; exact hi), C17_divergence_sum_zero u (fun a => ⟨fun b => by rw [hu.2 a]; rfl, fun b => by
    rw [(hu.1 a).1, (hu.1 a).2.1]; exact ⟨rfl, hs b⟩⟩) D e2, zero_div, sub_zero]

theorem PeriodicField.periodic {g : Grid d ℝ} {v : Fin d → GridVariable d ℝ} (h : PeriodicField g v) (hs : ∀ a, 0 < g.shape a) (a : Fin d) :
    (v a).Periodic :=
  ⟨fun b => by rw [h.2 a]; rfl, fun b => by rw [(h.1 a).1, (h.1 a).2.1]; exact ⟨rfl, hs b⟩⟩

theorem SameLayout.periodicField {g : Grid d ℝ} {v w : Fin d → GridVariable d ℝ} (h : PeriodicField g v) (e : SameLayout v w) :
    PeriodicField g w :=
  ⟨fun a => ⟨by rw [(e a).2.1]; exact (h.1 a).1, by rw [(e a).2.2.2]; exact (h.1 a).2.1, by rw [(e a).1]; exact (h.1 a).2.2⟩,
    fun a => by rw [(e a).2.2.1]; exact h.2 a⟩

theorem DivergenceFree.congr {g : Grid d ℝ} {v w : Fin d → GridVariable d ℝ} (hd : d ≠ 0) (hs : ∀ a, 0 < g.shape a) (h : PeriodicField g v)
    (h' : PeriodicField g w) (e : ∀ a i, InR g.shape i → (w a).array.data i = (v a).array.data i) (hdf : DivergenceFree g v) :
    DivergenceFree g w := by
  refine ⟨_, h'.divergence hd hs, fun i hi => ?_⟩
  obtain ⟨D, hD, h0⟩ := hdf
  rw [h.divergence hd hs] at hD
  injection hD with hD
  subst hD
  rw [← h0 i hi]
  dsimp only
  exact Finset.sum_congr rfl fun a _ => by rw [e a i hi, e a _ (rollIdx_inR hi a (-1))]

open VelocityField in
/-- The projection of a periodic field with an exact solver. -/
theorem exact_projection (hd : d ≠ 0) {g : Grid d ℝ} (hs : ∀ a, 0 < g.shape a) {solve : PressureSolver d ℝ} (hex : ExactSolver g solve)
    {u : Fin d → GridVariable d ℝ} (hu : PeriodicField g u) :
    ∃ p, projection u solve = .ok p ∧ SameLayout u p ∧ PeriodicField g p ∧ DivergenceFree g p ∧ (∀ a, total g p a = total g u a) ∧
      (DivergenceFree g u → ∀ a i, InR g.shape i → (p a).array.data i = (u a).array.data i) := by
  obtain ⟨bc, q, hq, hsol⟩ := hex u hu
  obtain ⟨x, hx, hxe⟩ := projection_eq hd (hu.velocity hs) hu.walls hq
  have hl : SameLayout u (withData u g x) := fun a => ⟨rfl, (hu.1 a).1.symm, rfl, (hu.1 a).2.1.symm⟩
  obtain ⟨w, hw, -, -, hdf⟩ := C33_divergence_free hd g u (hu.velocity hs) hu.walls solve bc q hq hsol
  rw [hx] at hw
  injection hw with hw
  subst hw
  refine ⟨_, hx, hl, hl.periodicField hu, hdf, fun a => ?_, fun h a i hi => ?_⟩
  · unfold total
    show ∑ i ∈ box g.shape, x a i = _
    rw [Finset.sum_congr rfl fun i hi => hxe a i (mem_box.1 hi), Finset.sum_sub_distrib]
    have : ∑ i ∈ box g.shape, grad g u q.data a i = 0 := by
      unfold grad
      simp only [pvar_above, show (u a).bc.types a = (.periodic, .periodic) by rw [hu.2 a]; rfl, if_true]
      rw [← Finset.sum_div, Finset.sum_sub_distrib, sum_roll, sub_self, zero_div]
    rw [this, sub_zero]
  · obtain ⟨w', hw', he⟩ := C33_fixes_divergence_free hd g u (hu.velocity hs) hu.walls solve bc q hq hsol h
    rw [hx] at hw'
    injection hw' with hw'
    subst hw'
    exact (he a).2.2.2.2 i hi

/-- **C56.** On a periodic domain, whatever the convection, diffusion and forcing functions and the Runge-Kutta stepper: with an exact
pressure solver every step returns a divergence-free velocity field. -/
theorem C56_divergence_free (hd : d ≠ 0) (g : Grid d ℝ) (hs : ∀ a, 0 < g.shape a) (density : ℝ) (viscosity : Option ℝ) (dt : ℝ)
    (solve : PressureSolver d ℝ) (hex : ExactSolver g solve) (C : Option (ConvectFn d)) (D : DiffuseFn d) (f : Option (ForcingFn d))
    (s : Stepper d) (hst : RungeKutta s) (v w : Fin d → GridVariable d ℝ) (hv : PeriodicField g v)
    (hw : semiImplicitNavierStokes density viscosity dt solve C D f s v = .ok w) : PeriodicField g w ∧ DivergenceFree g w := by
  obtain ⟨hl, u, p, hu, hp, hpw⟩ := C56_step_is_projected density viscosity dt solve C D f s hst v w hw
  have hup := hu.periodicField hv
  obtain ⟨p', hp', -, hpp, hdf, -, -⟩ := exact_projection hd hs hex hup
  rw [hp] at hp'
  injection hp' with hp'
  subst hp'
  exact ⟨hl.periodicField hv, hdf.congr hd hs hpp (hl.periodicField hv) fun a i hi => hpw.2 a i (by rw [(hpp.1 a).2.1]; exact hi)⟩

/-- The total of component `a` as a linear functional on the leaves. -/
noncomputable def totalL (g : Grid d ℝ) (a : Fin d) : Leaves d →ₗ[ℝ] ℝ where
  toFun x := ∑ i ∈ box g.shape, x a i
  map_add' x y := by simp [Finset.sum_add_distrib]
  map_smul' c x := by simp [Finset.mul_sum]

theorem totalL_leaves {g : Grid d ℝ} {v : Fin d → GridVariable d ℝ} (h : PeriodicField g v) (a : Fin d) :
    totalL g a (leaves v) = total g v a :=
  Finset.sum_congr rfl fun i hi => leaves_inR (by rw [(h.1 a).2.1]; exact mem_box.1 hi)

theorem diffuse_total {g : Grid d ℝ} {v : Fin d → GridVariable d ℝ} (h : PeriodicField g v) (hs : ∀ a, 0 < g.shape a) (a : Fin d) (k : ℝ) :
    diffuse (v a) k = .ok (gmap (fun x => k * x) (lapP (v a))) ∧ ∑ i ∈ box g.shape, k * (lapP (v a)).data i = 0 := by
  constructor
  · unfold diffuse
    rw [laplacian_periodic (h.periodic hs a)]
    rfl
  · have := (C17_differences_sum_zero (v a) (h.periodic hs a) a).2.2.2 _ (laplacian_periodic (h.periodic hs a))
    rw [← Finset.mul_sum]
    have e : (lapP (v a)).toNArr.sum = ∑ i ∈ box g.shape, (lapP (v a)).data i := by
      unfold NArr.sum
      rw [show (lapP (v a)).toNArr.shape = g.shape from (h.1 a).2.1]
    rw [← e, this, mul_zero]

/-- The convection conserves the total of every component of every periodic velocity field. -/
def Conservative (g : Grid d ℝ) (C : ConvectFn d) : Prop :=
  ∀ u c, PeriodicField g u → C u = .ok c → ∀ a, ∑ i ∈ box g.shape, (c a).data i = 0

theorem default_convect_ok (hd : d ≠ 0) {g : Grid d ℝ} (hs : ∀ a, 0 < g.shape a) {u : Fin d → GridVariable d ℝ} (hu : PeriodicField g u)
    (dt : ℝ) : ∃ c, defaultConvect dt u = .ok c ∧ ∀ a, (c a).offset = (u a).array.offset ∧ (c a).grid = (u a).array.grid ∧
      (c a).shape = (u a).array.shape ∧ ∑ i ∈ box g.shape, (c a).data i = 0 ∧
      ((∀ b, ∃ k, ∀ i, InR g.shape i → (u b).array.data i = k) → ∀ i, InR g.shape i → (c a).data i = 0) := by
  choose c hc1 hc2 hc3 hc4 hc5 hc6 using fun a => vanLeer_velocity hd (hu.periodic hs a) (fun b => hu.periodic hs b)
    (fun b => by rw [hu.2 b]; rfl) (fun b => by rw [(hu.1 a).1, (hu.1 b).1]) dt
  refine ⟨c, seqFin_ok _ _ fun a => hc1 a, fun a => ⟨hc2 a, hc3 a, hc4 a, ?_, fun h i hi => ?_⟩⟩
  · have := hc5 a
    unfold NArr.sum at this
    rw [show (c a).toNArr.shape = g.shape from (hc4 a).trans (hu.1 a).2.1] at this
    exact this
  · refine hc6 a ?_ (fun b => ?_) i (by rw [(hu.1 a).2.1]; exact hi)
    · rw [(hu.1 a).2.1]; exact h a
    · rw [(hu.1 a).2.1]; exact h b

/-- The default convection (van Leer) is conservative. -/
theorem C56_default_convection_conservative (hd : d ≠ 0) (g : Grid d ℝ) (hs : ∀ a, 0 < g.shape a) (dt : ℝ) :
    Conservative g (defaultConvect dt) := by
  intro u c hu hc a
  obtain ⟨c', hc', h⟩ := default_convect_ok hd hs hu dt
  rw [hc] at hc'
  injection hc' with hc'
  subst hc'
  exact (h a).2.2.2.1

theorem terms_total (hd : d ≠ 0) {g : Grid d ℝ} (hs : ∀ a, 0 < g.shape a) {density dt : ℝ} {viscosity : Option ℝ} {C : Option (ConvectFn d)}
    (hC : ∀ C', C = some C' → Conservative g C') {f : Option (ForcingFn d)} {m : Fin d → ℝ}
    (hf : ∀ f' u F, f = some f' → PeriodicField g u → f' u = .ok F → ∀ a, ∑ i ∈ box g.shape, (F a).data i = m a)
    (hf0 : f = none → ∀ a, m a = 0) {u T : Fin d → GridVariable d ℝ} (hu : PeriodicField g u)
    (hT : explicitTerms density viscosity dt C diffuse f u = .ok T) (a : Fin d) :
    ∑ i ∈ box g.shape, (T a).array.data i = m a / density := by
  unfold explicitTerms at hT
  obtain ⟨c, hc, hT⟩ := Except.bind_eq_ok.1 hT
  obtain ⟨x, hx, hT⟩ := Except.bind_eq_ok.1 hT
  obtain ⟨y, hy, hT⟩ := Except.bind_eq_ok.1 hT
  injection hT with hT
  subst hT
  have hc0 : ∑ i ∈ box g.shape, (c a).data i = 0 := by
    cases C with
    | none => exact C56_default_convection_conservative hd g hs dt u c hu hc a
    | some C' => exact hC C' rfl u c hu hc a
  have hx0 : ∑ i ∈ box g.shape, (x a).data i = 0 := by
    cases viscosity with
    | none =>
      injection hx with hx
      subst hx
      exact hc0
    | some nu =>
      unfold addDiffusion at hx
      dsimp only at hx
      obtain ⟨k, hk, hx⟩ := Except.bind_eq_ok.1 hx
      obtain ⟨e, he, hx⟩ := Except.bind_eq_ok.1 hx
      have h1 := (seqFin_eq_ok _ _).1 he a
      obtain ⟨h2, h3⟩ := diffuse_total hu hs a k
      rw [h2] at h1
      injection h1 with h1
      rw [Finset.sum_congr rfl fun i _ => ((sumFields2.1 hx a).2.2 i), Finset.sum_add_distrib, hc0, ← h1, zero_add]
      exact h3
  cases f with
  | none =>
    injection hy with hy
    subst hy
    rw [hf0 rfl a, zero_div]
    exact hx0
  | some f' =>
    unfold addForcing at hy
    dsimp only at hy
    obtain ⟨F, hF, hy⟩ := Except.bind_eq_ok.1 hy
    rw [Finset.sum_congr rfl fun i _ => ((sumFields2.1 hy a).2.2 i), Finset.sum_add_distrib, hx0, zero_add]
    show ∑ i ∈ box g.shape, (F a).data i / density = _
    rw [← Finset.sum_div, hf f' u F rfl hu hF a]

/-- **C56.** Momentum balance on a periodic domain.  With the default diffusion, a conservative convection (such as the default), any
Runge-Kutta stepper and an exact pressure solver, a step changes the total of every component by exactly `dt * m / density`, where `m` is
the total of the forcing (0 without forcing). -/
theorem C56_momentum (hd : d ≠ 0) (g : Grid d ℝ) (hs : ∀ a, 0 < g.shape a) (density : ℝ) (viscosity : Option ℝ) (dt : ℝ)
    (solve : PressureSolver d ℝ) (hex : ExactSolver g solve) (C : Option (ConvectFn d)) (hC : ∀ C', C = some C' → Conservative g C')
    (f : Option (ForcingFn d)) (m : Fin d → ℝ)
    (hf : ∀ f' u F, f = some f' → PeriodicField g u → f' u = .ok F → ∀ a, ∑ i ∈ box g.shape, (F a).data i = m a)
    (hf0 : f = none → ∀ a, m a = 0) (s : Stepper d) (hst : RungeKutta s) (v w : Fin d → GridVariable d ℝ) (hv : PeriodicField g v)
    (hw : semiImplicitNavierStokes density viscosity dt solve C diffuse f s v = .ok w) (a : Fin d) :
    total g w a = total g v a + dt * m a / density := by
  unfold semiImplicitNavierStokes at hw
  obtain ⟨x, hx, hw⟩ := Except.bind_eq_ok.1 hw
  injection hw with hw
  subst hw
  obtain ⟨A, b, t, ht, hrows, hb, rfl⟩ := hst
  have key := rk_linear_rate ht hrows _ _ dt (m a / density) _ _ (totalL g a) (fun y k hk => ?_) (fun y z hz => ?_) hx
  · rw [hb, one_mul, totalL_leaves hv] at key
    show totalL g a x = _
    rw [key, mul_div_assoc]
  · unfold termsOnLeaves at hk
    obtain ⟨T, hT, hl⟩ := Except.bind_eq_ok.1 hk
    obtain ⟨hl', rfl⟩ := leavesLike_eq_ok.1 hl
    rw [totalL_leaves (hl'.periodicField hv)]
    exact terms_total hd hs hC hf hf0 ((withLeaves_layout v y).periodicField hv) hT a
  · unfold projectOnLeaves at hz
    obtain ⟨p, hp, hl⟩ := Except.bind_eq_ok.1 hz
    obtain ⟨hl', rfl⟩ := leavesLike_eq_ok.1 hl
    obtain ⟨p', hp', -, hpp, -, ht', -⟩ := exact_projection hd hs hex ((withLeaves_layout v y).periodicField hv)
    rw [hp] at hp'
    injection hp' with hp'
    subst hp'
    rw [totalL_leaves hpp, ht' a]
    rfl

/-- The default terms always succeed on periodic fields, and vanish on uniform flows. -/
theorem default_terms_ok (hd : d ≠ 0) {g : Grid d ℝ} (hs : ∀ a, 0 < g.shape a) {density : ℝ} {viscosity : Option ℝ}
    (hρ : density ≠ 0 ∨ viscosity = none) (dt : ℝ) {u : Fin d → GridVariable d ℝ} (hu : PeriodicField g u) :
    ∃ T, explicitTerms density viscosity dt none diffuse none u = .ok T ∧ SameLayout u T ∧
      ((∀ b, ∃ k, ∀ i, InR g.shape i → (u b).array.data i = k) → ∀ a i, InR g.shape i → (T a).array.data i = 0) := by
  obtain ⟨c, hc, h⟩ := default_convect_ok hd hs hu dt
  cases viscosity with
  | none =>
    refine ⟨fun a => ⟨c a, (u a).bc⟩, ?_, fun a => ⟨(h a).1, (h a).2.1, rfl, (h a).2.2.1⟩, fun hk a i hi => (h a).2.2.2.2 hk i hi⟩
    unfold explicitTerms convectOr
    rw [Option.getD_none, hc]
    rfl
  | some nu =>
    have hρ : density ≠ 0 := hρ.resolve_right (by simp)
    refine ⟨fun a => ⟨⟨⟨(u a).array.shape, fun i => (c a).data i + nu / density * (lapP (u a)).data i⟩, (u a).array.offset, (u a).array.grid⟩,
      (u a).bc⟩, ?_, fun a => ⟨rfl, rfl, rfl, rfl⟩, fun hk a i hi => ?_⟩
    · refine ((C56_explicit_terms density dt (defaultConvect dt) diffuse u _).2.1 nu).2 ⟨hρ, c, fun a => gmap (fun x => nu / density * x)
        (lapP (u a)), hc, fun a => (diffuse_total hu hs a _).1, fun a => ⟨fun w hw => ?_, rfl, fun i => rfl⟩⟩
      simp only [List.mem_cons, List.not_mem_nil, or_false] at hw
      rcases hw with rfl | rfl
      · exact ⟨(h a).1, (h a).2.1, (h a).2.2.1⟩
      · exact ⟨rfl, rfl, rfl⟩
    · show (c a).data i + nu / density * (lapP (u a)).data i = 0
      rw [(h a).2.2.2.2 hk i hi, zero_add]
      obtain ⟨k, hk⟩ := hk a
      have hsh : (u a).array.shape = g.shape := (hu.1 a).2.1
      dsimp only
      rw [hsh, Finset.sum_eq_zero, mul_zero]
      intro b _
      rw [hk i hi, hk _ (rollIdx_inR hi b 1), hk _ (rollIdx_inR hi b (-1))]
      ring

/-- **C56.** With its defaults (van Leer convection, `diffuse`, no forcing) a step succeeds on every periodic velocity field, for every
Runge-Kutta stepper and every time step, small or large; the result is divergence free and has the same total momentum. -/
theorem C56_default_step (hd : d ≠ 0) (g : Grid d ℝ) (hs : ∀ a, 0 < g.shape a) (density : ℝ) (viscosity : Option ℝ)
    (hρ : density ≠ 0 ∨ viscosity = none) (dt : ℝ) (solve : PressureSolver d ℝ) (hex : ExactSolver g solve) (s : Stepper d)
    (hst : RungeKutta s) (v : Fin d → GridVariable d ℝ) (hv : PeriodicField g v) :
    ∃ w, semiImplicitNavierStokes density viscosity dt solve none diffuse none s v = .ok w ∧ SameLayout v w ∧ PeriodicField g w ∧
      DivergenceFree g w ∧ ∀ a, total g w a = total g v a := by
  have hex' : ∃ w, semiImplicitNavierStokes density viscosity dt solve none diffuse none s v = .ok w := by
    obtain ⟨A, b, t, ht, hrows, hb, rfl⟩ := hst
    have hF : ∀ x, ∃ y, termsOnLeaves density viscosity dt none diffuse none v x = .ok y := fun x => by
      obtain ⟨T, hT, hl, -⟩ := default_terms_ok hd hs hρ dt ((withLeaves_layout v x).periodicField hv)
      refine ⟨leaves T, ?_⟩
      unfold termsOnLeaves
      rw [hT, Except.bind_ok]
      exact leavesLike_eq_ok.2 ⟨hl, rfl⟩
    have hP : ∀ x, ∃ y, projectOnLeaves solve v x = .ok y := fun x => by
      obtain ⟨p, hp, hl, -⟩ := exact_projection hd hs hex ((withLeaves_layout v x).periodicField hv)
      refine ⟨leaves p, ?_⟩
      unfold projectOnLeaves
      rw [hp, Except.bind_ok]
      exact leavesLike_eq_ok.2 ⟨hl, rfl⟩
    obtain ⟨r, hr⟩ := navierStokesRK_total ht hrows _ _ hF hP dt (leaves v)
    refine ⟨withLeaves v r, ?_⟩
    unfold semiImplicitNavierStokes
    rw [hr]
    rfl
  obtain ⟨w, hw⟩ := hex'
  obtain ⟨h1, h2⟩ := C56_divergence_free hd g hs density viscosity dt solve hex none diffuse none s hst v w hv hw
  refine ⟨w, hw, (C56_step_is_projected density viscosity dt solve none diffuse none s hst v w hw).1, h1, h2, fun a => ?_⟩
  rw [C56_momentum hd g hs density viscosity dt solve hex none (by simp) none (fun _ => 0) (by simp) (by simp) s hst v w hv hw a]
  simp

/-- **C56.** Any number of repeated default steps succeeds; the state stays a divergence-free periodic field (from the first step on) and
the total momentum never changes. -/
theorem C56_default_trajectory (hd : d ≠ 0) (g : Grid d ℝ) (hs : ∀ a, 0 < g.shape a) (density : ℝ) (viscosity : Option ℝ)
    (hρ : density ≠ 0 ∨ viscosity = none) (dt : ℝ) (solve : PressureSolver d ℝ) (hex : ExactSolver g solve) (s : Stepper d)
    (hst : RungeKutta s) (n : ℕ) (v : Fin d → GridVariable d ℝ) (hv : PeriodicField g v) :
    ∃ w, repeated 0 (semiImplicitNavierStokes density viscosity dt solve none diffuse none s) n v = .ok w ∧ PeriodicField g w ∧
      (0 < n ∨ DivergenceFree g v → DivergenceFree g w) ∧ ∀ a, total g w a = total g v a := by
  induction n generalizing v with
  | zero => exact ⟨v, repeated_zero _ v, hv, fun h => h.resolve_left (by simp), fun _ => rfl⟩
  | succ n ih =>
    obtain ⟨u, hu, -, hup, hdf, ht⟩ := C56_default_step hd g hs density viscosity hρ dt solve hex s hst v hv
    obtain ⟨w, hw, h1, h2, h3⟩ := ih u hup
    exact ⟨w, by rw [repeated_succ _ n v u hu]; exact hw, h1, fun _ => h2 (Or.inr hdf), fun a => by rw [h3 a, ht a]⟩

/-- **C56.** Uniform flow (in particular the fluid at rest) is a steady state of the default step on a periodic domain, for every
Runge-Kutta stepper, time step, density and viscosity. -/
theorem C56_uniform_flow_steady (hd : d ≠ 0) (g : Grid d ℝ) (hs : ∀ a, 0 < g.shape a) (density : ℝ) (viscosity : Option ℝ)
    (hρ : density ≠ 0 ∨ viscosity = none) (dt : ℝ) (solve : PressureSolver d ℝ) (hex : ExactSolver g solve) (s : Stepper d)
    (hst : RungeKutta s) (v : Fin d → GridVariable d ℝ) (hv : PeriodicField g v)
    (hk : ∀ b, ∃ k, ∀ i, InR g.shape i → (v b).array.data i = k) :
    ∃ w, semiImplicitNavierStokes density viscosity dt solve none diffuse none s v = .ok w ∧ SameState v w := by
  have hsh : ∀ a, (v a).array.shape = g.shape := fun a => (hv.1 a).2.1
  have hle : SameState v (withLeaves v (leaves v)) := ⟨withLeaves_layout v _, fun a i hi => leaves_inR hi⟩
  have hvl : PeriodicField g (withLeaves v (leaves v)) := (withLeaves_layout v _).periodicField hv
  have hk' : ∀ b, ∃ k, ∀ i, InR g.shape i → (withLeaves v (leaves v) b).array.data i = k := fun b => by
    obtain ⟨k, h⟩ := hk b
    exact ⟨k, fun i hi => (hle.2 b i (by rw [hsh b]; exact hi)).trans (h i hi)⟩
  refine ⟨withLeaves v (leaves v), ?_, hle⟩
  obtain ⟨A, b, t, ht, hrows, hb, rfl⟩ := hst
  unfold semiImplicitNavierStokes
  rw [C38_steady ht hrows]
  · rfl
  · obtain ⟨T, hT, hl, h0⟩ := default_terms_ok hd hs hρ dt hvl
    unfold termsOnLeaves
    rw [hT, Except.bind_ok]
    refine leavesLike_eq_ok.2 ⟨hl, ?_⟩
    funext a i
    show (0 : ℝ) = _
    by_cases hi : InR (T a).array.shape i
    · have e : (T a).array.shape = (v a).array.shape := (hl a).2.2.2
      rw [leaves_inR hi, h0 hk' a i (by rw [← hsh a, ← e]; exact hi)]
    · rw [leaves_out hi]
  · have hdf : DivergenceFree g (withLeaves v (leaves v)) := by
      refine ⟨_, hvl.divergence hd hs, fun i hi => ?_⟩
      dsimp only
      refine Finset.sum_eq_zero fun b _ => ?_
      obtain ⟨k, h⟩ := hk' b
      rw [h i hi, h _ (rollIdx_inR hi b (-1)), sub_self, zero_div]
    obtain ⟨p, hp, hl, -, -, -, hfix⟩ := exact_projection hd hs hex hvl
    unfold projectOnLeaves
    rw [hp, Except.bind_ok]
    refine leavesLike_eq_ok.2 ⟨hl, ?_⟩
    funext a i
    have e : (p a).array.shape = (v a).array.shape := (hl a).2.2.2
    by_cases hi : InR (p a).array.shape i
    · have hi' : InR g.shape i := by rw [← hsh a, ← e]; exact hi
      rw [leaves_inR hi, hfix hdf a i hi']
      rfl
    · rw [leaves_out hi]
      exact leaves_out (by rw [← e]; exact hi)

end JaxCfd
