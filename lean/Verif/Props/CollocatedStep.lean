import Verif.Props.CollocatedProjection
import Verif.Props.WallStep

/-!
# C55: a time step with collocated velocities, and initial conditions
-/

namespace JaxCfd
variable {d : ℕ} [HasNan ℝ]

namespace Collocated

/-- A periodic velocity field at the cell centres. -/
def CenterField (g : Grid d ℝ) (v : Fin d → GridVariable d ℝ) : Prop := ∀ a, AtCenters g (v a)

/-- The solver returns an exact pressure correction for every velocity field at the cell centres of the periodic grid. -/
def ExactCenterSolver (g : Grid d ℝ) (solve : Solver d) : Prop :=
  ∀ v, CenterField g v → ∃ q, solve v (zeroGuess g) = .ok q ∧ SolvesCentered g v q

/-- The convection conserves the total of every component of every periodic velocity field at the cell centres. -/
def CenterConservative (g : Grid d ℝ) (C : ConvectFn d) : Prop :=
  ∀ u c, CenterField g u → C u = .ok c → ∀ a, ∑ i ∈ box g.shape, (c a).data i = 0

/-- **C55.** An exact conjugate-gradient routine — one that solves every solvable system it is given — makes `solve_cg` an exact pressure
solver on every periodic grid: the systems `projection` produces are always solvable. -/
theorem C55_exact_cg (hd : d ≠ 0) (g : Grid d ℝ) (hs : ∀ a, 0 < g.shape a) (cg : CGFn d ℝ)
    (hcg : ∀ A b x₀, (∃ x y, CenterArray g x ∧ A x = .ok y ∧ ∀ i : Idx d, InR g.shape i → y.data i = b.data i) →
      ∃ x y, cg A b x₀ = .ok x ∧ CenterArray g x ∧ A x = .ok y ∧ ∀ i : Idx d, InR g.shape i → y.data i = b.data i) :
    ExactCenterSolver g (solveCG cg) := by
  intro v hv
  obtain ⟨q, hl, L, D, hL, hD, he⟩ := C55_pressure_exists hd g hs v hv
  obtain ⟨x, y, hx, hxl, hxy, hxe⟩ := hcg (laplacianWithBC (zeroGuess g)) D (zeroGuess g).array ⟨q, L, hl, hL, he⟩
  refine ⟨x, ?_, hxl, y, D, hxy, hD, hxe⟩
  have hD' := centeredDivergence_centers hd hs hv
  rw [hD] at hD'
  injection hD' with hD'
  unfold solveCG
  rw [hD, Except.bind_ok, if_neg (by rw [hD']; simp [zeroGuess])]
  exact hx

/-- The projection of a field at the cell centres with an exact solver. -/
theorem center_projection (hd : d ≠ 0) {g : Grid d ℝ} (hs : ∀ a, 0 < g.shape a) {solve : Solver d} (hex : ExactCenterSolver g solve)
    {u : Fin d → GridVariable d ℝ} (hu : CenterField g u) :
    ∃ p, projection u solve = .ok p ∧ CenterField g p ∧ CenteredDivergenceFree g p ∧ (∀ a, total g p a = total g u a) ∧
      (CenteredDivergenceFree g u → ∀ a i, InR g.shape i → (p a).array.data i = (u a).array.data i) := by
  obtain ⟨q, hq, hsol⟩ := hex u hu
  obtain ⟨w, G, hw, hwl, hdf, -, ht, -⟩ := C55_projection_exact hd g hs u hu solve q hq hsol
  refine ⟨w, hw, hwl, hdf, ht, fun h => ?_⟩
  obtain ⟨w', hw', he⟩ := C55_projection_fixes hd g hs u hu solve q hq hsol h
  rw [hw] at hw'
  injection hw' with hw'
  subst hw'
  exact he

/-- The default convection (van Leer) of a field at the cell centres. -/
theorem center_convect (hd : d ≠ 0) {g : Grid d ℝ} (hs : ∀ a, 0 < g.shape a) {u : Fin d → GridVariable d ℝ} (hu : CenterField g u)
    (dt : ℝ) : ∃ c, defaultConvect dt u = .ok c ∧ ∀ a, CenterArray g (c a) ∧ ∑ i ∈ box g.shape, (c a).data i = 0 ∧
      ((∀ b, ∃ k, ∀ i, InR g.shape i → (u b).array.data i = k) → ∀ i, InR g.shape i → (c a).data i = 0) := by
  choose c hc1 hc2 hc3 hc4 hc5 hc6 using fun a => vanLeer_velocity hd ((hu a).periodic hs) (fun b => (hu b).periodic hs)
    (fun b => by rw [(hu b).2.2.2]; rfl) (fun b => by rw [(hu a).1, (hu b).1]) dt
  refine ⟨c, seqFin_ok _ _ fun a => hc1 a, fun a => ⟨⟨(hc3 a).trans (hu a).1, (hc4 a).trans (hu a).2.1, (hc2 a).trans (hu a).2.2.1⟩, ?_, fun h i hi => ?_⟩⟩
  · have := hc5 a
    unfold NArr.sum at this
    rw [show (c a).toNArr.shape = g.shape from (hc4 a).trans (hu a).2.1] at this
    exact this
  · refine hc6 a ?_ (fun b => ?_) i (by rw [(hu a).2.1]; exact hi)
    · rw [(hu a).2.1]; exact h a
    · rw [(hu a).2.1]; exact h b

/-- **C55.** Both convection schemes, van Leer (the default) and `convect_linear`, conserve momentum. -/
theorem C55_conservative (hd : d ≠ 0) (g : Grid d ℝ) (hs : ∀ a, 0 < g.shape a) (dt : ℝ) :
    CenterConservative g (defaultConvect dt) ∧ CenterConservative g convectLinear := by
  constructor
  · intro u c hu hc a
    obtain ⟨c', hc', h⟩ := center_convect hd hs hu dt
    rw [hc] at hc'
    injection hc' with hc'
    subst hc'
    exact (h a).2.1
  · intro u c hu hc a
    obtain ⟨c', hc', h⟩ := C55_convect_linear hd g hs u hu
    rw [hc] at hc'
    injection hc' with hc'
    subst hc'
    obtain ⟨r, hr, h1, -⟩ := C55_advect_linear hd g hs (u a) (hu a) u hu
    rw [(h a).1] at hr
    injection hr with hr
    have := (h a).2
    unfold NArr.sum at this
    rw [show (c a).toNArr.shape = g.shape by rw [hr]; exact h1] at this
    exact this

theorem center_diffuse (hd : d ≠ 0) {g : Grid d ℝ} (hs : ∀ a, 0 < g.shape a) {c : GridVariable d ℝ} (hc : AtCenters g c) (nu : ℝ) :
    ∃ r, diffuse c nu = .ok r ∧ CenterArray g r ∧ ∑ i ∈ box g.shape, r.data i = 0 ∧
      ((∃ k, ∀ i, InR g.shape i → c.array.data i = k) → ∀ i, InR g.shape i → r.data i = 0) := by
  obtain ⟨r, D, hr, -, h1, h2, h3, h4, h5, -⟩ := C55_diffuse hd g hs c hc nu
  refine ⟨r, hr, ⟨h2, h1, h3⟩, ?_, fun ⟨k, hk⟩ i hi => ?_⟩
  · unfold NArr.sum at h5
    rw [h1] at h5
    exact h5
  · rw [h4 i hi, Finset.sum_eq_zero, mul_zero]
    intro a _
    rw [hk i hi, hk _ (rollIdx_inR hi a 2), hk _ (rollIdx_inR hi a (-2))]
    ring

/-- The sum of the accelerations, over the grid. -/
theorem accelerations_total (hd : d ≠ 0) {g : Grid d ℝ} (hs : ∀ a, 0 < g.shape a) {density : ℝ} {viscosity : Option ℝ} {C : ConvectFn d}
    (hC : CenterConservative g C) {f : Option (ForcingFn d)} {m : Fin d → ℝ} {u r : Fin d → GridVariable d ℝ}
    (hf : ∀ f' F, f = some f' → f' u = .ok F → ∀ a, ∑ i ∈ box g.shape, (F a).data i = m a)
    (hf0 : f = none → ∀ a, m a = 0) (hu : CenterField g u) {R : Fin d → GridArray d ℝ}
    (hR : accelerations density viscosity C diffuse f u = .ok R) (a : Fin d) :
    ∑ i ∈ box g.shape, (R a).data i = m a / density := by
  unfold accelerations at hR
  obtain ⟨c, hc, hR⟩ := Except.bind_eq_ok.1 hR
  obtain ⟨x, hx, hR⟩ := Except.bind_eq_ok.1 hR
  obtain ⟨y, hy, hR⟩ := Except.bind_eq_ok.1 hR
  unfold sumFields at hR
  have hRa := (sumField_eq_ok.1 ((seqFin_eq_ok _ _).1 hR a)).2.2
  have hxs : ∑ i ∈ box g.shape, (x.map fun F => (F a).data i).sum = 0 := by
    cases viscosity with
    | none =>
      injection hx with hx
      subst hx
      simp
    | some nu =>
      unfold diffusionTerm at hx
      dsimp only at hx
      obtain ⟨k, hk, hx⟩ := Except.bind_eq_ok.1 hx
      obtain ⟨e, he, hx⟩ := Except.bind_eq_ok.1 hx
      injection hx with hx
      subst hx
      have h1 := (seqFin_eq_ok _ _).1 he a
      obtain ⟨r, hr, -, h3, -⟩ := center_diffuse hd hs (hu a) k
      rw [hr] at h1
      injection h1 with h1
      subst h1
      simpa using h3
  have hys : ∑ i ∈ box g.shape, (y.map fun F => (F a).data i).sum = m a / density := by
    cases f with
    | none =>
      injection hy with hy
      subst hy
      simp [hf0 rfl a]
    | some f' =>
      unfold forcingTerm at hy
      dsimp only at hy
      obtain ⟨F, hF, hy⟩ := Except.bind_eq_ok.1 hy
      injection hy with hy
      subst hy
      rw [← hf f' F rfl hF a, Finset.sum_div]
      refine Finset.sum_congr rfl fun i _ => ?_
      simp only [List.map_cons, List.map_nil, List.sum_cons, List.sum_nil, add_zero]
      rfl
  rw [Finset.sum_congr rfl fun i _ => congrFun hRa i]
  simp only [List.map_cons, List.map_append, List.map_map, List.sum_cons, List.sum_append, Function.comp_def]
  rw [Finset.sum_add_distrib, Finset.sum_add_distrib, hC u c hu hc a, hxs, hys, zero_add, zero_add]

/-- The field handed to the projection. -/
theorem unprojected {g : Grid d ℝ} {dt : ℝ} {v w : Fin d → GridVariable d ℝ} {R : Fin d → GridArray d ℝ} (hv : CenterField g v)
    (h : seqFin (fun a => do
      let w ← gmap2 (fun x y => x + y) (v a).array (gmap (fun x => x * dt) (R a))
      return (⟨w, (v a).bc⟩ : GridVariable d ℝ)) = .ok w) :
    CenterField g w ∧ ∀ a i, (w a).array.data i = (v a).array.data i + (R a).data i * dt := by
  have key : ∀ a, AtCenters g (w a) ∧ ∀ i, (w a).array.data i = (v a).array.data i + (R a).data i * dt := by
    intro a
    obtain ⟨x, hx, hw⟩ := Except.bind_eq_ok.1 ((seqFin_eq_ok _ _).1 h a)
    obtain ⟨-, -, -, rfl⟩ := gmap2_eq_ok.1 hx
    have hw := Except.ok.inj hw
    rw [← hw]
    exact ⟨⟨(hv a).1, (hv a).2.1, (hv a).2.2.1, (hv a).2.2.2⟩, fun i => rfl⟩
  exact ⟨fun a => (key a).1, fun a => (key a).2⟩

/-- **C55.** A step of the collocated Navier-Stokes solver with an exact pressure solver, whatever the convection, diffusion and forcing
functions, returns a field at the cell centres whose centred divergence vanishes at every cell. -/
theorem C55_step_divergence_free (hd : d ≠ 0) (g : Grid d ℝ) (hs : ∀ a, 0 < g.shape a) (density : ℝ) (viscosity : Option ℝ) (dt : ℝ)
    (solve : Solver d) (hex : ExactCenterSolver g solve) (C : Option (ConvectFn d)) (D : DiffuseFn d) (f : Option (ForcingFn d))
    (v w : Fin d → GridVariable d ℝ) (hv : CenterField g v)
    (hw : semiImplicitNavierStokes density viscosity dt solve C D f v = .ok w) : CenterField g w ∧ CenteredDivergenceFree g w := by
  unfold semiImplicitNavierStokes at hw
  obtain ⟨R, hR, hw⟩ := Except.bind_eq_ok.1 hw
  obtain ⟨v1, hv1, hw⟩ := Except.bind_eq_ok.1 hw
  obtain ⟨p, hp, h1, h2, -⟩ := center_projection hd hs hex (unprojected hv hv1).1
  rw [hw] at hp
  injection hp with hp
  subst hp
  exact ⟨h1, h2⟩

/-- **C55.** Momentum balance: with the default diffusion, a conservative convection and an exact pressure solver, a step changes the total
of every component by exactly `dt * m / density`, `m` being the total of the forcing (0 without forcing). -/
theorem C55_step_momentum (hd : d ≠ 0) (g : Grid d ℝ) (hs : ∀ a, 0 < g.shape a) (density : ℝ) (viscosity : Option ℝ) (dt : ℝ)
    (solve : Solver d) (hex : ExactCenterSolver g solve) (C : Option (ConvectFn d)) (hC : ∀ C', C = some C' → CenterConservative g C')
    (f : Option (ForcingFn d)) (m : Fin d → ℝ) (v w : Fin d → GridVariable d ℝ)
    (hf : ∀ f' F, f = some f' → f' v = .ok F → ∀ a, ∑ i ∈ box g.shape, (F a).data i = m a)
    (hf0 : f = none → ∀ a, m a = 0) (hv : CenterField g v)
    (hw : semiImplicitNavierStokes density viscosity dt solve C diffuse f v = .ok w) (a : Fin d) :
    total g w a = total g v a + dt * m a / density := by
  unfold semiImplicitNavierStokes at hw
  obtain ⟨R, hR, hw⟩ := Except.bind_eq_ok.1 hw
  obtain ⟨v1, hv1, hw⟩ := Except.bind_eq_ok.1 hw
  obtain ⟨h1, h2⟩ := unprojected hv hv1
  obtain ⟨p, hp, -, -, h3, -⟩ := center_projection hd hs hex h1
  rw [hw] at hp
  injection hp with hp
  subst hp
  have hC' : CenterConservative g (convectOr C dt) := by
    cases C with
    | none => exact (C55_conservative hd g hs dt).1
    | some C' => exact hC C' rfl
  have ht := accelerations_total (r := v) hd hs hC' hf hf0 hv hR a
  rw [h3 a]
  unfold total
  rw [Finset.sum_congr rfl fun i _ => h2 a i, Finset.sum_add_distrib, ← Finset.sum_mul, ht]
  ring

/-- **C55.** With its defaults (van Leer convection, `diffuse`, no forcing) a step succeeds on every periodic velocity field at the cell
centres and for every time step; the result is divergence-free and has the same total momentum; uniform flow does not change. -/
theorem C55_default_step (hd : d ≠ 0) (g : Grid d ℝ) (hs : ∀ a, 0 < g.shape a) (density : ℝ) (viscosity : Option ℝ)
    (hρ : density ≠ 0 ∨ viscosity = none) (dt : ℝ) (solve : Solver d) (hex : ExactCenterSolver g solve)
    (v : Fin d → GridVariable d ℝ) (hv : CenterField g v) :
    ∃ w, semiImplicitNavierStokes density viscosity dt solve none diffuse none v = .ok w ∧ CenterField g w ∧
      CenteredDivergenceFree g w ∧ (∀ a, total g w a = total g v a) ∧
      ((∀ b, ∃ k, ∀ i, InR g.shape i → (v b).array.data i = k) → ∀ a i, InR g.shape i → (w a).array.data i = (v a).array.data i) := by
  obtain ⟨c, hc, hc'⟩ := center_convect hd hs hv dt
  have hacc : ∃ R : Fin d → GridArray d ℝ, accelerations density viscosity (convectOr none dt) diffuse none v = .ok R ∧
      (∀ a, CenterArray g (R a)) ∧
      ((∀ b, ∃ k, ∀ i, InR g.shape i → (v b).array.data i = k) → ∀ a i, InR g.shape i → (R a).data i = 0) := by
    unfold accelerations convectOr
    rw [Option.getD_none, hc, Except.bind_ok]
    cases viscosity with
    | none =>
      refine ⟨c, ?_, fun a => (hc' a).1, fun h a => (hc' a).2.2 h⟩
      show sumFields [c] = _
      exact sumFields1.2 fun a => ⟨⟨rfl, rfl, rfl⟩, fun _ => rfl⟩
    | some nu =>
      have hρ : density ≠ 0 := hρ.resolve_right (by simp)
      choose e he he1 he2 he3 using fun a => center_diffuse hd hs (hv a) (nu / density)
      refine ⟨fun a => ⟨⟨g.shape, fun i => (c a).data i + (e a).data i⟩, fun _ => 1 / 2, g⟩, ?_, fun a => ⟨rfl, rfl, rfl⟩,
        fun h a i hi => ?_⟩
      · unfold diffusionTerm forcingTerm
        dsimp only
        unfold pyDiv
        rw [if_neg hρ, Except.bind_ok, seqFin_ok _ (fun a => e a) he]
        show sumFields [c, e] = _
        exact sumFields2.2 fun a => ⟨⟨(hc' a).1.2.2, (hc' a).1.1, (hc' a).1.2.1⟩, ⟨(he1 a).2.2, (he1 a).1, (he1 a).2.1⟩, fun _ => rfl⟩
      · show (c a).data i + (e a).data i = 0
        rw [(hc' a).2.2 h i hi, he3 a (h a) i hi, zero_add]
  obtain ⟨R, hR, hRl, hR0⟩ := hacc
  have hv1 : seqFin (fun a => do
      let w ← gmap2 (fun x y => x + y) (v a).array (gmap (fun x => x * dt) (R a))
      return (⟨w, (v a).bc⟩ : GridVariable d ℝ)) = .ok fun a =>
      (⟨⟨⟨(v a).array.shape, fun i => (v a).array.data i + (R a).data i * dt⟩, (v a).array.offset, (v a).array.grid⟩, (v a).bc⟩ :
        GridVariable d ℝ) := by
    refine seqFin_ok _ _ fun a => ?_
    rw [gmap2_ok (by exact (hv a).2.1.trans (hRl a).2.1.symm) (by exact (hv a).2.2.1.trans (hRl a).2.2.symm)
      (by exact (hv a).1.trans (hRl a).1.symm), Except.bind_ok]
    rfl
  obtain ⟨h1, h2⟩ := unprojected hv hv1
  obtain ⟨p, hp, h3, h4, h5, h6⟩ := center_projection hd hs hex h1
  have hstep : semiImplicitNavierStokes density viscosity dt solve none diffuse none v = .ok p := by
    unfold semiImplicitNavierStokes
    rw [hR, Except.bind_ok, hv1, Except.bind_ok]
    exact hp
  refine ⟨p, hstep, h3, h4, fun a => ?_, fun h a i hi => ?_⟩
  · rw [C55_step_momentum hd g hs density viscosity dt solve hex none (by simp) none (fun _ => 0) v p (by simp) (by simp) hv hstep a]
    simp
  · have hu : ∀ b i, InR g.shape i → (v b).array.data i + (R b).data i * dt = (v b).array.data i := fun b i hi => by
      rw [hR0 h b i hi, zero_mul, add_zero]
    rw [h6 ((centeredDivergenceFree_iff hd hs h1).2 fun j hj => ?_) a i hi]
    · exact hu a i hi
    · refine Finset.sum_eq_zero fun b _ => ?_
      obtain ⟨k, hk⟩ := h b
      unfold cgrad
      show ((v b).array.data _ + (R b).data _ * dt - ((v b).array.data _ + (R b).data _ * dt)) / _ = 0
      rw [hu b _ (rollIdx_inR hj b 1), hu b _ (rollIdx_inR hj b (-1)), hk _ (rollIdx_inR hj b 1), hk _ (rollIdx_inR hj b (-1)), sub_self,
        zero_div]

/-- **C55.** Any number of repeated default steps succeeds; the state stays at the cell centres, is divergence-free from the first step on,
and the total momentum never changes. -/
theorem C55_default_trajectory (hd : d ≠ 0) (g : Grid d ℝ) (hs : ∀ a, 0 < g.shape a) (density : ℝ) (viscosity : Option ℝ)
    (hρ : density ≠ 0 ∨ viscosity = none) (dt : ℝ) (solve : Solver d) (hex : ExactCenterSolver g solve) (n : ℕ)
    (v : Fin d → GridVariable d ℝ) (hv : CenterField g v) :
    ∃ w, repeated 0 (semiImplicitNavierStokes density viscosity dt solve none diffuse none) n v = .ok w ∧ CenterField g w ∧
      (0 < n ∨ CenteredDivergenceFree g v → CenteredDivergenceFree g w) ∧ ∀ a, total g w a = total g v a := by
  induction n generalizing v with
  | zero => exact ⟨v, repeated_zero _ v, hv, fun h => h.resolve_left (by simp), fun _ => rfl⟩
  | succ n ih =>
    obtain ⟨u, hu, hul, hdf, ht, -⟩ := C55_default_step hd g hs density viscosity hρ dt solve hex v hv
    obtain ⟨w, hw, h1, h2, h3⟩ := ih u hul
    exact ⟨w, by rw [repeated_succ _ n v u hu]; exact hw, h1, fun _ => h2 (Or.inr hdf), fun a => by rw [h3 a, ht a]⟩

/-! ## Initial conditions -/

theorem centerNormalize_ok (hd : d ≠ 0) {g : Grid d ℝ} (hs : ∀ a, 0 < g.shape a) {solve : Solver d} (hex : ExactCenterSolver g solve)
    {v : Fin d → GridVariable d ℝ} (hv : CenterField g v) (maximum : ℝ) :
    ∃ p m w, projection v solve = .ok p ∧ CenterField g p ∧ CenteredDivergenceFree g p ∧ HasMaxSpeed g p m ∧
      projectAndNormalize solve maximum v = .ok w ∧ CenterField g w ∧ CenteredDivergenceFree g w ∧
      ∀ a i, (w a).array.data i = maximum / m * (p a).array.data i := by
  obtain ⟨p, hp, hpl, hpd, -⟩ := center_projection hd hs hex hv
  obtain ⟨m, hm, hmm⟩ := maxSpeed_shape (g := g) (v := p) (fun a => (hpl a).2.1) hd hs
  have hwl : CenterField g fun a => (⟨gmap (fun x => maximum * x / m) (p a).array, (p a).bc⟩ : GridVariable d ℝ) :=
    fun a => ⟨(hpl a).1, (hpl a).2.1, (hpl a).2.2.1, (hpl a).2.2.2⟩
  have he : ∀ a i, (⟨gmap (fun x => maximum * x / m) (p a).array, (p a).bc⟩ : GridVariable d ℝ).array.data i =
      maximum / m * (p a).array.data i := fun a i => by
    show maximum * (p a).array.data i / m = _
    ring
  refine ⟨p, m, fun a => ⟨gmap (fun x => maximum * x / m) (p a).array, (p a).bc⟩, hp, hpl, hpd, hmm, ?_, hwl,
    (centeredDivergenceFree_iff hd hs hwl).2 fun i hi => ?_, he⟩
  · unfold projectAndNormalize
    rw [hp, Except.bind_ok, hm, Except.bind_ok]
    rfl
  · rw [cdiv_congr (y := fun a i => maximum / m * (p a).array.data i) (fun a i _ => he a i) hi, cdiv_smul,
      (centeredDivergenceFree_iff hd hs hpl).1 hpd i hi, mul_zero]

theorem centerNormalize_fixed (hd : d ≠ 0) {g : Grid d ℝ} (hs : ∀ a, 0 < g.shape a) {solve : Solver d} (hex : ExactCenterSolver g solve)
    {maximum : ℝ} (hmax : 0 < maximum) (n : ℕ) {v : Fin d → GridVariable d ℝ} (hv : CenterField g v) (hdf : CenteredDivergenceFree g v)
    (hm : HasMaxSpeed g v maximum) :
    ∃ w, repeated 0 (projectAndNormalize solve maximum) n v = .ok w ∧ CenterField g w ∧ CenteredDivergenceFree g w ∧
      HasMaxSpeed g w maximum ∧ ∀ a i, InR g.shape i → (w a).array.data i = (v a).array.data i := by
  induction n generalizing v with
  | zero => exact ⟨v, rfl, hv, hdf, hm, fun _ _ _ => rfl⟩
  | succ n ih =>
    obtain ⟨p, m, w, hp, hpl, -, hpm, hw, hwl, hwd, hwe⟩ := centerNormalize_ok hd hs hex hv maximum
    obtain ⟨p', hp', -, -, -, hfix⟩ := center_projection hd hs hex hv
    rw [hp] at hp'
    injection hp' with hp'
    subst hp'
    have hmm : m = maximum := hpm.unique (hm.congr fun a i hi => hfix hdf a i hi)
    have e : ∀ a i, InR g.shape i → (w a).array.data i = (v a).array.data i := fun a i hi => by
      rw [hwe a i, hmm, div_self hmax.ne', one_mul, hfix hdf a i hi]
    obtain ⟨r, hr, h1, h2, h3, h4⟩ := ih hwl hwd (hm.congr e)
    exact ⟨r, by rw [repeated_succ _ _ _ _ hw]; exact hr, h1, h2, h3, fun a i hi => (h4 a i hi).trans (e a i hi)⟩

/-- **C55.** The collocated `filtered_velocity_field` with at least one iteration returns, for every noise and every spectral density
peak, a periodic field at the cell centres whose centred divergence is zero at every cell and, unless the projection of the filtered noise
vanishes identically, whose largest speed is the requested maximum; further iterations change nothing. -/
theorem C55_filtered_velocity_field (hd : d ≠ 0) (g : Grid d ℝ) (hg : g.Proper) (noise : Fin d → NArr d ℝ)
    (hn : ∀ a, (noise a).shape = g.shape) (solve : Solver d) (hex : ExactCenterSolver g solve)
    (maximum peak : ℝ) (hmax : 0 < maximum) (n : ℕ) :
    ∃ v p, (∀ a, ∃ y, spectralFilter (logNormalDensity d peak) (noise a) g = .ok y ∧ ∀ i, (v a).array.data i = y.data i) ∧
      CenterField g v ∧ projection v solve = .ok p ∧
      ((∃ a i, InR g.shape i ∧ (p a).array.data i ≠ 0) →
        ∃ w m, filteredVelocityField solve noise g maximum peak (n + 1) = .ok w ∧
          CenterField g w ∧ CenteredDivergenceFree g w ∧ HasMaxSpeed g w maximum ∧ HasMaxSpeed g p m ∧ 0 < m ∧
          ∀ a i, InR g.shape i → (w a).array.data i = maximum / m * (p a).array.data i) := by
  have hs : ∀ a, 0 < g.shape a := fun a => Nat.pos_of_ne_zero (hg a).1
  choose y hy hys _ using fun a => C49_filter hd (logNormalDensity d peak) g hg (noise a) (hn a)
  have hvl : CenterField g fun a => (⟨⟨y a, fun _ => 1 / 2, g⟩, periodicBC d⟩ : GridVariable d ℝ) := fun a => ⟨rfl, hys a, rfl, rfl⟩
  obtain ⟨p, m, w1, hp, hpl, hpd, hm, hw1, hwl, hwd, hwe⟩ := centerNormalize_ok hd hs hex hvl maximum
  refine ⟨_, p, fun a => ⟨y a, hy a, fun _ => rfl⟩, hvl, hp, fun ⟨a, i, hi, hne⟩ => ?_⟩
  have hmpos : 0 < m := by
    refine lt_of_lt_of_le ?_ (hm.1 i hi)
    refine Real.sqrt_pos.2 (Finset.sum_pos' (fun b _ => sq_nonneg _) ⟨a, Finset.mem_univ a, ?_⟩)
    positivity
  have hw1m : HasMaxSpeed g w1 maximum := by
    have := hm.smul (w := w1) (maximum / m) (by positivity) (fun a i _ => hwe a i)
    rwa [div_mul_cancel₀ _ hmpos.ne'] at this
  obtain ⟨w, hw, h1, h2, h3, h4⟩ := centerNormalize_fixed hd hs hex hmax n hwl hwd hw1m
  refine ⟨w, m, ?_, h1, h2, h3, hm, hmpos, fun a i hi => (h4 a i hi).trans (hwe a i)⟩
  unfold filteredVelocityField
  rw [seqFin_ok _ y hy, Except.bind_ok, repeated_succ _ _ _ _ hw1, hw]

/-! ## Non-vacuity -/

/-- An exact solver exists on every periodic grid. -/
theorem exists_exactCenterSolver (hd : d ≠ 0) (g : Grid d ℝ) (hs : ∀ a, 0 < g.shape a) : ∃ solve : Solver d, ExactCenterSolver g solve := by
  classical
  refine ⟨fun v _ => if h : ∃ q, SolvesCentered g v q then .ok h.choose else .error .value, fun v hv => ?_⟩
  have h := C55_pressure_exists hd g hs v hv
  exact ⟨h.choose, dif_pos h, h.choose_spec⟩

open Fixtures

/-- a velocity field at the cell centres of `g34r` -/
noncomputable def swirlC (a : Fin 2) : GridVariable 2 ℝ :=
  ⟨⟨⟨g34r.shape, fun i => (i 0 : ℝ) * (i 1 : ℝ) + (a : ℕ) - 2⟩, fun _ => 1 / 2, g34r⟩, periodicBC 2⟩

theorem swirlC_centers : CenterField g34r swirlC := fun _ => ⟨rfl, rfl, rfl, rfl⟩

noncomputable def solveC : Solver 2 := (exists_exactCenterSolver two_ne_zero g34r g34r_pos).choose

theorem solveC_exact : ExactCenterSolver g34r solveC := (exists_exactCenterSolver two_ne_zero g34r g34r_pos).choose_spec

example : ∃ r, advectLinear (swirlC 0) swirlC = .ok r ∧ r.toNArr.sum = 0 := by
  obtain ⟨r, h, -, -, -, -, h'⟩ := C55_advect_linear two_ne_zero g34r g34r_pos (swirlC 0) (swirlC_centers 0) swirlC swirlC_centers
  exact ⟨r, h, h'⟩

example : ∃ R, convectLinear swirlC = .ok R := by
  obtain ⟨R, h, -⟩ := C55_convect_linear two_ne_zero g34r g34r_pos swirlC swirlC_centers
  exact ⟨R, h⟩

/-- The second difference over two cells of concrete data: at the cell (0, 0) along the axis of length 3, points 2 and 1. -/
example : ∃ r, diffuse (swirlC 0) 3 = .ok r ∧ r.data ![0, 1] = 3 / 4 * (2 - 2 * 0 + 1) - 3 * 2 * 0 := by
  obtain ⟨r, D, h, -, -, -, -, h', -⟩ := C55_diffuse two_ne_zero g34r g34r_pos (swirlC 0) (swirlC_centers 0) 3
  refine ⟨r, h, ?_⟩
  rw [h' _ (by intro a; fin_cases a <;> simp [g34r])]
  norm_num [swirlC, g34r, rollIdx, Function.update, Grid.step, Fin.sum_univ_two]

example : diffuse (couette 0) (3 : ℝ) = .error .value := C55_diffuse_rejects _ _ 1 (by simp [couette])

example : ∃ w, semiImplicitNavierStokes 2 (some 3) (1 / 10) solveC none diffuse none swirlC = .ok w ∧ CenteredDivergenceFree g34r w := by
  obtain ⟨w, h, -, h', -⟩ := C55_default_step two_ne_zero g34r g34r_pos 2 (some 3) (Or.inl two_ne_zero) (1 / 10) solveC solveC_exact swirlC
    swirlC_centers
  exact ⟨w, h, h'⟩

example : ∃ w, repeated 0 (semiImplicitNavierStokes 2 (some 3) (1 / 10) solveC none diffuse none) 7 swirlC = .ok w ∧
    ∀ a, total g34r w a = total g34r swirlC a := by
  obtain ⟨w, h, -, -, h'⟩ := C55_default_trajectory two_ne_zero g34r g34r_pos 2 (some 3) (Or.inl two_ne_zero) (1 / 10) solveC solveC_exact 7
    swirlC swirlC_centers
  exact ⟨w, h, h'⟩

/-- a conjugate-gradient routine meeting the hypothesis of `C55_exact_cg` -/
example : ∃ cg : CGFn 2 ℝ, ExactCenterSolver g34r (solveCG cg) := by
  classical
  refine ⟨fun A b _ => if h : ∃ x y, CenterArray g34r x ∧ A x = .ok y ∧ ∀ i : Idx 2, InR g34r.shape i → y.data i = b.data i
    then .ok h.choose else .error .value, C55_exact_cg two_ne_zero g34r g34r_pos _ fun A b _ h => ?_⟩
  obtain ⟨y, h1, h2, h3⟩ := h.choose_spec
  exact ⟨h.choose, y, dif_pos h, h1, h2, h3⟩

example : ∃ w, ∃ G : Fin 2 → GridArray 2 ℝ, projection swirlC solveC = .ok w ∧ CenteredDivergenceFree g34r w ∧
    energy g34r w = energy g34r swirlC - ∑ a, inner (G a).toNArr (G a).toNArr := by
  obtain ⟨q, hq, hsol⟩ := solveC_exact swirlC swirlC_centers
  obtain ⟨w, G, h1, -, h2, -, -, h3, -⟩ := C55_projection_exact two_ne_zero g34r g34r_pos swirlC swirlC_centers solveC q hq hsol
  exact ⟨w, G, h1, h2, h3⟩

/-- conjugate gradients that only evaluates the operator at the starting guess; walls are refused -/
example (w : Fin 2 → GridVariable 2 ℝ) : projection couette (solveCG fun A _ x₀ => do
    let _ ← A x₀
    return x₀) ≠ .ok w :=
  C55_projection_rejects _ _ (fun A b x₀ e h => ⟨e, by rw [h]; rfl⟩) 0 1 (by simp [couette]) w

/-- The checkerboard on a 4 × 2 grid is not constant, and is not diffused. -/
example : ∃ r, diffuse (checkerboard (⟨![4, 2], fun _ => (0, 1)⟩ : Grid 2 ℝ)) 5 = .ok r ∧ r.data ![1, 1] = 0 ∧
    (checkerboard (⟨![4, 2], fun _ => (0, 1)⟩ : Grid 2 ℝ)).array.data ![0, 1] = -1 ∧
    (checkerboard (⟨![4, 2], fun _ => (0, 1)⟩ : Grid 2 ℝ)).array.data ![1, 1] = 1 := by
  obtain ⟨r, h, h', -⟩ := C55_checkerboard two_ne_zero (⟨![4, 2], fun _ => (0, 1)⟩ : Grid 2 ℝ) (by intro a; fin_cases a <;> simp)
    (by intro a; fin_cases a <;> simp) 5
  refine ⟨r, h, h' _ (by intro a; fin_cases a <;> simp), ?_, ?_⟩ <;> simp [checkerboard]

example : ∃ w m, filteredVelocityField solveC (fun _ => ⟨g34r.shape, fun i => (i 0 : ℝ)⟩) g34r 7 3 3 = .ok w ∧
      HasMaxSpeed g34r w m ∨ ∃ p v, projection v solveC = .ok p ∧ ∀ a i, InR g34r.shape i → (p a).array.data i = 0 := by
  obtain ⟨v, p, -, -, h, h'⟩ := C55_filtered_velocity_field two_ne_zero g34r (fun a => ⟨(g34r_pos a).ne', by fin_cases a <;> simp [g34r]⟩)
    (fun _ => ⟨g34r.shape, fun i => (i 0 : ℝ)⟩) (fun _ => rfl) solveC solveC_exact 7 3 (by norm_num) 2
  by_cases hne : ∃ a i, InR g34r.shape i ∧ (p a).array.data i ≠ 0
  · obtain ⟨w, m, h1, -, -, h2, -⟩ := h' hne
    exact ⟨w, 7, Or.inl ⟨h1, h2⟩⟩
  · push Not at hne
    exact ⟨p, 0, Or.inr ⟨p, v, h, hne⟩⟩

end Collocated
end JaxCfd
