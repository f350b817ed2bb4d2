import Verif.Props.NavierStokes

/-!
# C56: the step with implicit diffusion
-/

namespace JaxCfd
variable {d : ℕ} [HasNan ℝ]

/-- The diffusion solver takes a backward Euler step for every component of every periodic velocity field on the grid. -/
def ExactDiffusion (g : Grid d ℝ) (dsolve : (Fin d → GridVariable d ℝ) → ℝ → ℝ → Except Err (Fin d → GridVariable d ℝ)) : Prop :=
  ∀ u nu dt, PeriodicField g u → 0 ≤ nu * dt → ∃ r, dsolve u nu dt = .ok r ∧ ∀ a, BackwardEuler (u a) (r a) nu dt

/-- The default `diffusion_solve` is exact (equations.py:159). -/
theorem C56_default_diffusion (hd : d ≠ 0) (g : Grid d ℝ) (hN : ∀ b, 3 ≤ g.shape b) (hlen : ∀ b, (g.domain b).1 < (g.domain b).2)
    (tpu : Bool) (eigh : EighFn ℝ) (heigh : ∀ m, m.Symmetric → IsEigh m (eigh m)) :
    ExactDiffusion g fun u nu dt => diffusionFastDiag tpu eigh u nu dt none := by
  intro u nu dt hu hc
  have hs : ∀ a, 0 < g.shape a := fun a => by have := hN a; omega
  refine C36_diffusion hd u nu dt hc (fun a => (hu.velocity hs).supported a) (fun a b => ?_) (fun a b => ?_)
    (fun a => Or.inl fun b => Or.inl (by rw [hu.2 a]; rfl)) tpu eigh heigh none (Or.inl rfl)
  · rw [(hu.1 a).1]; exact hN b
  · rw [(hu.1 a).1]; exact hlen b

theorem periodic_interior {u : GridVariable d ℝ} (h : u.Periodic) : u.interior = u.array.shape := by
  funext a
  unfold GridVariable.interior
  rw [if_neg]
  rintro ⟨e, -⟩
  rw [h.1 a] at e
  cases e

/-- What a backward Euler step of a periodic variable satisfies. -/
theorem BackwardEuler.periodic {u r : GridVariable d ℝ} {nu dt : ℝ} (hu : u.Periodic) (h : BackwardEuler u r nu dt) (i : Idx d)
    (hi : InR u.array.shape i) : r.Periodic ∧ r.array.data i - nu * dt * ∑ a, (r.array.data (rollIdx u.array.shape a 1 i) +
      r.array.data (rollIdx u.array.shape a (-1) i) - 2 * r.array.data i) / u.array.grid.step a ^ 2 = u.array.data i := by
  have hr : r.Periodic := ⟨by rw [h.bc]; exact hu.1, by rw [h.shape, h.grid]; exact hu.2⟩
  obtain ⟨L, hL, hLe⟩ := h.step
  rw [laplacian_periodic hr] at hL
  injection hL with hL
  subst hL
  have := hLe i (by rw [periodic_interior hu]; exact hi)
  dsimp only at this
  rw [h.shape, h.grid] at this
  exact ⟨hr, this⟩

/-- The diffusion solve keeps a periodic field divergence free, preserves all totals and does not increase the kinetic energy. -/
theorem implicit_diffusion_invariants (hd : d ≠ 0) {g : Grid d ℝ} (hs : ∀ a, 0 < g.shape a) {u r : Fin d → GridVariable d ℝ} {nu dt : ℝ}
    (hc : 0 ≤ nu * dt) (hu : PeriodicField g u) (h : ∀ a, BackwardEuler (u a) (r a) nu dt) :
    SameLayout u r ∧ (DivergenceFree g u → DivergenceFree g r) ∧ (∀ a, total g r a = total g u a) ∧
      (∀ a, ∑ i ∈ box g.shape, (r a).array.data i ^ 2 ≤ ∑ i ∈ box g.shape, (u a).array.data i ^ 2) ∧
      ((∀ a, ∃ k, ∀ i, InR g.shape i → (u a).array.data i = k) → ∀ a i, InR g.shape i → (r a).array.data i = (u a).array.data i) := by
  have hl : SameLayout u r := fun a => ⟨(h a).offset, (h a).grid, (h a).bc, (h a).shape⟩
  have hr := hl.periodicField hu
  have eq : ∀ a i, InR g.shape i → (r a).array.data i - nu * dt * ∑ b, ((r a).array.data (rollIdx g.shape b 1 i) +
      (r a).array.data (rollIdx g.shape b (-1) i) - 2 * (r a).array.data i) / g.step b ^ 2 = (u a).array.data i := by
    intro a i hi
    have := ((h a).periodic (hu.periodic hs a) i (by rw [(hu.1 a).2.1]; exact hi)).2
    rw [(hu.1 a).2.1, (hu.1 a).1] at this
    exact this
  have lsum : ∀ a, ∑ i ∈ box g.shape, ∑ b, ((r a).array.data (rollIdx g.shape b 1 i) +
      (r a).array.data (rollIdx g.shape b (-1) i) - 2 * (r a).array.data i) / g.step b ^ 2 = 0 := by
    intro a
    have := diffuse_total hr hs a 1
    have h2 := this.2
    simp only [one_mul, (hr.1 a).2.1, (hr.1 a).1] at h2
    exact h2
  refine ⟨hl, ?_, ?_, ?_, ?_⟩
  · rintro ⟨D, hD, h0⟩
    rw [hu.divergence hd hs] at hD
    injection hD with hD
    subst hD
    dsimp only at h0
    refine ⟨_, hr.divergence hd hs, fun i hi => ?_⟩
    -- the divergence of `r` is a backward Euler step from 0
    let z : GridVariable d ℝ := ⟨⟨⟨g.shape, fun _ => 0⟩, fun _ => 1 / 2, g⟩, periodicBC d⟩
    let y : GridVariable d ℝ := ⟨⟨⟨g.shape, fun i => ∑ a, ((r a).array.data i - (r a).array.data (rollIdx g.shape a (-1) i)) / g.step a⟩,
      fun _ => 1 / 2, g⟩, periodicBC d⟩
    have hz : z.Periodic := ⟨fun a => rfl, fun a => ⟨rfl, hs a⟩⟩
    have hy : y.Periodic := ⟨fun a => rfl, fun a => ⟨rfl, hs a⟩⟩
    have hzs : z.Supported := fun a => ⟨rfl, hs a, Or.inl rfl⟩
    have hint : z.interior = g.shape := periodic_interior hz
    have bz : BackwardEuler z z nu dt := by
      refine ⟨rfl, rfl, rfl, rfl, ⟨_, laplacian_periodic hz, fun j _ => ?_⟩, fun j hj hn => absurd (by rw [hint]; exact hj) hn⟩
      show (0 : ℝ) - nu * dt * ∑ a, ((0 : ℝ) + 0 - 2 * 0) / g.step a ^ 2 = 0
      simp
    have by' : BackwardEuler z y nu dt := by
      refine ⟨rfl, rfl, rfl, rfl, ⟨_, laplacian_periodic hy, fun j hj => ?_⟩, fun j hj hn => absurd (by rw [hint]; exact hj) hn⟩
      rw [hint] at hj
      show (∑ a : Fin d, ((r a).array.data j - (r a).array.data (rollIdx g.shape a (-1) j)) / g.step a) - nu * dt *
        ∑ b : Fin d, ((∑ a : Fin d, ((r a).array.data (rollIdx g.shape b 1 j) -
            (r a).array.data (rollIdx g.shape a (-1) (rollIdx g.shape b 1 j))) / g.step a) +
          (∑ a : Fin d, ((r a).array.data (rollIdx g.shape b (-1) j) -
            (r a).array.data (rollIdx g.shape a (-1) (rollIdx g.shape b (-1) j))) / g.step a) -
          2 * ∑ a : Fin d, ((r a).array.data j - (r a).array.data (rollIdx g.shape a (-1) j)) / g.step a) / g.step b ^ 2 = 0
      rw [← h0 j hj]
      have e1 : ∑ b : Fin d, ((∑ a : Fin d, ((r a).array.data (rollIdx g.shape b 1 j) -
            (r a).array.data (rollIdx g.shape a (-1) (rollIdx g.shape b 1 j))) / g.step a) +
          (∑ a : Fin d, ((r a).array.data (rollIdx g.shape b (-1) j) -
            (r a).array.data (rollIdx g.shape a (-1) (rollIdx g.shape b (-1) j))) / g.step a) -
          2 * ∑ a : Fin d, ((r a).array.data j - (r a).array.data (rollIdx g.shape a (-1) j)) / g.step a) / g.step b ^ 2 =
          ∑ a : Fin d, ((∑ b : Fin d, ((r a).array.data (rollIdx g.shape b 1 j) +
            (r a).array.data (rollIdx g.shape b (-1) j) - 2 * (r a).array.data j) / g.step b ^ 2) -
            ∑ b : Fin d, ((r a).array.data (rollIdx g.shape b 1 (rollIdx g.shape a (-1) j)) +
              (r a).array.data (rollIdx g.shape b (-1) (rollIdx g.shape a (-1) j)) - 2 * (r a).array.data (rollIdx g.shape a (-1) j)) /
              g.step b ^ 2) / g.step a := by
        simp only [← Finset.sum_sub_distrib, ← Finset.sum_add_distrib, Finset.mul_sum, Finset.sum_div]
        rw [Finset.sum_comm]
        refine Finset.sum_congr rfl fun a _ => Finset.sum_congr rfl fun b _ => ?_
        rw [rollIdx_comm g.shape a b (-1) 1, rollIdx_comm g.shape a b (-1) (-1)]
        ring
      rw [e1, Finset.mul_sum, ← Finset.sum_sub_distrib]
      refine Finset.sum_congr rfl fun a _ => ?_
      rw [← eq a j hj, ← eq a _ (rollIdx_inR hj a (-1))]
      ring
    have := C36_diffusion_unique z y z nu dt hc hzs by' bz i (by rw [hint]; exact hi)
    exact this
  · intro a
    unfold total
    have e : ∑ i ∈ box g.shape, (u a).array.data i = ∑ i ∈ box g.shape, ((r a).array.data i - nu * dt * ∑ b, ((r a).array.data
        (rollIdx g.shape b 1 i) + (r a).array.data (rollIdx g.shape b (-1) i) - 2 * (r a).array.data i) / g.step b ^ 2) :=
      Finset.sum_congr rfl fun i hi => (eq a i (mem_box.1 hi)).symm
    rw [e, Finset.sum_sub_distrib, ← Finset.mul_sum, lsum a, mul_zero, sub_zero]
  · intro a
    have hp := hr.periodic hs a
    have hdis := (C18_laplacian_dissipative (r a) hp _ _ (laplacian_periodic hp) (forwardDifferences_periodic hp)).2
    unfold inner at hdis
    dsimp only at hdis
    rw [(hr.1 a).2.1, (hr.1 a).1] at hdis
    have h1 : ∑ i ∈ box g.shape, (r a).array.data i * (u a).array.data i = ∑ i ∈ box g.shape, (r a).array.data i ^ 2 - nu * dt *
        ∑ i ∈ box g.shape, (r a).array.data i * ∑ b, ((r a).array.data (rollIdx g.shape b 1 i) +
          (r a).array.data (rollIdx g.shape b (-1) i) - 2 * (r a).array.data i) / g.step b ^ 2 := by
      rw [Finset.mul_sum, ← Finset.sum_sub_distrib]
      refine Finset.sum_congr rfl fun i hi => ?_
      rw [← eq a i (mem_box.1 hi)]
      ring
    have h2 : 0 ≤ ∑ i ∈ box g.shape, ((r a).array.data i - (u a).array.data i) ^ 2 := Finset.sum_nonneg fun i _ => sq_nonneg _
    have h3 : ∑ i ∈ box g.shape, ((r a).array.data i - (u a).array.data i) ^ 2 = ∑ i ∈ box g.shape, (r a).array.data i ^ 2 -
        2 * ∑ i ∈ box g.shape, (r a).array.data i * (u a).array.data i + ∑ i ∈ box g.shape, (u a).array.data i ^ 2 := by
      rw [Finset.mul_sum, ← Finset.sum_sub_distrib, ← Finset.sum_add_distrib]
      exact Finset.sum_congr rfl fun i _ => by ring
    have h4 := mul_nonneg hc (neg_nonneg.2 hdis)
    linarith
  · intro hk a i hi
    obtain ⟨k, hk⟩ := hk a
    have bu : BackwardEuler (u a) (u a) nu dt := by
      have hp := hu.periodic hs a
      refine ⟨rfl, rfl, rfl, rfl, ⟨_, laplacian_periodic hp, fun j hj => ?_⟩, fun j hj hn => absurd (by rw [periodic_interior hp]; exact hj) hn⟩
      rw [periodic_interior hp, (hu.1 a).2.1] at hj
      dsimp only
      rw [(hu.1 a).2.1, Finset.sum_eq_zero, mul_zero, sub_zero]
      intro b _
      rw [hk j hj, hk _ (rollIdx_inR hj b 1), hk _ (rollIdx_inR hj b (-1))]
      ring
    exact C36_diffusion_unique (u a) (r a) (u a) nu dt hc ((hu.velocity hs).supported a) (h a) bu i (by
      rw [periodic_interior (hu.periodic hs a), (hu.1 a).2.1]; exact hi)

theorem advance_eq_ok {v : Fin d → GridVariable d ℝ} {t : Fin d → GridArray d ℝ} {dt : ℝ} {u : Fin d → GridVariable d ℝ} :
    (seqFin fun a => do
      let w ← gmap2 (fun x y => x + y) (v a).array (gmap (fun x => x * dt) (t a))
      return (⟨w, (v a).bc⟩ : GridVariable d ℝ)) = .ok u ↔
    ∀ a, ((v a).array.offset = (u a).array.offset ∧ (v a).array.grid = (u a).array.grid ∧ (v a).array.shape = (u a).array.shape) ∧
      ((t a).offset = (u a).array.offset ∧ (t a).grid = (u a).array.grid ∧ (t a).shape = (u a).array.shape) ∧
      (u a).bc = (v a).bc ∧ ∀ i, (u a).array.data i = (v a).array.data i + (t a).data i * dt := by
  rw [seqFin_eq_ok]
  refine forall_congr' fun a => ?_
  rw [Except.bind_eq_ok]
  constructor
  · rintro ⟨w, hw, hu⟩
    obtain ⟨h1, h2, h3, rfl⟩ := gmap2_eq_ok.1 hw
    have hu := Except.ok.inj hu
    rw [← hu]
    exact ⟨⟨rfl, rfl, rfl⟩, ⟨h2.symm, h3.symm, h1.symm⟩, rfl, fun i => rfl⟩
  · rintro ⟨⟨h1, h2, h3⟩, ⟨h4, h5, h6⟩, h7, h8⟩
    refine ⟨(u a).array, gmap2_eq_ok.2 ⟨h3.trans h6.symm, h1.trans h4.symm, h2.trans h5.symm, ?_⟩, ?_⟩
    · have e : (fun i => (v a).array.data i + (gmap (fun x => x * dt) (t a)).data i) = (u a).array.data := by
        funext i
        rw [h8 i]
        rfl
      rw [e, h1, h2, h3]
    · rw [← h7]
      rfl

/-- **C56.** One step of `implicit_diffusion_navier_stokes`, when it returns: an explicit Euler step with convection and `forcing / density`,
a projection, and a diffusion solve with the coefficient `viscosity`. -/
theorem C56_implicit_step (density viscosity dt : ℝ) (solve : PressureSolver d ℝ)
    (dsolve : (Fin d → GridVariable d ℝ) → ℝ → ℝ → Except Err (Fin d → GridVariable d ℝ)) (C : ConvectFn d)
    (f : ForcingFn d) (v w : Fin d → GridVariable d ℝ) :
    (implicitDiffusionNavierStokes density viscosity dt solve dsolve (some C) (some f) v = .ok w ↔
      ∃ (c F : Fin d → GridArray d ℝ) (u p : Fin d → GridVariable d ℝ), C v = .ok c ∧ f v = .ok F ∧
        (∀ a, (∀ x ∈ [(v a).array, c a, F a], x.offset = (u a).array.offset ∧ x.grid = (u a).array.grid ∧ x.shape = (u a).array.shape) ∧
          (u a).bc = (v a).bc ∧ ∀ i, (u a).array.data i = (v a).array.data i + ((c a).data i + (F a).data i / density) * dt) ∧
        projection u solve = .ok p ∧ dsolve p viscosity dt = .ok w) ∧
    (implicitDiffusionNavierStokes density viscosity dt solve dsolve (some C) none v = .ok w ↔
      ∃ (c : Fin d → GridArray d ℝ) (u p : Fin d → GridVariable d ℝ), C v = .ok c ∧
        (∀ a, (∀ x ∈ [(v a).array, c a], x.offset = (u a).array.offset ∧ x.grid = (u a).array.grid ∧ x.shape = (u a).array.shape) ∧
          (u a).bc = (v a).bc ∧ ∀ i, (u a).array.data i = (v a).array.data i + (c a).data i * dt) ∧
        projection u solve = .ok p ∧ dsolve p viscosity dt = .ok w) := by
  unfold implicitDiffusionNavierStokes accelerations convectOr
  simp only [Option.getD_some, Except.bind_eq_ok, advance_eq_ok, sumFields2, sumFields1]
  constructor
  · constructor
    · rintro ⟨t, ⟨c, hc, F, hF, ht⟩, u, hu, p, hp, hw⟩
      refine ⟨c, F, u, p, hc, hF, fun a => ⟨fun x hx => ?_, (hu a).2.2.1, fun i => ?_⟩, hp, hw⟩
      · have h1 := (hu a).2.1
        simp only [List.mem_cons, List.not_mem_nil, or_false] at hx
        rcases hx with rfl | rfl | rfl
        · exact (hu a).1
        · have h2 := (ht a).1
          exact ⟨h2.1.trans h1.1, h2.2.1.trans h1.2.1, h2.2.2.trans h1.2.2⟩
        · have h2 := (ht a).2.1
          exact ⟨h2.1.trans h1.1, h2.2.1.trans h1.2.1, h2.2.2.trans h1.2.2⟩
      · rw [(hu a).2.2.2 i, (ht a).2.2 i]
        rfl
    · rintro ⟨c, F, u, p, hc, hF, hu, hp, hw⟩
      refine ⟨fun a => ⟨⟨(u a).array.shape, fun i => (c a).data i + (F a).data i / density⟩, (u a).array.offset, (u a).array.grid⟩,
        ⟨c, hc, F, hF, fun a => ⟨(hu a).1 _ (by simp), (hu a).1 (F a) (by simp), fun i => rfl⟩⟩, u,
        fun a => ⟨(hu a).1 _ (by simp), ⟨rfl, rfl, rfl⟩, (hu a).2.1, (hu a).2.2⟩, p, hp, hw⟩
  · constructor
    · rintro ⟨t, ⟨c, hc, ht⟩, u, hu, p, hp, hw⟩
      refine ⟨c, u, p, hc, fun a => ⟨fun x hx => ?_, (hu a).2.2.1, fun i => ?_⟩, hp, hw⟩
      · have h1 := (hu a).2.1
        simp only [List.mem_cons, List.not_mem_nil, or_false] at hx
        rcases hx with rfl | rfl
        · exact (hu a).1
        · have h2 := (ht a).1
          exact ⟨h2.1.trans h1.1, h2.2.1.trans h1.2.1, h2.2.2.trans h1.2.2⟩
      · rw [(hu a).2.2.2 i, (ht a).2 i]
    · rintro ⟨c, u, p, hc, hu, hp, hw⟩
      exact ⟨c, ⟨c, hc, fun a => ⟨⟨rfl, rfl, rfl⟩, fun i => rfl⟩⟩, u,
        fun a => ⟨(hu a).1 _ (by simp), (hu a).1 _ (by simp), (hu a).2.1, (hu a).2.2⟩, p, hp, hw⟩

/-- **C56.** On a periodic domain, with exact pressure and diffusion solvers, whatever the convection and the forcing: when the step with
implicit diffusion returns, the new field is divergence free, and it is the backward Euler step with coefficient `viscosity` from a
divergence-free field. -/
theorem C56_implicit_divergence_free (hd : d ≠ 0) (g : Grid d ℝ) (hs : ∀ a, 0 < g.shape a) (density viscosity dt : ℝ)
    (hc : 0 ≤ viscosity * dt) (solve : PressureSolver d ℝ) (hex : ExactSolver g solve)
    (dsolve : (Fin d → GridVariable d ℝ) → ℝ → ℝ → Except Err (Fin d → GridVariable d ℝ)) (hds : ExactDiffusion g dsolve)
    (C : Option (ConvectFn d)) (f : Option (ForcingFn d)) (v w : Fin d → GridVariable d ℝ) (hv : PeriodicField g v)
    (hw : implicitDiffusionNavierStokes density viscosity dt solve dsolve C f v = .ok w) :
    PeriodicField g w ∧ DivergenceFree g w ∧
      ∃ p, PeriodicField g p ∧ DivergenceFree g p ∧ ∀ a, BackwardEuler (p a) (w a) viscosity dt := by
  unfold implicitDiffusionNavierStokes at hw
  obtain ⟨t, -, hw⟩ := Except.bind_eq_ok.1 hw
  obtain ⟨u, hu, hw⟩ := Except.bind_eq_ok.1 hw
  obtain ⟨p, hp, hw⟩ := Except.bind_eq_ok.1 hw
  have hul : SameLayout v u := fun a => by
    have h := advance_eq_ok.1 hu a
    exact ⟨h.1.1.symm, h.1.2.1.symm, h.2.2.1, h.1.2.2.symm⟩
  obtain ⟨p', hp', -, hpp, hpd, -, -⟩ := exact_projection hd hs hex (hul.periodicField hv)
  rw [hp] at hp'
  injection hp' with hp'
  subst hp'
  obtain ⟨r, hr, hb⟩ := hds p viscosity dt hpp hc
  rw [hw] at hr
  injection hr with hr
  subst hr
  obtain ⟨h1, h2, -⟩ := implicit_diffusion_invariants hd hs hc hpp hb
  exact ⟨h1.periodicField hpp, h2 hpd, p, hpp, hpd, hb⟩

/-- **C56.** With its default convection and no forcing the step with implicit diffusion succeeds on every periodic velocity field, for
every nonnegative `viscosity * dt`; the result is divergence free, has the same total momentum, and a uniform flow is not changed. -/
theorem C56_implicit_default_step (hd : d ≠ 0) (g : Grid d ℝ) (hs : ∀ a, 0 < g.shape a) (density viscosity dt : ℝ)
    (hc : 0 ≤ viscosity * dt) (solve : PressureSolver d ℝ) (hex : ExactSolver g solve)
    (dsolve : (Fin d → GridVariable d ℝ) → ℝ → ℝ → Except Err (Fin d → GridVariable d ℝ)) (hds : ExactDiffusion g dsolve)
    (v : Fin d → GridVariable d ℝ) (hv : PeriodicField g v) :
    ∃ w, implicitDiffusionNavierStokes density viscosity dt solve dsolve none none v = .ok w ∧ PeriodicField g w ∧ DivergenceFree g w ∧
      (∀ a, total g w a = total g v a) ∧
      ((∀ b, ∃ k, ∀ i, InR g.shape i → (v b).array.data i = k) → SameState v w) := by
  obtain ⟨c, hcv, h⟩ := default_convect_ok hd hs hv dt
  let u : Fin d → GridVariable d ℝ := fun a =>
    ⟨⟨⟨(v a).array.shape, fun i => (v a).array.data i + (c a).data i * dt⟩, (v a).array.offset, (v a).array.grid⟩, (v a).bc⟩
  have hul : SameLayout v u := fun a => ⟨rfl, rfl, rfl, rfl⟩
  have hup := hul.periodicField hv
  obtain ⟨p, hp, hpl, hpp, hpd, hpt, hpf⟩ := exact_projection hd hs hex hup
  obtain ⟨w, hw, hb⟩ := hds p viscosity dt hpp hc
  obtain ⟨h1, h2, h3, -, h5⟩ := implicit_diffusion_invariants hd hs hc hpp hb
  refine ⟨w, ?_, h1.periodicField hpp, h2 hpd, fun a => ?_, fun hk => ⟨fun a => ?_, fun a i hi => ?_⟩⟩
  · refine ((C56_implicit_step density viscosity dt solve dsolve (defaultConvect dt) (fun _ => .error .value) v w).2).2
      ⟨c, u, p, hcv, fun a => ⟨fun x hx => ?_, rfl, fun i => rfl⟩, hp, hw⟩
    simp only [List.mem_cons, List.not_mem_nil, or_false] at hx
    rcases hx with rfl | rfl
    · exact ⟨rfl, rfl, rfl⟩
    · exact ⟨(h a).1, (h a).2.1, (h a).2.2.1⟩
  · rw [h3 a, hpt a]
    unfold total
    show ∑ i ∈ box g.shape, ((v a).array.data i + (c a).data i * dt) = _
    rw [Finset.sum_add_distrib, ← Finset.sum_mul, (h a).2.2.2.1, zero_mul, add_zero]
  · exact ⟨((h1 a).1.trans (hpl a).1), (h1 a).2.1.trans (hpl a).2.1, (h1 a).2.2.1.trans (hpl a).2.2.1, (h1 a).2.2.2.trans (hpl a).2.2.2⟩
  · rw [(hv.1 a).2.1] at hi
    have hue : ∀ b i, InR g.shape i → (u b).array.data i = (v b).array.data i := fun b i hi => by
      show (v b).array.data i + (c b).data i * dt = _
      rw [(h b).2.2.2.2 hk i hi, zero_mul, add_zero]
    have hud : DivergenceFree g u := by
      refine ⟨_, hup.divergence hd hs, fun j hj => ?_⟩
      dsimp only
      refine Finset.sum_eq_zero fun b _ => ?_
      obtain ⟨k, hk⟩ := hk b
      rw [hue b j hj, hue b _ (rollIdx_inR hj b (-1)), hk j hj, hk _ (rollIdx_inR hj b (-1)), sub_self, zero_div]
    have hpe : ∀ b i, InR g.shape i → (p b).array.data i = (v b).array.data i := fun b i hi => (hpf hud b i hi).trans (hue b i hi)
    rw [h5 (fun b => by
      obtain ⟨k, hk⟩ := hk b
      exact ⟨k, fun i hi => (hpe b i hi).trans (hk i hi)⟩) a i hi, hpe a i hi]

/-- **C56.** Without convection and forcing (Stokes flow) a step with implicit diffusion never increases the kinetic energy of a periodic
field, for any nonnegative `viscosity * dt`. -/
theorem C56_implicit_stokes_energy (hd : d ≠ 0) (g : Grid d ℝ) (hs : ∀ a, 0 < g.shape a) (density viscosity dt : ℝ)
    (hc : 0 ≤ viscosity * dt) (solve : PressureSolver d ℝ) (hex : ExactSolver g solve)
    (dsolve : (Fin d → GridVariable d ℝ) → ℝ → ℝ → Except Err (Fin d → GridVariable d ℝ)) (hds : ExactDiffusion g dsolve)
    (C : ConvectFn d) (hC : ∀ u c, C u = .ok c → ∀ a i, (c a).data i = 0) (v w : Fin d → GridVariable d ℝ) (hv : PeriodicField g v)
    (hw : implicitDiffusionNavierStokes density viscosity dt solve dsolve (some C) none v = .ok w) :
    ∑ a, ∑ i ∈ box g.shape, (w a).array.data i ^ 2 ≤ ∑ a, ∑ i ∈ box g.shape, (v a).array.data i ^ 2 := by
  obtain ⟨c, u, p, hcv, hu, hp, hw⟩ := ((C56_implicit_step density viscosity dt solve dsolve C (fun _ => .error .value) v w).2).1 hw
  have hul : SameLayout v u := fun a => by
    have h := (hu a).1 (v a).array (by simp)
    exact ⟨h.1.symm, h.2.1.symm, (hu a).2.1, h.2.2.symm⟩
  have hup := hul.periodicField hv
  obtain ⟨bc, q, hq, hsol⟩ := hex u hup
  obtain ⟨p', G, hp', -, -, hen⟩ := C33_energy hd g u (hup.velocity hs) hup.walls (fun a => hup.closed a) solve bc q hq hsol
  obtain ⟨p'', hp'', -, hpp, -⟩ := exact_projection hd hs hex hup
  rw [hp] at hp' hp''
  injection hp' with hp'
  injection hp'' with hp''
  subst hp'
  subst hp''
  obtain ⟨r, hr, hb⟩ := hds p viscosity dt hpp hc
  rw [hw] at hr
  injection hr with hr
  subst hr
  obtain ⟨-, -, -, h4, -⟩ := implicit_diffusion_invariants hd hs hc hpp hb
  refine (Finset.sum_le_sum fun a _ => h4 a).trans ?_
  have e : ∀ x : Fin d → GridVariable d ℝ, PeriodicField g x → ∑ a, inner (x a).array.toNArr (x a).array.toNArr =
      ∑ a, ∑ i ∈ box g.shape, (x a).array.data i ^ 2 := fun x hx => Finset.sum_congr rfl fun a _ => by
    unfold inner
    rw [(hx.1 a).2.1]
    exact Finset.sum_congr rfl fun i _ => (sq _).symm
  rw [e p hpp, e u hup] at hen
  refine hen.trans (le_of_eq ?_)
  refine Finset.sum_congr rfl fun a _ => Finset.sum_congr rfl fun i _ => ?_
  rw [(hu a).2.2 i, hC v c hcv a i, zero_mul, add_zero]

/-- **C56** (an inconsistency of the code).  The explicit step depends on viscosity and density only through `viscosity / density`, the step
with implicit diffusion ignores the density of an unforced fluid: its kinematic viscosity is `viscosity`. -/
theorem C56_implicit_ignores_density (density density' viscosity dt : ℝ) (hρ : density ≠ 0) (solve : PressureSolver d ℝ)
    (dsolve : (Fin d → GridVariable d ℝ) → ℝ → ℝ → Except Err (Fin d → GridVariable d ℝ)) (C : Option (ConvectFn d)) (D : DiffuseFn d)
    (s : Stepper d) (v : Fin d → GridVariable d ℝ) :
    semiImplicitNavierStokes density (some viscosity) dt solve C D none s v =
      semiImplicitNavierStokes 1 (some (viscosity / density)) dt solve C D none s v ∧
    implicitDiffusionNavierStokes density viscosity dt solve dsolve C none v =
      implicitDiffusionNavierStokes density' viscosity dt solve dsolve C none v := by
  refine ⟨?_, rfl⟩
  have h : ∀ u, explicitTerms density (some viscosity) dt C D none u = explicitTerms 1 (some (viscosity / density)) dt C D none u := by
    intro u
    unfold explicitTerms addDiffusion pyDiv
    simp only [if_neg hρ, one_ne_zero, if_false, div_one, addForcing]
  unfold semiImplicitNavierStokes
  have : termsOnLeaves density (some viscosity) dt C D none v = termsOnLeaves 1 (some (viscosity / density)) dt C D none v := by
    funext x
    unfold termsOnLeaves
    rw [h]
  rw [this]

end JaxCfd
