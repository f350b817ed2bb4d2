import Verif.Lemmas.Equations

/-!
# C56: the Navier-Stokes steps of `jax_cfd.base.equations`
-/

namespace JaxCfd
variable {d : ℕ}

/-- A time stepper made from a Butcher tableau with complete rows whose weights sum to one. -/
def RungeKutta (s : Stepper d) : Prop :=
  ∃ (a : List (List ℝ)) (b : List ℝ) (t : Tableau ℝ), mkTableau a b = .ok t ∧ (∀ i < a.length, i + 1 ≤ (a.getD i []).length) ∧
    b.sum = 1 ∧ s = navierStokesRK t

/-- The arrays hold no data outside their shapes (in the model such data is 0). -/
def Clean (v : Fin d → GridVariable d ℝ) : Prop := ∀ a i, ¬ InR (v a).array.shape i → (v a).array.data i = 0

/-- The state `v + dt * T`, with the layout of `v`. -/
noncomputable def advanced (v T : Fin d → GridVariable d ℝ) (dt : ℝ) : Fin d → GridVariable d ℝ :=
  withLeaves v fun a i => leaves v a i + dt * leaves T a i

/-- The total of component `a`. -/
noncomputable def total (g : Grid d ℝ) (v : Fin d → GridVariable d ℝ) (a : Fin d) : ℝ := ∑ i ∈ box g.shape, (v a).array.data i

/-- Same layout and the same values. -/
def SameState (v w : Fin d → GridVariable d ℝ) : Prop :=
  SameLayout v w ∧ ∀ a i, InR (v a).array.shape i → (w a).array.data i = (v a).array.data i

/-- The four steppers of the library are Runge-Kutta steppers. -/
theorem C56_steppers : RungeKutta (d := d) forwardEuler ∧ RungeKutta (d := d) midpointRK2 ∧ RungeKutta (d := d) heunRK2 ∧
    RungeKutta (d := d) classicRK4 := by
  refine ⟨⟨[], [1], ⟨[], [1]⟩, by simp [mkTableau], by simp, by simp, rfl⟩,
    ⟨[[1 / 2]], [0, 1], ⟨[[1 / 2]], [0, 1]⟩, if_neg (by simp), by intro i hi; simp at hi; subst hi; simp, by simp, ?_⟩,
    ⟨[[1]], [1 / 2, 1 / 2], ⟨[[1]], [1 / 2, 1 / 2]⟩, if_neg (by simp), by intro i hi; simp at hi; subst hi; simp, by norm_num, ?_⟩,
    ⟨[[1 / 2], [0, 1 / 2], [0, 0, 1]], [1 / 6, 1 / 3, 1 / 3, 1 / 6], ⟨[[1 / 2], [0, 1 / 2], [0, 0, 1]], [1 / 6, 1 / 3, 1 / 3, 1 / 6]⟩, if_neg (by simp), by
      intro i hi
      simp at hi
      interval_cases i <;> simp, by norm_num, ?_⟩⟩
  all_goals
    funext F P dt u
    rfl

theorem withLeaves_leaves {v : Fin d → GridVariable d ℝ} (h : Clean v) : withLeaves v (leaves v) = v := by
  funext a
  have : leaves v a = (v a).array.data := by
    funext i
    by_cases hi : InR (v a).array.shape i
    · rw [leaves_inR hi]
    · rw [leaves_out hi, h a i hi]
  unfold withLeaves
  rw [this]

theorem SameLayout.withLeaves {v w : Fin d → GridVariable d ℝ} (h : SameLayout v w) (x : Leaves d) : withLeaves v x = withLeaves w x := by
  funext a
  unfold JaxCfd.withLeaves
  rw [(h a).1, (h a).2.1, (h a).2.2.1, (h a).2.2.2]

theorem SameLayout.state {v p : Fin d → GridVariable d ℝ} (h : SameLayout v p) : SameState p (JaxCfd.withLeaves v (leaves p)) := by
  refine ⟨fun a => ⟨(h a).1.symm, (h a).2.1.symm, (h a).2.2.1.symm, (h a).2.2.2.symm⟩, fun a i hi => ?_⟩
  show leaves p a i = _
  exact leaves_inR hi

variable [HasNan ℝ]

/-! ## What a step computes -/

/-- **C56.** The explicit terms of Navier-Stokes: convection, plus diffusion with the kinematic viscosity `viscosity / density` if a
viscosity is given, plus `forcing / density` if there is a forcing; they carry the boundary conditions of the state.  The call succeeds
exactly if each term does and all terms live on the same points (and `density ≠ 0` if it divides the viscosity). -/
theorem C56_explicit_terms (density dt : ℝ) (C : ConvectFn d) (D : DiffuseFn d) (v T : Fin d → GridVariable d ℝ) :
    (∀ nu f, explicitTerms density (some nu) dt (some C) D (some f) v = .ok T ↔
      density ≠ 0 ∧ ∃ (c e F : Fin d → GridArray d ℝ), C v = .ok c ∧ (∀ a, D (v a) (nu / density) = .ok (e a)) ∧ f v = .ok F ∧ ∀ a,
        (∀ u ∈ [c a, e a, F a], u.offset = (T a).array.offset ∧ u.grid = (T a).array.grid ∧ u.shape = (T a).array.shape) ∧
        (T a).bc = (v a).bc ∧ ∀ i, (T a).array.data i = (c a).data i + (e a).data i + (F a).data i / density) ∧
    (∀ nu, explicitTerms density (some nu) dt (some C) D none v = .ok T ↔
      density ≠ 0 ∧ ∃ (c e : Fin d → GridArray d ℝ), C v = .ok c ∧ (∀ a, D (v a) (nu / density) = .ok (e a)) ∧ ∀ a,
        (∀ u ∈ [c a, e a], u.offset = (T a).array.offset ∧ u.grid = (T a).array.grid ∧ u.shape = (T a).array.shape) ∧
        (T a).bc = (v a).bc ∧ ∀ i, (T a).array.data i = (c a).data i + (e a).data i) ∧
    (∀ f, explicitTerms density none dt (some C) D (some f) v = .ok T ↔
      ∃ (c F : Fin d → GridArray d ℝ), C v = .ok c ∧ f v = .ok F ∧ ∀ a,
        (∀ u ∈ [c a, F a], u.offset = (T a).array.offset ∧ u.grid = (T a).array.grid ∧ u.shape = (T a).array.shape) ∧
        (T a).bc = (v a).bc ∧ ∀ i, (T a).array.data i = (c a).data i + (F a).data i / density) ∧
    (explicitTerms density none dt (some C) D none v = .ok T ↔
      ∃ c, C v = .ok c ∧ ∀ a, (T a).array = c a ∧ (T a).bc = (v a).bc) := by
  have fin : ∀ y : Fin d → GridArray d ℝ, (pure (fun a => (⟨y a, (v a).bc⟩ : GridVariable d ℝ)) : Except Err _) = .ok T ↔
      ∀ a, (T a).array = y a ∧ (T a).bc = (v a).bc := by
    intro y
    constructor
    · intro h
      injection h with h
      subst h
      exact fun a => ⟨rfl, rfl⟩
    · intro h
      refine congrArg Except.ok ?_
      funext a
      rw [← (h a).1, ← (h a).2]
  have div : ∀ nu k : ℝ, pyDiv nu density = .ok k ↔ density ≠ 0 ∧ k = nu / density := by
    intro nu k
    unfold pyDiv
    by_cases h : density = 0
    · simp [h]
    · simp [h, eq_comm]
  unfold explicitTerms convectOr
  simp only [Option.getD_some, addDiffusion, addForcing, Except.bind_eq_ok, fin, div, sumFields2, seqFin_eq_ok]
  refine ⟨fun nu f => ?_, fun nu => ?_, fun f => ?_, ?_⟩
  · constructor
    · rintro ⟨c, hc, x, ⟨k, ⟨hk, rfl⟩, e, he, hx⟩, y, ⟨F, hF, hy⟩, hT⟩
      refine ⟨hk, c, e, F, hc, he, hF, fun a => ⟨?_, (hT a).2, fun i => ?_⟩⟩
      · rw [(hT a).1]
        intro u hu
        simp only [List.mem_cons, List.not_mem_nil, or_false] at hu
        have h1 := (hy a).1
        have h2 := (hx a).1
        have h3 := (hx a).2.1
        have h4 := (hy a).2.1
        rcases hu with rfl | rfl | rfl
        · exact ⟨h2.1.trans h1.1, h2.2.1.trans h1.2.1, h2.2.2.trans h1.2.2⟩
        · exact ⟨h3.1.trans h1.1, h3.2.1.trans h1.2.1, h3.2.2.trans h1.2.2⟩
        · exact h4
      · rw [(hT a).1, (hy a).2.2, (hx a).2.2]
        rfl
    · rintro ⟨hk, c, e, F, hc, he, hF, h⟩
      have l1 := fun a => (h a).1 (c a) (by simp)
      have l2 := fun a => (h a).1 (e a) (by simp)
      have l3 := fun a => (h a).1 (F a) (by simp)
      refine ⟨c, hc, fun a => ⟨⟨(T a).array.shape, fun i => (c a).data i + (e a).data i⟩, (T a).array.offset, (T a).array.grid⟩,
        ⟨_, ⟨hk, rfl⟩, e, he, fun a => ⟨l1 a, l2 a, fun i => rfl⟩⟩, fun a => (T a).array, ⟨F, hF, fun a => ⟨⟨rfl, rfl, rfl⟩, l3 a, fun i =>
          (h a).2.2 i⟩⟩, fun a => ⟨rfl, (h a).2.1⟩⟩
  · constructor
    · rintro ⟨c, hc, x, ⟨k, ⟨hk, rfl⟩, e, he, hx⟩, y, hy, hT⟩
      injection hy with hy
      subst hy
      refine ⟨hk, c, e, hc, he, fun a => ⟨?_, (hT a).2, fun i => ?_⟩⟩
      · rw [(hT a).1]
        intro u hu
        simp only [List.mem_cons, List.not_mem_nil, or_false] at hu
        rcases hu with rfl | rfl
        · exact (hx a).1
        · exact (hx a).2.1
      · rw [(hT a).1, (hx a).2.2]
    · rintro ⟨hk, c, e, hc, he, h⟩
      have l1 := fun a => (h a).1 (c a) (by simp)
      have l2 := fun a => (h a).1 (e a) (by simp)
      exact ⟨c, hc, fun a => (T a).array, ⟨_, ⟨hk, rfl⟩, e, he, fun a => ⟨l1 a, l2 a, fun i => (h a).2.2 i⟩⟩, _, rfl,
        fun a => ⟨rfl, (h a).2.1⟩⟩
  · constructor
    · rintro ⟨c, hc, x, hx, y, ⟨F, hF, hy⟩, hT⟩
      injection hx with hx
      subst hx
      refine ⟨c, F, hc, hF, fun a => ⟨?_, (hT a).2, fun i => ?_⟩⟩
      · rw [(hT a).1]
        intro u hu
        simp only [List.mem_cons, List.not_mem_nil, or_false] at hu
        rcases hu with rfl | rfl
        · exact (hy a).1
        · exact (hy a).2.1
      · rw [(hT a).1, (hy a).2.2]
        rfl
    · rintro ⟨c, F, hc, hF, h⟩
      have l1 := fun a => (h a).1 (c a) (by simp)
      have l2 := fun a => (h a).1 (F a) (by simp)
      exact ⟨c, hc, c, rfl, fun a => (T a).array, ⟨F, hF, fun a => ⟨l1 a, l2 a, fun i => (h a).2.2 i⟩⟩, fun a => ⟨rfl, (h a).2.1⟩⟩
  · constructor
    · rintro ⟨c, hc, x, hx, y, hy, hT⟩
      injection hx with hx
      subst hx
      injection hy with hy
      subst hy
      exact ⟨c, hc, hT⟩
    · rintro ⟨c, hc, h⟩
      exact ⟨c, hc, c, rfl, c, rfl, h⟩

/-- **C56.** `semi_implicit_navier_stokes` with its default stepper projects `v + dt * explicit_terms(v)`. -/
theorem C56_forward_euler_step (density : ℝ) (viscosity : Option ℝ) (dt : ℝ) (solve : PressureSolver d ℝ) (C : Option (ConvectFn d))
    (D : DiffuseFn d) (f : Option (ForcingFn d)) (v w : Fin d → GridVariable d ℝ) (hv : Clean v) :
    semiImplicitNavierStokes density viscosity dt solve C D f forwardEuler v = .ok w ↔
      ∃ T p, explicitTerms density viscosity dt C D f v = .ok T ∧ SameLayout v T ∧
        projection (advanced v T dt) solve = .ok p ∧ SameLayout v p ∧ w = withLeaves v (leaves p) := by
  unfold semiImplicitNavierStokes
  rw [C38_forward_euler]
  unfold termsOnLeaves projectOnLeaves
  simp only [withLeaves_leaves hv, Except.bind_eq_ok, leavesLike_eq_ok]
  constructor
  · rintro ⟨x, ⟨k, ⟨T, hT, hTl, rfl⟩, p, hp, hpl, rfl⟩, hw⟩
    injection hw with hw
    exact ⟨T, p, hT, hTl, hp, hpl, hw.symm⟩
  · rintro ⟨T, p, hT, hTl, hp, hpl, rfl⟩
    exact ⟨_, ⟨_, ⟨T, hT, hTl, rfl⟩, p, hp, hpl, rfl⟩, rfl⟩

/-- **C56.** Whatever the terms, the solver and the Runge-Kutta stepper: what a step returns is an output of the pressure projection of
a state laid out like the initial one, and it is itself laid out like the initial state. -/
theorem C56_step_is_projected (density : ℝ) (viscosity : Option ℝ) (dt : ℝ) (solve : PressureSolver d ℝ) (C : Option (ConvectFn d))
    (D : DiffuseFn d) (f : Option (ForcingFn d)) (s : Stepper d) (hs : RungeKutta s) (v w : Fin d → GridVariable d ℝ)
    (hw : semiImplicitNavierStokes density viscosity dt solve C D f s v = .ok w) :
    SameLayout v w ∧ ∃ u p, SameLayout v u ∧ projection u solve = .ok p ∧ SameState p w := by
  unfold semiImplicitNavierStokes at hw
  obtain ⟨x, hx, hw⟩ := Except.bind_eq_ok.1 hw
  injection hw with hw
  subst hw
  obtain ⟨a, b, t, ht, -, -, rfl⟩ := hs
  obtain ⟨⟨y, hy⟩, -, -⟩ := C38_projected t _ _ dt _ x hx
  unfold projectOnLeaves at hy
  obtain ⟨p, hp, hl⟩ := Except.bind_eq_ok.1 hy
  obtain ⟨hl', rfl⟩ := leavesLike_eq_ok.1 hl
  exact ⟨withLeaves_layout v _, withLeaves v y, p, withLeaves_layout v y, hp, hl'.state⟩

end JaxCfd
