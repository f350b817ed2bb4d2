import Verif.Props.NavierStokes
import Verif.Props.Forcings

/-!
# C56: forced trajectories
-/

namespace JaxCfd
variable {d : ℕ} [HasNan ℝ]

/-- A forcing that succeeds on every periodic velocity field of the grid and returns an array of the size of the grid on the cell faces for every component. -/
def FaceForcing (g : Grid d ℝ) (F : ForcingFn d) : Prop := ∀ u, PeriodicField g u → ∃ f, F u = .ok f ∧ FaceField g f

/-- **C56.** With the default convection and diffusion and any forcing that returns arrays on the cell faces, a step succeeds on every periodic velocity field, for every Runge-Kutta stepper and
every time step; the result is divergence free. -/
theorem C56_forced_step (hd : d ≠ 0) (g : Grid d ℝ) (hs : ∀ a, 0 < g.shape a) (density : ℝ) (viscosity : Option ℝ) (hρ : density ≠ 0 ∨ viscosity = none) (dt : ℝ) (solve : PressureSolver d ℝ)
    (hex : ExactSolver g solve) (F : ForcingFn d) (hF : FaceForcing g F) (s : Stepper d) (hst : RungeKutta s) (v : Fin d → GridVariable d ℝ) (hv : PeriodicField g v) :
    ∃ w, semiImplicitNavierStokes density viscosity dt solve none diffuse (some F) s v = .ok w ∧ PeriodicField g w ∧ DivergenceFree g w := by
  have hex' : ∃ w, semiImplicitNavierStokes density viscosity dt solve none diffuse (some F) s v = .ok w := by
    obtain ⟨A, b, t, ht, hrows, hb, rfl⟩ := hst
    have hT : ∀ x, ∃ y, termsOnLeaves density viscosity dt none diffuse (some F) v x = .ok y := fun x => by
      have hu : PeriodicField g (withLeaves v x) := (withLeaves_layout v x).periodicField hv
      obtain ⟨T, hT, hl, -⟩ := default_terms_ok hd hs hρ dt hu
      obtain ⟨f, hf, hff⟩ := hF _ hu
      have hTp := hl.periodicField hu
      unfold explicitTerms at hT
      obtain ⟨c, hc, hT⟩ := Except.bind_eq_ok.1 hT
      obtain ⟨e, he, hT⟩ := Except.bind_eq_ok.1 hT
      obtain ⟨y, hy, hT⟩ := Except.bind_eq_ok.1 hT
      obtain rfl := Except.ok.inj hy
      obtain rfl := Except.ok.inj hT
      have hs2 : sumFields [e, fun a => gmap (fun x => x / density) (f a)] = .ok fun a => ⟨⟨g.shape, fun i => (e a).data i + (f a).data i / density⟩, (e a).offset, g⟩ :=
        sumFields2.2 fun a => ⟨⟨rfl, (hTp.1 a).1, (hTp.1 a).2.1⟩, ⟨funext fun b => ((hff a).2.2 b).trans ((hTp.1 a).2.2 b).symm, (hff a).1, (hff a).2.1⟩, fun i => rfl⟩
      have hk : explicitTerms density viscosity dt none diffuse (some F) (withLeaves v x) =
          .ok fun a => ⟨⟨⟨g.shape, fun i => (e a).data i + (f a).data i / density⟩, (e a).offset, g⟩, (withLeaves v x a).bc⟩ := by
        unfold explicitTerms
        rw [hc, Except.bind_ok, he, Except.bind_ok]
        unfold addForcing
        dsimp only
        rw [hf, Except.bind_ok, hs2]
        rfl
      refine ⟨leaves fun a => ⟨⟨⟨g.shape, fun i => (e a).data i + (f a).data i / density⟩, (e a).offset, g⟩, (withLeaves v x a).bc⟩, ?_⟩
      unfold termsOnLeaves
      rw [hk, Except.bind_ok]
      exact leavesLike_eq_ok.2 ⟨fun a => ⟨(hl a).1, (hv.1 a).1.symm, rfl, (hv.1 a).2.1.symm⟩, rfl⟩
    have hP : ∀ x, ∃ y, projectOnLeaves solve v x = .ok y := fun x => by
      obtain ⟨p, hp, hl, -⟩ := exact_projection hd hs hex ((withLeaves_layout v x).periodicField hv)
      refine ⟨leaves p, ?_⟩
      unfold projectOnLeaves
      rw [hp, Except.bind_ok]
      exact leavesLike_eq_ok.2 ⟨hl, rfl⟩
    obtain ⟨r, hr⟩ := navierStokesRK_total ht hrows _ _ hT hP dt (leaves v)
    refine ⟨withLeaves v r, ?_⟩
    unfold semiImplicitNavierStokes
    rw [hr]
    rfl
  obtain ⟨w, hw⟩ := hex'
  exact ⟨w, hw, C56_divergence_free hd g hs density viscosity dt solve hex none diffuse (some F) s hst v w hv hw⟩

/-- **C56.** Any number of repeated forced steps succeeds, and from the first step on the state is a divergence-free periodic field; if the total of the forcing is always `m`, the total momentum
grows by exactly `dt * m / density` per step. -/
theorem C56_forced_trajectory (hd : d ≠ 0) (g : Grid d ℝ) (hs : ∀ a, 0 < g.shape a) (density : ℝ) (viscosity : Option ℝ) (hρ : density ≠ 0 ∨ viscosity = none) (dt : ℝ) (solve : PressureSolver d ℝ)
    (hex : ExactSolver g solve) (F : ForcingFn d) (hF : FaceForcing g F) (s : Stepper d) (hst : RungeKutta s) (n : ℕ) (v : Fin d → GridVariable d ℝ) (hv : PeriodicField g v) :
    ∃ w, repeated 0 (semiImplicitNavierStokes density viscosity dt solve none diffuse (some F) s) n v = .ok w ∧ PeriodicField g w ∧ (0 < n ∨ DivergenceFree g v → DivergenceFree g w) ∧
      ∀ m : Fin d → ℝ, (∀ u f, PeriodicField g u → F u = .ok f → ∀ a, ∑ i ∈ box g.shape, (f a).data i = m a) → ∀ a, total g w a = total g v a + n * (dt * m a / density) := by
  induction n generalizing v with
  | zero => exact ⟨v, repeated_zero _ v, hv, fun h => h.resolve_left (by simp), fun m _ a => by simp⟩
  | succ n ih =>
    obtain ⟨u, hu, hup, hdf⟩ := C56_forced_step hd g hs density viscosity hρ dt solve hex F hF s hst v hv
    obtain ⟨w, hw, h1, h2, h3⟩ := ih u hup
    refine ⟨w, by rw [repeated_succ _ n v u hu]; exact hw, h1, fun _ => h2 (Or.inr hdf), fun m hm a => ?_⟩
    rw [h3 m hm a, C56_momentum hd g hs density viscosity dt solve hex none (by simp) (some F) m (fun f' u' f hf' hu' hf => by
      obtain rfl := Option.some.inj hf'
      exact hm u' f hu' hf) (by simp) s hst v u hv hu a]
    push_cast
    ring

/-- **C56.** The hypothesis on the forcing holds for the linear forcing, no forcing, Kolmogorov forcing in two and three dimensions, and sums of one or more such forcings. -/
theorem C56_face_forcings (g : Grid d ℝ) :
    (∀ c : ℝ, FaceForcing g (linearForcing c)) ∧ FaceForcing g noForcing ∧
      (∀ (scale k : ℝ) (swap : Bool), 2 ≤ d → d ≤ 3 → ∃ F, kolmogorovForcing g scale k swap none = .ok F ∧ FaceForcing g F) ∧
      ∀ l : List (ForcingFn d), l ≠ [] → (∀ F ∈ l, FaceForcing g F) → FaceForcing g (sumForcings l) := by
  refine ⟨fun c u hu => ⟨_, rfl, fun a => ⟨(hu.1 a).1, (hu.1 a).2.1, (hu.1 a).2.2⟩⟩, fun u hu => ⟨_, rfl, fun a => ⟨(hu.1 a).1, (hu.1 a).2.1, (hu.1 a).2.2⟩⟩, fun scale k swap h2 h3 => ?_,
    fun l hne hl u hu => ?_⟩
  · obtain ⟨F, hF, f, hf, hff, -⟩ := C49_kolmogorov h2 h3 g scale k swap
    exact ⟨F, hF, fun u _ => ⟨f, hf u, hff⟩⟩
  · have hout : ∀ l : List (ForcingFn d), (∀ F ∈ l, FaceForcing g F) → ∃ outs : List (Fin d → GridArray d ℝ), List.Forall₂ (fun F o => F u = .ok o) l outs ∧ ∀ o ∈ outs, FaceField g o := by
      intro l
      induction l with
      | nil => exact fun _ => ⟨[], .nil, by simp⟩
      | cons F l ih =>
        intro h
        obtain ⟨outs, h1, h2⟩ := ih fun G hG => h G (List.mem_cons_of_mem _ hG)
        obtain ⟨f, hf, hff⟩ := h F (by simp) u hu
        exact ⟨f :: outs, .cons hf h1, fun o ho => by
          rcases List.mem_cons.1 ho with rfl | ho
          · exact hff
          · exact h2 o ho⟩
    obtain ⟨outs, h1, h2⟩ := hout l hl
    let r : Fin d → GridArray d ℝ := fun a => ⟨⟨g.shape, fun i => (outs.map fun o => (o a).data i).sum⟩, fun b => if b = a then 1 else 1 / 2, g⟩
    exact ⟨r, (C49_sum l u r).2 ⟨outs, h1, Or.inr hne, fun a => ⟨fun o ho => ⟨funext (h2 o ho a).2.2, (h2 o ho a).1, (h2 o ho a).2.1⟩, rfl⟩⟩, fun a => ⟨rfl, rfl, fun b => rfl⟩⟩

end JaxCfd
