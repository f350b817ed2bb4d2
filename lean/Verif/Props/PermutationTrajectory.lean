import Verif.Props.PermutationSteps
import Verif.Props.TranslationSemiLagrangian

/-!
# C72: relabelling the axes — implicit diffusion, trajectories, forcings, mirror-symmetric states
-/

namespace JaxCfd
variable {d : ℕ} {σ : Equiv.Perm (Fin d)}

section
variable [HasNan ℝ]

/-- **C72** Exact diffusion solves — however they are computed — on the grid and on the relabelled grid. -/
theorem C72_exact_diffusion (g : Grid d ℝ) (hs : ∀ a, 0 < g.shape a) (σ : Equiv.Perm (Fin d)) (nu dt : ℝ) (hc : 0 ≤ nu * dt)
    (dsolve dsolve' : (Fin d → GridVariable d ℝ) → ℝ → ℝ → Except Err (Fin d → GridVariable d ℝ)) (hex : ExactDiffusion g dsolve) (hex' : ExactDiffusion (g.permute σ) dsolve') :
    AxesCommute g σ (fun u => dsolve u nu dt) fun u => dsolve' u nu dt := by
  intro u u' hu h
  have hu' := h.periodicField hu
  have hs' : ∀ a, 0 < (g.permute σ).shape a := Grid.permute_pos hs
  obtain ⟨r, hr, hb⟩ := hex u nu dt hu hc
  obtain ⟨r', hr', hb'⟩ := hex' u' nu dt hu' hc
  show RelS _ (dsolve u nu dt) (dsolve' u' nu dt)
  rw [hr, hr']
  refine RelS.ok fun a => ?_
  have hper := hu.periodic hs (σ a)
  have hper' := hu'.periodic hs' a
  have hsh : (r (σ a)).array.shape = g.shape := (hb (σ a)).shape.trans (hu.1 (σ a)).2.1
  have hrp : (r (σ a)).Periodic := ⟨by rw [(hb (σ a)).bc]; exact hper.1, by rw [(hb (σ a)).shape, (hb (σ a)).grid]; exact hper.2⟩
  have htr := GridVariable.relabel_relabelled σ (r (σ a)) hrp
  have hsh' : (u' a).array.shape = (g.permute σ).shape := (hu'.1 a).2.1
  have hbt : BackwardEuler (u' a) ⟨(r (σ a)).array.relabel σ, (r (σ a)).bc.permute σ⟩ nu dt := by
    obtain ⟨L, hL, hLe⟩ := (hb (σ a)).step
    obtain ⟨L', hL', hLL⟩ := C72_laplacian htr L hL
    have hLs : L.shape = g.shape := by
      rw [laplacian_periodic hrp] at hL
      rw [← Except.ok.inj hL]
      exact hsh
    refine ⟨?_, funext fun b => ?_, funext fun b => ?_, ?_, ⟨L', hL', fun i hi => ?_⟩, fun i hi hn => absurd (by rw [periodic_interior hper']; exact hi) hn⟩
    · show (r (σ a)).bc.permute σ = _
      rw [(hb (σ a)).bc, (h a).1]
    · show (r (σ a)).array.shape (σ b) = _
      rw [(hb (σ a)).shape, (h a).shape]
    · show (r (σ a)).array.offset (σ b) = _
      rw [(hb (σ a)).offset, (h a).offset]
    · show (r (σ a)).array.grid.permute σ = _
      rw [(hb (σ a)).grid, (h a).grid]
    · rw [periodic_interior hper', hsh'] at hi
      have hi' : InR g.shape (original σ i) := original_inR (s' := (g.permute σ).shape) (fun _ => rfl) hi
      have e1 : L'.shape = (g.permute σ).shape := funext fun b => by rw [hLL.2.2.2.1, hLs]; rfl
      rw [hLL.2.2.2.2.2 i (by rw [e1]; exact hi), (h a).data i (by rw [hsh']; exact hi), ← hLe (original σ i) (by rw [periodic_interior hper, (hu.1 (σ a)).2.1]; exact hi')]
      rfl
  have huniq := C36_diffusion_unique (u' a) (r' a) _ nu dt hc ((hu'.velocity hs').supported a) (hb' a) hbt
  refine ⟨?_, hrp.1, fun b => ?_, ?_, htr.2.2.2.2.1, fun b => ?_, htr.2.2.2.2.2.2.1, fun i hi => ?_⟩
  · rw [(hb' a).bc, (h a).1, (hb (σ a)).bc]
  · rw [(hb' a).offset, (h a).offset, (hb (σ a)).offset]
  · rw [(hb' a).grid, (h a).grid, (hb (σ a)).grid]
  · show (r' a).array.shape b = _
    rw [(hb' a).shape, (h a).shape, (hb (σ a)).shape]
  · exact huniq i (by rw [periodic_interior hper', ← (hb' a).shape]; exact hi)

/-- **C72** An implicit-diffusion Navier-Stokes step whose parts treat the axes alike. -/
theorem C72_implicit_step (g : Grid d ℝ) (σ : Equiv.Perm (Fin d)) (density viscosity dt : ℝ) (solve solve' : PressureSolver d ℝ)
    (hP : AxesCommute g σ (fun u => projection u solve) fun u => projection u solve') (dsolve dsolve' : (Fin d → GridVariable d ℝ) → ℝ → ℝ → Except Err (Fin d → GridVariable d ℝ))
    (hS : AxesCommute g σ (fun u => dsolve u viscosity dt) fun u => dsolve' u viscosity dt) (C C' : Option (ConvectFn d)) (f f' : Option (ForcingFn d))
    (hC : OptAxesCommute g σ C C') (hf : OptAxesCommute g σ f f') :
    AxesCommute g σ (implicitDiffusionNavierStokes density viscosity dt solve dsolve C f) (implicitDiffusionNavierStokes density viscosity dt solve' dsolve' C' f') := by
  intro u u' hu h
  unfold implicitDiffusionNavierStokes
  refine RelS.bind (R := TendencyRelabelled σ) ?_ fun r r' hr => RelS.bind' (RelS.seqFin (R := fun _ => GridVariable.Relabelled σ) σ fun a => ?_) fun v v' hok hv =>
    RelS.bind' (R := VelocityRelabelled σ) ?_ fun w w' hw hww => ?_
  · unfold accelerations
    refine RelS.bind (hC.convect dt u u' hu h) fun c c' hc => ?_
    rcases hf with ⟨rfl, rfl⟩ | ⟨F, F', rfl, rfl, hF⟩
    · exact sumFields_relabelled (.cons hc .nil)
    · exact RelS.bind (hF u u' hu h) fun f f' hff => sumFields_relabelled (.cons hc (.cons (fun a => (hff a).gmap _) .nil))
  · exact RelS.bind ((h a).2.2.gmap2 ((hr a).gmap fun x => x * dt) fun x y => x + y) fun x x' hx => RelS.ok ⟨(h a).1, (h a).2.1, hx⟩
  · refine hP v v' (SameLayout.periodicField hu fun a => ?_) hv
    obtain ⟨x, hx, hva⟩ := Except.bind_eq_ok.1 ((seqFin_eq_ok _ _).1 hok a)
    obtain ⟨-, -, -, er⟩ := gmap2_eq_ok.1 hx
    rw [← Except.ok.inj hva, er]
    exact ⟨rfl, rfl, rfl, rfl⟩
  · refine hS w w' ?_ hww
    refine projection_layout (SameLayout.periodicField hu fun a => ?_) hw
    obtain ⟨x, hx, hva⟩ := Except.bind_eq_ok.1 ((seqFin_eq_ok _ _).1 hok a)
    obtain ⟨-, -, -, er⟩ := gmap2_eq_ok.1 hx
    rw [← Except.ok.inj hva, er]
    exact ⟨rfl, rfl, rfl, rfl⟩

/-- **C72** Repeated steps, for every number of steps. -/
theorem C72_repeated (g : Grid d ℝ) (σ : Equiv.Perm (Fin d)) (f f' : (Fin d → GridVariable d ℝ) → Except Err (Fin d → GridVariable d ℝ)) (hf : AxesCommute g σ f f')
    (hk : ∀ u w, PeriodicField g u → f u = .ok w → PeriodicField g w) (n : ℕ) : AxesCommute g σ (repeated 0 f n) (repeated 0 f' n) := by
  induction n with
  | zero => exact fun u u' _ h => RelS.ok h
  | succ n ih =>
    intro u u' hu h
    have h1 := hf u u' hu h
    cases e : f u with
    | error err =>
      have hrep : repeated 0 f (n + 1) u = .error err := by
        unfold repeated scanNone
        rw [if_neg (by simp), List.replicate_succ, laxScan.eq_2]
        beta_reduce
        rw [e]
        rfl
      rw [hrep]
      exact RelS.error _ _
    | ok w =>
      obtain ⟨w', hw', hww⟩ := h1 w e
      rw [repeated_succ f n u w e, repeated_succ f' n u' w' hw']
      exact ih w w' (hk u w hu e) hww

/-- **C72** A state that is unchanged when its axes are exchanged (on a grid with the same symmetry) leads to a state with that symmetry. -/
theorem C72_symmetry (g : Grid d ℝ) (σ : Equiv.Perm (Fin d)) (f : (Fin d → GridVariable d ℝ) → Except Err (Fin d → GridVariable d ℝ)) (hf : AxesCommute g σ f f)
    (u w : Fin d → GridVariable d ℝ) (hu : PeriodicField g u) (h : VelocityRelabelled σ u u) (hw : f u = .ok w) : VelocityRelabelled σ w w := by
  obtain ⟨w', hw', hww⟩ := hf u u hu h w hw
  rw [hw] at hw'
  rwa [← Except.ok.inj hw'] at hww

omit [HasNan ℝ] in
theorem Resolved.permute {g : Grid d ℝ} {cutoff : ℝ} (h : Resolved g cutoff) : Resolved (g.permute σ) cutoff :=
  ⟨fun a => h.cells (σ a), fun a => h.length (σ a), h.cutoff_nonneg, fun a => h.cutoff_small (σ a)⟩

/-- **C72** The default Navier-Stokes solver on a periodic domain (van Leer convection, finite-difference diffusion, fast-diagonalization pressure solve, no forcing), any Runge-Kutta
stepper, any number of steps: the trajectory of the relabelled initial state on the relabelled grid is the relabelled trajectory. -/
theorem C72_default_trajectory (hd : d ≠ 0) (g : Grid d ℝ) (cutoff : ℝ) (hr : Resolved g cutoff) (eigh : EighFn ℝ) (heigh : ∀ m, m.Symmetric → IsEigh m (eigh m)) (tpu : Bool)
    (density : ℝ) (viscosity : Option ℝ) (hρ : density ≠ 0 ∨ viscosity = none) (dt : ℝ) (s : Stepper d) (hst : RungeKutta s) (n : ℕ) (σ : Equiv.Perm (Fin d)) (v v' : Fin d → GridVariable d ℝ)
    (hv : PeriodicField g v) (h : VelocityRelabelled σ v v') :
    ∃ w w', repeated 0 (semiImplicitNavierStokes density viscosity dt (defaultSolver tpu eigh cutoff) none diffuse none s) n v = .ok w ∧
      repeated 0 (semiImplicitNavierStokes density viscosity dt (defaultSolver tpu eigh cutoff) none diffuse none s) n v' = .ok w' ∧ VelocityRelabelled σ w w' := by
  have hs : ∀ a, 0 < g.shape a := fun a => by have := hr.cells a; omega
  have hex := C56_default_solver hd g cutoff hr eigh heigh tpu
  have hex' := C56_default_solver hd (g.permute σ) cutoff hr.permute eigh heigh tpu
  obtain ⟨w, hw, -⟩ := C56_default_trajectory hd g hs density viscosity hρ dt _ hex s hst n v hv
  obtain ⟨w', hw', hww⟩ := C72_repeated g σ _ _ (C72_step g σ density viscosity dt _ _ (C72_exact_projection hd g hs σ _ _ hex hex') none none diffuse diffuse none none (Or.inl ⟨rfl, rfl⟩)
    (fun _ _ k h => C72_diffuse h k) (Or.inl ⟨rfl, rfl⟩) s hst)
    (fun u w hu hw => (C56_divergence_free hd g hs density viscosity dt _ hex none diffuse none s hst u w hu hw).1) n v v' hv h w hw
  exact ⟨w, w', hw, hw', hww⟩

/-- **C72** Forcings: the linear forcing, no forcing, forcings by a fixed field and its relabelled copy, and sums of forcings. -/
theorem C72_forcings (g : Grid d ℝ) (σ : Equiv.Perm (Fin d)) :
    (∀ c : ℝ, TendencyAxesCommute g σ (linearForcing c) (linearForcing c)) ∧ TendencyAxesCommute g σ noForcing noForcing ∧
      (∀ (F F' : ForcingFn d) (f f' : Fin d → GridArray d ℝ), (∀ v, F v = .ok f) → (∀ v, F' v = .ok f') → TendencyRelabelled σ f f' → TendencyAxesCommute g σ F F') ∧
      ∀ l l' : List (ForcingFn d), List.Forall₂ (TendencyAxesCommute g σ) l l' → TendencyAxesCommute g σ (sumForcings l) (sumForcings l') := by
  refine ⟨fun c u u' _ h => RelS.ok fun a => (h a).2.2.gmap _, fun u u' _ h => RelS.ok fun a => (h a).2.2.gmap _, fun F F' f f' hF hF' hf u u' _ h => ?_, fun l l' hl u u' hu h => ?_⟩
  · rw [hF, hF']
    exact RelS.ok hf
  · unfold sumForcings
    refine RelS.bind (R := List.Forall₂ (TendencyRelabelled σ)) ?_ fun x y hxy => sumFields_relabelled hxy
    induction hl with
    | nil => exact RelS.ok .nil
    | cons hF _ ih =>
      rw [List.mapM_cons, List.mapM_cons]
      exact RelS.bind (hF u u' hu h) fun x y hxy => RelS.bind ih fun xs ys hs => RelS.ok (.cons hxy hs)

/-- **C72** `swap_xy` of the Kolmogorov forcing exchanges the first two axes: the forcing with `swap_xy` on a grid is the plain forcing on the grid with these axes exchanged. -/
theorem C72_kolmogorov_swap (h2 : 2 ≤ d) (h3 : d ≤ 3) (g : Grid d ℝ) (hs : ∀ a, 0 < g.shape a) (scale k : ℝ) (swap : Bool) :
    ∃ F F', kolmogorovForcing g scale k swap none = .ok F ∧ kolmogorovForcing (g.permute (Equiv.swap ⟨0, by omega⟩ ⟨1, by omega⟩)) scale k (!swap) none = .ok F' ∧
      TendencyAxesCommute g (Equiv.swap ⟨0, by omega⟩ ⟨1, by omega⟩) F F' := by
  obtain ⟨F, hF, f, hf, hff, hdat⟩ := C49_kolmogorov h2 h3 g scale k swap
  generalize hτ : (Equiv.swap (⟨0, by omega⟩ : Fin d) ⟨1, by omega⟩) = τ
  obtain ⟨F', hF', f', hf', hff', hdat'⟩ := C49_kolmogorov h2 h3 (g.permute τ) scale k !swap
  refine ⟨F, F', hF, hF', (C72_forcings g τ).2.2.1 F F' f f' hf hf' fun a => ⟨fun b => ?_, ?_, ?_, fun b => ?_, fun b => ?_, fun i hi => ?_⟩⟩
  · rw [(hff' a).2.2, (hff (τ a)).2.2]
    simp only [τ.injective.eq_iff]
  · rw [(hff' a).1, (hff _).1]
  · rw [(hff _).1, (hff _).2.1]
  · show (f' a).shape b = (f (τ a)).shape (τ b)
    rw [(hff' a).2.1, (hff _).2.1]
    rfl
  · show 0 < (f (τ a)).shape b
    rw [(hff _).2.1]
    exact hs b
  · have hi' : InR (g.permute τ).shape i := by rw [← (hff' a).2.1]; exact hi
    rw [hdat' a i hi', hdat (τ a) _ (original_inR (s' := (g.permute τ).shape) (fun _ => rfl) hi')]
    have k1 : (kolmogorovAxes d h2 swap).1 = τ (kolmogorovAxes d h2 !swap).1 := by
      rw [← hτ]
      cases swap <;> simp [kolmogorovAxes]
    have k2 : (kolmogorovAxes d h2 swap).2 = τ (kolmogorovAxes d h2 !swap).2 := by
      rw [← hτ]
      cases swap <;> simp [kolmogorovAxes]
    rw [k1, k2]
    simp only [τ.injective.eq_iff]
    have hc : ∀ b, coord (f' a) b i = coord (f (τ a)) (τ b) (original τ i) := by
      intro b
      unfold coord original
      rw [(hff' a).1, (hff (τ a)).1, (hff' a).2.2, (hff (τ a)).2.2, Equiv.symm_apply_apply]
      simp only [τ.injective.eq_iff]
      rfl
    rw [hc]

/-! ## Semi-Lagrangian advection -/

/-- **C72** A semi-Lagrangian advection step. -/
theorem C72_semi_lagrangian {c c' : GridVariable d ℝ} {v v' : Fin d → GridVariable d ℝ} (hc : c.Relabelled σ c') (hv : VelocityRelabelled σ v v') (dt : ℝ) :
    RelS (GridVariable.Relabelled σ) (advectSemilagrangian c v dt) (advectSemilagrangian c' v' dt) := by
  unfold advectSemilagrangian
  have hcg : RelS (fun x y => y = x.permute σ ∧ c.array.grid = x ∧ ∀ a, (v a).array.grid = x) (consistentGrid (c.array :: List.ofFn fun a => (v a).array))
      (consistentGrid (c'.array :: List.ofFn fun a => (v' a).array)) := by
    intro g hg
    obtain ⟨h0, h1⟩ := uniqueOr_eq_ok.1 hg
    refine ⟨g.permute σ, uniqueOr_eq_ok.2 ⟨by simp, fun x hx => ?_⟩, rfl, h1 _ (by simp), fun a => h1 _ (List.mem_cons_of_mem _ (List.mem_ofFn.2 ⟨a, rfl⟩))⟩
    rcases List.mem_cons.1 hx with rfl | hx
    · rw [hc.grid, h1 _ (by simp)]
    · obtain ⟨a, rfl⟩ := (List.mem_ofFn' _ _).1 hx
      rw [(hv a).grid, h1 _ (List.mem_cons_of_mem _ (List.mem_ofFn.2 ⟨σ a, rfl⟩))]
  refine RelS.bind hcg fun g g' hg => ?_
  obtain ⟨rfl, hgc, hgv⟩ := hg
  have hpos : ∀ a, 0 < g.shape a := fun a => by have := hc.2.2.2.2.2.2.1 a; rw [hc.2.2.2.2.1, hgc] at this; exact this
  by_cases h0 : ∃ a, (g.domain a).1 ≠ 0
  · rw [if_pos h0]; exact RelS.error _ _
  have h0' : ¬ ∃ a, ((g.permute σ).domain a).1 ≠ 0 := fun ⟨a, ha⟩ => h0 ⟨σ a, ha⟩
  rw [if_neg h0, if_neg h0']
  obtain ⟨m, hm, hmv⟩ := mesh_value g c.array.offset
  obtain ⟨m', hm', hmv'⟩ := mesh_value (g.permute σ) c'.array.offset
  rw [hm, hm', Except.bind_ok, Except.bind_ok]
  refine RelS.bind (RelS.seqFin (R := fun _ (x y : NArr d ℝ) => ∀ i : Idx d, InR (g.permute σ).shape i → y.data i = x.data (original σ i)) σ fun a => ?_) fun x y hxy => ?_
  · refine RelS.bind' (C72_linear (hv a) hc.offset) fun u u' hu huu => ?_
    have hus : u.array.shape = g.shape := by
      rw [huu.2.2.2.2.1, (C23_offset_and_bc _ _ _ hu).2.1, hgv]
    have hus' : u'.array.shape = (g.permute σ).shape := funext fun b => by rw [huu.shape, hus]; rfl
    rw [if_neg (by rw [hus, (hmv (σ a)).1]; simp), if_neg (by rw [hus', (hmv' a).1]; simp)]
    refine RelS.ok fun i hi => ?_
    have hi' : InR g.shape (original σ i) := original_inR (s' := (g.permute σ).shape) (fun _ => rfl) hi
    unfold NArr.map2
    dsimp only
    rw [(hmv' a).2 i hi, (hmv (σ a)).2 _ hi', huu.data i (by rw [hus']; exact hi), hc.offset, Grid.permute_step]
    unfold original Grid.permute
    simp
  · rw [if_pos (hasAllPeriodic_relabelled hc)]
    split_ifs
    · refine RelS.ok ⟨hc.1, hc.2.1, hc.offset, hc.grid, by rw [hgc]; rfl, fun _ => rfl, hpos, fun i hi => ?_⟩
      replace hi : InR (g.permute σ).shape i := hi
      have hcs : c.array.shape = g.shape := hc.2.2.2.2.1.trans (by rw [hgc])
      have hcs' : c'.array.shape = (g.permute σ).shape := funext fun b => by rw [hc.shape, hcs]; rfl
      unfold mapCoordinatesWrap
      dsimp only
      refine Eq.trans ?_ (Equiv.sum_comp (Equiv.arrowCongr σ (Equiv.refl Bool)) _)
      refine Finset.sum_congr rfl fun b _ => ?_
      have hb : ∀ a, (Equiv.arrowCongr σ (Equiv.refl Bool)) b (σ a) = b a := fun a => by simp [Equiv.arrowCongr]
      congr 1
      · refine Eq.trans ?_ (Equiv.prod_comp σ _)
        refine Finset.prod_congr rfl fun a _ => ?_
        rw [hb, hxy a i hi, hc.offset, Grid.permute_step]
      · have hin : InR c'.array.shape fun a => (⌊(y a).data i / (g.permute σ).step a - (c'.array.offset a : ℝ)⌋ + (if b a = true then 1 else 0)) % (c'.array.shape a : ℤ) := by
          intro a
          have : 0 < c'.array.shape a := by rw [hcs']; exact hpos _
          exact ⟨Int.emod_nonneg _ (by omega), Int.emod_lt_of_pos _ (by omega)⟩
        rw [hc.data _ hin]
        congr 1
        funext a
        unfold original
        obtain ⟨e, rfl⟩ := σ.surjective a
        rw [Equiv.symm_apply_apply, hb]
        beta_reduce
        rw [hxy e i hi, hc.offset, Grid.permute_step, hc.shape]
        rfl
    · exact RelS.error _ _

end

section Examples
open Fixtures
variable [HasNan ℝ]

/-- Non-vacuity: exchanging the axes of a velocity field on the 3 × 4 grid gives a velocity field on the 4 × 3 grid. -/
example : ∃ v v' : Fin 2 → GridVariable 2 ℝ, PeriodicField g34r v ∧ VelocityRelabelled (Equiv.swap 0 1) v v' ∧ (v 0).array.data ![2, 3] = 2 ∧ (v' 1).array.data ![3, 2] = 2 := by
  have hp : PeriodicField g34r fun a => (⟨⟨⟨g34r.shape, fun i => (i 0 : ℝ)⟩, fun b => if b = a then 1 else 1 / 2, g34r⟩, periodicBC 2⟩ : GridVariable 2 ℝ) := ⟨fun a => ⟨rfl, rfl, fun _ => rfl⟩, fun a => rfl⟩
  refine ⟨_, _, hp, fun a => GridVariable.relabel_relabelled _ _ (hp.periodic grid34_pos (Equiv.swap 0 1 a)), ?_, ?_⟩
  · norm_num
  · norm_num [GridArray.relabel, original]

end Examples
/-- **C72** The relabelled run returns exactly when the original one does, and then with the relabelled result (upwind, linear and limited advection, convection by linear interpolation,
semi-Lagrangian advection). -/
theorem C72_returns_alike [HasNan ℝ] {σ : Equiv.Perm (Fin d)} {c c' : GridVariable d ℝ} {v v' : Fin d → GridVariable d ℝ} (hc : c.Relabelled σ c') (hv : VelocityRelabelled σ v v') (dt : ℝ) :
    ((∃ r, advectLinear c v dt = .ok r) ↔ ∃ r, advectLinear c' v' dt = .ok r) ∧ ((∃ r, advectUpwind c v dt = .ok r) ↔ ∃ r, advectUpwind c' v' dt = .ok r) ∧
      ((∃ r, advectVanLeerUsingLimiters c v dt = .ok r) ↔ ∃ r, advectVanLeerUsingLimiters c' v' dt = .ok r) ∧
      ((∃ r, convectLinear v = .ok r) ↔ ∃ r, convectLinear v' = .ok r) ∧ ((∃ r, advectSemilagrangian c v dt = .ok r) ↔ ∃ r, advectSemilagrangian c' v' dt = .ok r) := by
  have key : ∀ {α β : Type} {R : α → β → Prop} {S : β → α → Prop} {x : Except Err α} {y : Except Err β}, RelS R x y → RelS S y x → ((∃ r, x = .ok r) ↔ ∃ r, y = .ok r) :=
    fun h h' => ⟨fun ⟨r, hr⟩ => ⟨_, (h r hr).choose_spec.1⟩, fun ⟨r, hr⟩ => ⟨_, (h' r hr).choose_spec.1⟩⟩
  exact ⟨key (C72_advection hc hv dt).1 (C72_advection hc.symm hv.symm dt).1, key (C72_advection hc hv dt).2.1 (C72_advection hc.symm hv.symm dt).2.1,
    key (C72_advection hc hv dt).2.2 (C72_advection hc.symm hv.symm dt).2.2, key (C72_convect_linear hv) (C72_convect_linear hv.symm),
    key (C72_semi_lagrangian hc hv dt) (C72_semi_lagrangian hc.symm hv.symm dt)⟩

end JaxCfd
