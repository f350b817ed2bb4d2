import Verif.Props.PermutationAdvection
import Verif.Props.TranslationTrajectory

/-!
# C72: relabelling the axes — projections, time steps and trajectories
-/

namespace JaxCfd
variable {d : ℕ} {σ : Equiv.Perm (Fin d)}

/-- `f` on the grid `g` and `f'` on the relabelled grid do the same: relabelling the axes of the argument relabels the result. -/
def AxesCommute (g : Grid d ℝ) (σ : Equiv.Perm (Fin d)) (f f' : (Fin d → GridVariable d ℝ) → Except Err (Fin d → GridVariable d ℝ)) : Prop :=
  ∀ u u', PeriodicField g u → VelocityRelabelled σ u u' → RelS (VelocityRelabelled σ) (f u) (f' u')

/-- The same for functions that return tendencies. -/
def TendencyAxesCommute (g : Grid d ℝ) (σ : Equiv.Perm (Fin d)) (f f' : (Fin d → GridVariable d ℝ) → Except Err (Fin d → GridArray d ℝ)) : Prop :=
  ∀ u u', PeriodicField g u → VelocityRelabelled σ u u' → RelS (TendencyRelabelled σ) (f u) (f' u')

theorem Grid.permute_pos {g : Grid d ℝ} (hs : ∀ a, 0 < g.shape a) (a : Fin d) : 0 < (g.permute σ).shape a := hs (σ a)

section
variable [HasNan ℝ]

theorem VelocityRelabelled.periodicField {g : Grid d ℝ} {u v : Fin d → GridVariable d ℝ} (h : VelocityRelabelled σ u v) (hu : PeriodicField g u) : PeriodicField (g.permute σ) v := by
  refine ⟨fun a => ⟨?_, ?_, fun b => ?_⟩, fun a => ?_⟩
  · rw [(h a).grid, (hu.1 (σ a)).1]
  · funext b
    rw [(h a).shape, (hu.1 (σ a)).2.1]
    rfl
  · rw [(h a).offset, (hu.1 (σ a)).2.2]
    simp only [σ.injective.eq_iff]
  · rw [(h a).1, hu.2]
    rfl

theorem pressureBC_relabelled {g : Grid d ℝ} {u v : Fin d → GridVariable d ℝ} (h : VelocityRelabelled σ u v) (hu : PeriodicField g u) :
    RelS (fun b b' => b' = b.permute σ ∧ ∀ a, b.types a = (.periodic, .periodic)) (pressureBCFromVelocity (List.ofFn u)) (pressureBCFromVelocity (List.ofFn v)) := by
  intro bc hbc
  have hv := h.periodicField hu
  obtain ⟨hne, -, h3, h4, hty⟩ := (C15_pressure_bc _ _).1 hbc
  have hper : ∀ a, bc.types a = (.periodic, .periodic) := fun a => (hty a (u a) (List.mem_ofFn.2 ⟨a, rfl⟩)).1 (by
    unfold PeriodicAlong
    rw [hu.2]
    rfl)
  have hvp : ∀ a, ∀ w ∈ List.ofFn v, PeriodicAlong w a := by
    intro a w hw
    obtain ⟨b, rfl⟩ := (List.mem_ofFn' _ _).1 hw
    unfold PeriodicAlong
    rw [hv.2]
    rfl
  refine ⟨bc.permute σ, (C15_pressure_bc _ _).2 ⟨by simpa using hne, fun a _ _ w hw _ => hvp a w hw, h3, fun a => h4 _, fun a w hw => ⟨fun _ => hper _, fun hn => absurd (hvp a w hw) hn⟩⟩, rfl, hper⟩

theorem consistentGrid_velocity_relabelled {u v : Fin d → GridVariable d ℝ} (h : VelocityRelabelled σ u v) :
    RelS (fun x y => y = x.permute σ ∧ ∀ a, (u a).array.grid = x) (consistentGrid (List.ofFn fun a => (u a).array)) (consistentGrid (List.ofFn fun a => (v a).array)) := by
  intro g hg
  obtain ⟨h0, h1⟩ := uniqueOr_eq_ok.1 hg
  refine ⟨g.permute σ, uniqueOr_eq_ok.2 ⟨by simpa using h0, fun x hx => ?_⟩, rfl, fun a => h1 _ (List.mem_ofFn.2 ⟨a, rfl⟩)⟩
  obtain ⟨a, rfl⟩ := (List.mem_ofFn' _ _).1 hx
  rw [(h a).grid, h1 _ (List.mem_ofFn.2 ⟨σ a, rfl⟩)]

/-- The projection with related solves. -/
theorem projection_relabelled {g : Grid d ℝ} {u u' : Fin d → GridVariable d ℝ} (hs : ∀ a, 0 < g.shape a) (hu : PeriodicField g u) (h : VelocityRelabelled σ u u') (solve solve' : PressureSolver d ℝ)
    (hsol : ∀ q q' bc, q.Relabelled σ q' → RelS (GridArray.Relabelled σ) (solve u q bc) (solve' u' q' (bc.permute σ))) :
    RelS (VelocityRelabelled σ) (projection u solve) (projection u' solve') := by
  unfold projection
  refine RelS.bind' (consistentGrid_velocity_relabelled h) fun g1 g' hok hg => RelS.bind (pressureBC_relabelled h hu) fun bc bc' hb => ?_
  obtain ⟨rfl, hg⟩ := hg
  obtain ⟨rfl, hb⟩ := hb
  obtain ⟨h0, -⟩ := uniqueOr_eq_ok.1 hok
  have b0 : Fin d := ⟨0, by
    rcases Nat.eq_zero_or_pos d with rfl | hd
    · simp at h0
    · exact hd⟩
  have hpos : ∀ a, 0 < g1.shape a := by rw [← hg b0, (hu.1 b0).1]; exact hs
  refine RelS.bind (GridArray.Relabelled.imposeBC (σ := σ) ⟨fun _ => rfl, rfl, rfl, fun _ => rfl, hpos, fun _ _ => rfl⟩ bc hb) fun q0 q0' hq0 => ?_
  refine RelS.bind (hsol _ _ _ hq0) fun q q' hq => RelS.bind (hq.imposeBC bc hb) fun qv qv' hqv => ?_
  unfold forwardDifferences
  refine RelS.bind (RelS.seqFin (R := fun _ => GridArray.Relabelled σ) σ fun a => C72_forward_difference hqv a) fun G G' hG => ?_
  refine RelS.seqFin (R := fun _ => GridVariable.Relabelled σ) σ fun a => ?_
  rw [(h a).1]
  exact RelS.bind ((h a).2.2.gmap2 (hG a) _) fun w w' hw => hw.imposeBC _ (h a).2.1

/-- **C72** With exact pressure solvers on the grid and on the relabelled grid — however they compute the solution — the projection commutes with relabelling. -/
theorem C72_exact_projection (hd : d ≠ 0) (g : Grid d ℝ) (hs : ∀ a, 0 < g.shape a) (σ : Equiv.Perm (Fin d)) (solve solve' : PressureSolver d ℝ) (hex : ExactSolver g solve)
    (hex' : ExactSolver (g.permute σ) solve') : AxesCommute g σ (fun u => projection u solve) fun u => projection u solve' := by
  intro u u' hu h
  have hu' := h.periodicField hu
  have hs' : ∀ a, 0 < (g.permute σ).shape a := Grid.permute_pos hs
  obtain ⟨bc, q, hq, L, D, hL, hD, hLD⟩ := hex u hu
  obtain ⟨bc', q', hq', hsol'⟩ := hex' u' hu'
  obtain ⟨b, hb, hbb, hper⟩ := pressureBC_relabelled h hu bc hq.1
  have hbb' : bc' = bc.permute σ := by
    rw [hq'.1] at hb
    rw [Except.ok.inj hb, hbb]
  subst hbb'
  have hqt : q.Relabelled σ (q.relabel σ) := q.relabel_relabelled σ (by rw [hq.2.2.1, hq.2.2.2.1]) fun a => by rw [hq.2.2.1]; exact hs a
  obtain ⟨L', hL', hLL⟩ := C72_laplacian (u := ⟨q, bc⟩) (v := ⟨q.relabel σ, bc.permute σ⟩) ⟨rfl, hper, hqt⟩ L hL
  obtain ⟨D', hD', hDD⟩ := C72_divergence h D hD
  have hqs : (q.relabel σ).shape = (g.permute σ).shape := by
    show (fun a => q.shape (σ a)) = fun a => g.shape (σ a)
    rw [hq.2.2.1]
  have hret : Returns (fun _ _ _ => .ok (q.relabel σ)) (g.permute σ) u' (bc.permute σ) (q.relabel σ) := ⟨hq'.1, fun _ _ => rfl, hqs, by
    show q.grid.permute σ = g.permute σ
    rw [hq.2.2.2.1], by
    show (fun a => q.offset (σ a)) = _
    rw [hq.2.2.2.2]⟩
  have hLs : L.shape = g.shape := by
    rw [laplacian_periodic (u := ⟨q, bc⟩) ⟨hper, fun a => ⟨by show q.shape a = q.grid.shape a; rw [hq.2.2.1, hq.2.2.2.1], by show 0 < q.grid.shape a; rw [hq.2.2.2.1]; exact hs a⟩⟩] at hL
    rw [← Except.ok.inj hL]
    exact hq.2.2.1
  have hDs : D.shape = g.shape := by
    rw [hu.divergence hd hs] at hD
    rw [← Except.ok.inj hD]
  have hsol : SolvesPoisson u' (bc.permute σ) (q.relabel σ) := ⟨L', D', hL', hD', fun i hi => by
    have hi' : InR (g.permute σ).shape i := by rw [← hqs]; exact hi
    have e1 : L'.shape = (g.permute σ).shape := funext fun a => by rw [hLL.2.2.2.1, hLs]; rfl
    have e2 : D'.shape = (g.permute σ).shape := funext fun a => by rw [hDD.2.2.2.1, hDs]; rfl
    rw [hLL.2.2.2.2.2 i (by rw [e1]; exact hi'), hDD.2.2.2.2.2 i (by rw [e2]; exact hi')]
    exact hLD _ (by rw [hq.2.2.1]; exact original_inR (s' := (g.permute σ).shape) (fun _ => rfl) hi')⟩
  obtain ⟨w, w', hw, hw', hww⟩ := C33_solver_independent hd (g.permute σ) u' (hu'.velocity hs') hu'.walls _ solve' _ _ _ _ hret hsol hq' hsol'
  show RelS _ (projection u solve) _
  rw [projection_const hd (hu.velocity hs) hq]
  have hmain := projection_relabelled hs hu h (fun _ _ _ => .ok q) (fun _ _ _ => .ok (q.relabel σ)) fun q1 q1' bc1 hq1 => RelS.ok hqt
  intro r hr
  obtain ⟨s, hs1, hrs⟩ := hmain r hr
  rw [hw] at hs1
  have hsw := Except.ok.inj hs1
  subst hsw
  refine ⟨w', hw', fun a => ⟨(hww a).1.trans (hrs a).1, (hrs a).2.1, fun b => by rw [(hww a).2.1]; exact (hrs a).offset b, (hww a).2.2.1.trans (hrs a).grid, (hrs a).2.2.2.2.1, fun b => ?_,
    (hrs a).2.2.2.2.2.2.1, fun i hi => ?_⟩⟩
  · show (w' a).array.shape b = _
    rw [(hww a).2.2.2.1]
    exact (hrs a).shape b
  · have hi' : InR (w a).array.shape i := by rw [← (hww a).2.2.2.1]; exact hi
    rw [← (hrs a).data i hi']
    exact (hww a).2.2.2.2.2 i (by rw [← (hww a).2.2.2.2.1]; exact hi')

omit [HasNan ℝ] in
theorem sumField_relabelled {l m : List (GridArray d ℝ)} (h : List.Forall₂ (GridArray.Relabelled σ) l m) : RelS (GridArray.Relabelled σ) (sumField l) (sumField m) := by
  cases h with
  | nil => exact RelS.error _ _
  | @cons u v rest rest' huv hrest =>
    unfold sumField
    dsimp only
    by_cases h1 : ∃ w ∈ rest, w.offset ≠ u.offset ∨ w.grid ≠ u.grid
    · rw [if_pos h1]; exact RelS.error _ _
    by_cases h2 : ∃ w ∈ rest, w.shape ≠ u.shape
    · rw [if_neg h1, if_pos h2]; exact RelS.error _ _
    have hex : ∀ w' ∈ rest', ∃ w ∈ rest, w.Relabelled σ w' := by
      clear h1 h2
      induction hrest with
      | nil => simp
      | cons hab _ ih =>
        intro w' hw'
        rcases List.mem_cons.1 hw' with rfl | hw'
        · exact ⟨_, by simp, hab⟩
        · obtain ⟨w, hw, hww⟩ := ih w' hw'
          exact ⟨w, by simp [hw], hww⟩
    have h1' : ¬ ∃ w ∈ rest', w.offset ≠ v.offset ∨ w.grid ≠ v.grid := by
      push Not at h1 ⊢
      intro w' hw'
      obtain ⟨w, hw, hww⟩ := hex w' hw'
      exact ⟨funext fun a => by rw [hww.1, huv.1, (h1 w hw).1], by rw [hww.2.1, huv.2.1, (h1 w hw).2]⟩
    have h2' : ¬ ∃ w ∈ rest', w.shape ≠ v.shape := by
      push Not at h2 ⊢
      intro w' hw'
      obtain ⟨w, hw, hww⟩ := hex w' hw'
      exact funext fun a => by rw [hww.2.2.2.1, huv.2.2.2.1, h2 w hw]
    rw [if_neg h1, if_neg h2, if_neg h1', if_neg h2']
    refine RelS.ok ⟨huv.1, huv.2.1, huv.2.2.1, huv.2.2.2.1, huv.2.2.2.2.1, fun i hi => ?_⟩
    replace hi : InR v.shape i := hi
    push Not at h2'
    dsimp only [List.foldl_cons]
    rw [huv.2.2.2.2.2 i hi]
    generalize (0 : ℝ) + u.data (original σ i) = x
    clear h1 h2 h1' hex
    induction hrest generalizing x with
    | nil => rfl
    | @cons a b l1 l2 hab _ ih =>
      rw [List.foldl_cons, List.foldl_cons, hab.2.2.2.2.2 i (by rw [h2' b (by simp)]; exact hi)]
      exact ih (fun w hw => h2' w (List.mem_cons_of_mem _ hw)) _

omit [HasNan ℝ] in
theorem sumFields_relabelled {l m : List (Fin d → GridArray d ℝ)} (h : List.Forall₂ (TendencyRelabelled σ) l m) : RelS (TendencyRelabelled σ) (sumFields l) (sumFields m) := by
  refine RelS.seqFin (R := fun _ => GridArray.Relabelled σ) σ fun a => sumField_relabelled ?_
  rw [List.forall₂_map_left_iff, List.forall₂_map_right_iff]
  exact h.imp fun _ _ hab => hab a

/-- **C72** The default convection treats all axes alike. -/
theorem C72_default_convection (g : Grid d ℝ) (σ : Equiv.Perm (Fin d)) (dt : ℝ) : TendencyAxesCommute g σ (defaultConvect dt) (defaultConvect dt) :=
  fun _ _ _ h => RelS.seqFin (R := fun _ => GridArray.Relabelled σ) σ fun a => (C72_advection (h a) h dt).2.2

/-- A diffusion function of one component that treats the axes alike. -/
def DiffusionAxesCommute (σ : Equiv.Perm (Fin d)) (D D' : DiffuseFn d) : Prop := ∀ u u' k, GridVariable.Relabelled σ u u' → RelS (GridArray.Relabelled σ) (D u k) (D' u' k)

/-- Two optional functions that are both missing or do the same on the grid and the relabelled grid. -/
def OptAxesCommute (g : Grid d ℝ) (σ : Equiv.Perm (Fin d)) (C C' : Option (ConvectFn d)) : Prop :=
  (C = none ∧ C' = none) ∨ ∃ F F', C = some F ∧ C' = some F' ∧ TendencyAxesCommute g σ F F'

theorem OptAxesCommute.convect {g : Grid d ℝ} {C C' : Option (ConvectFn d)} (h : OptAxesCommute g σ C C') (dt : ℝ) : TendencyAxesCommute g σ (convectOr C dt) (convectOr C' dt) := by
  rcases h with ⟨rfl, rfl⟩ | ⟨F, F', rfl, rfl, h⟩
  · exact C72_default_convection g σ dt
  · exact h

/-- **C72** The explicit terms of the Navier-Stokes equations. -/
theorem C72_explicit_terms (g : Grid d ℝ) (σ : Equiv.Perm (Fin d)) (density : ℝ) (viscosity : Option ℝ) (dt : ℝ) (C C' : Option (ConvectFn d)) (D D' : DiffuseFn d) (f f' : Option (ForcingFn d))
    (hC : OptAxesCommute g σ C C') (hD : DiffusionAxesCommute σ D D') (hf : OptAxesCommute g σ f f') :
    AxesCommute g σ (explicitTerms density viscosity dt C D f) (explicitTerms density viscosity dt C' D' f') := by
  intro u u' hu h
  unfold explicitTerms
  refine RelS.bind (hC.convect dt u u' hu h) fun c c' hc => RelS.bind (R := TendencyRelabelled σ) ?_ fun x x' hx =>
    RelS.bind (R := TendencyRelabelled σ) ?_ fun y y' hy => RelS.ok fun a => ⟨(h a).1, (h a).2.1, hy a⟩
  · cases viscosity with
    | none => exact RelS.ok hc
    | some nu =>
      exact RelS.bind (R := fun a b => b = a) (fun r hr => ⟨r, hr, rfl⟩) fun k k' hk => by
        subst hk
        exact RelS.bind (RelS.seqFin (R := fun _ => GridArray.Relabelled σ) σ fun a => hD _ _ _ (h a)) fun df df' hdf => sumFields_relabelled (.cons hc (.cons hdf .nil))
  · rcases hf with ⟨rfl, rfl⟩ | ⟨F, F', rfl, rfl, hF⟩
    · exact RelS.ok hx
    · exact RelS.bind (hF u u' hu h) fun f f' hff => sumFields_relabelled (.cons hx (.cons (fun a => (hff a).gmap _) .nil))

/-- Leaves of states laid out on the grid `g` and on the relabelled grid. -/
def LeavesRelabelled (g : Grid d ℝ) (σ : Equiv.Perm (Fin d)) (x y : Leaves d) : Prop := ∀ a (i : Idx d), InR (g.permute σ).shape i → y a i = x (σ a) (original σ i)

theorem leaves_relabelled {g : Grid d ℝ} {u u' : Fin d → GridVariable d ℝ} (hu : PeriodicField g u) (h : VelocityRelabelled σ u u') : LeavesRelabelled g σ (leaves u) (leaves u') := by
  intro a i hi
  have e : (u (σ a)).array.shape = g.shape := (hu.1 (σ a)).2.1
  have e' : (u' a).array.shape = (g.permute σ).shape := ((h.periodicField hu).1 a).2.1
  rw [leaves_inR (by rw [e']; exact hi), leaves_inR (by rw [e]; exact original_inR (s' := (g.permute σ).shape) (fun _ => rfl) hi), (h a).data i (by rw [e']; exact hi)]

theorem withLeaves_relabelled {g : Grid d ℝ} {u u' : Fin d → GridVariable d ℝ} (hu : PeriodicField g u) (h : VelocityRelabelled σ u u') {x y : Leaves d} (hxy : LeavesRelabelled g σ x y) :
    VelocityRelabelled σ (withLeaves u x) (withLeaves u' y) := by
  intro a
  have e' : (u' a).array.shape = (g.permute σ).shape := ((h.periodicField hu).1 a).2.1
  refine ⟨(h a).1, (h a).2.1, (h a).2.2.1, (h a).grid, (h a).2.2.2.2.1, (h a).shape, (h a).2.2.2.2.2.2.1, fun i hi => ?_⟩
  exact hxy a i (by rw [← e']; exact hi)

theorem leavesLike_relabelled {g : Grid d ℝ} {u u' : Fin d → GridVariable d ℝ} (hu : PeriodicField g u) (h : VelocityRelabelled σ u u') {r r' : Fin d → GridVariable d ℝ}
    (hr : VelocityRelabelled σ r r') : RelS (LeavesRelabelled g σ) (leavesLike u r) (leavesLike u' r') := by
  intro x hx
  obtain ⟨hl, rfl⟩ := leavesLike_eq_ok.1 hx
  refine ⟨_, leavesLike_eq_ok.2 ⟨fun a => ⟨funext fun b => ?_, ?_, ?_, funext fun b => ?_⟩, rfl⟩, leaves_relabelled (SameLayout.periodicField hu hl) hr⟩
  · rw [(hr a).offset, (h a).offset, (hl _).1]
  · rw [(hr a).grid, (h a).grid, (hl _).2.1]
  · rw [(hr a).1, (h a).1, (hl _).2.2.1]
  · rw [(hr a).shape, (h a).shape, (hl _).2.2.2]

section RK
variable {V W : Type} [AddCommGroup V] [Module ℝ V] [AddCommGroup W] [Module ℝ W] {R : V → W → Prop}

omit [HasNan ℝ] in
theorem weightedSum_relS (h0 : R 0 0) (ha : ∀ x y x' y', R x x' → R y y' → R (x + y) (x' + y')) (hm : ∀ (c : ℝ) x x', R x x' → R (c • x) (c • x')) (cs : List ℝ) {l : List V} {m : List W}
    (h : List.Forall₂ R l m) : RelS R (weightedSum cs l) (weightedSum cs m) := (weightedSum_related h0 ha hm cs h).2

omit [HasNan ℝ] in
/-- A Runge-Kutta step of related systems. -/
theorem navierStokesRK_relS (h0 : R 0 0) (ha : ∀ x y x' y', R x x' → R y y' → R (x + y) (x' + y')) (hm : ∀ (c : ℝ) x x', R x x' → R (c • x) (c • x')) (tab : Tableau ℝ)
    {F P : V → Except Err V} {F' P' : W → Except Err W} (hF : ∀ x x', R x x' → RelS R (F x) (F' x')) (hP : ∀ x x', R x x' → RelS R (P x) (P' x')) (dt : ℝ) {u : V} {u' : W} (hu : R u u') :
    RelS R (navierStokesRK tab F P dt u) (navierStokesRK tab F' P' dt u') := by
  unfold navierStokesRK
  refine RelS.bind (hF _ _ hu) fun k k' hk => RelS.bind (R := List.Forall₂ R) (RelS.foldlM _ (fun row _ l m hlm => ?_) (.cons hk .nil)) fun ks ks' hks =>
    RelS.bind (weightedSum_relS h0 ha hm _ hks) fun s s' hs => hP _ _ (ha _ _ _ _ hu (hm _ _ _ hs))
  exact RelS.bind (weightedSum_relS h0 ha hm _ hlm) fun s s' hs => RelS.bind (hP _ _ (ha _ _ _ _ hu (hm _ _ _ hs))) fun x x' hx => RelS.bind (hF _ _ hx) fun y y' hy =>
    RelS.ok (List.rel_append hlm (.cons hy .nil))

end RK

/-- **C72** A semi-implicit Navier-Stokes step with any Runge-Kutta stepper, whose parts treat the axes alike. -/
theorem C72_step (g : Grid d ℝ) (σ : Equiv.Perm (Fin d)) (density : ℝ) (viscosity : Option ℝ) (dt : ℝ) (solve solve' : PressureSolver d ℝ)
    (hP : AxesCommute g σ (fun u => projection u solve) fun u => projection u solve') (C C' : Option (ConvectFn d)) (D D' : DiffuseFn d) (f f' : Option (ForcingFn d))
    (hC : OptAxesCommute g σ C C') (hD : DiffusionAxesCommute σ D D') (hf : OptAxesCommute g σ f f') (s : Stepper d) (hst : RungeKutta s) :
    AxesCommute g σ (semiImplicitNavierStokes density viscosity dt solve C D f s) (semiImplicitNavierStokes density viscosity dt solve' C' D' f' s) := by
  intro u u' hu h
  obtain ⟨a, b, tab, -, -, -, rfl⟩ := hst
  unfold semiImplicitNavierStokes
  refine RelS.bind (navierStokesRK_relS (R := LeavesRelabelled g σ) (fun _ _ _ => rfl) (fun x y x' y' hx hy a i hi => congrArg₂ (· + ·) (hx a i hi) (hy a i hi))
    (fun c x x' hx a i hi => congrArg (c * ·) (hx a i hi)) tab (fun x x' hx => ?_) (fun x x' hx => ?_) dt (leaves_relabelled hu h)) fun x y hxy => RelS.ok (withLeaves_relabelled hu h hxy)
  · exact RelS.bind (C72_explicit_terms g σ density viscosity dt C C' D D' f f' hC hD hf _ _ (withLeaves_periodic hu x) (withLeaves_relabelled hu h hx)) fun r r' hr => leavesLike_relabelled hu h hr
  · exact RelS.bind (hP _ _ (withLeaves_periodic hu x) (withLeaves_relabelled hu h hx)) fun r r' hr => leavesLike_relabelled hu h hr

end
end JaxCfd
