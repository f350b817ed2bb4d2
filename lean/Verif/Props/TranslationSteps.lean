import Verif.Props.TranslationProjection

/-!
# C68: Navier-Stokes steps commute with translations of periodic velocity fields
-/

namespace JaxCfd
variable {d : ℕ} {t : Idx d}

section
variable [HasNan ℝ]

/-- **C68** With a pressure solver that commutes with the translation, so does the projection. -/
theorem C68_projection (g : Grid d ℝ) (t : Idx d) (solve : PressureSolver d ℝ) (hs : SolverCommutes g t solve) : CommutesWithTranslation g t fun u => projection u solve :=
  fun u u' hu h => projection_translated hu h solve solve fun q q' bc _ hq => hs u u' q q' bc hu h hq

/-- **C68** With an exact pressure solver — however it computes the solution — the projection commutes with every translation. -/
theorem C68_exact_projection (hd : d ≠ 0) (g : Grid d ℝ) (hs : ∀ a, 0 < g.shape a) (t : Idx d) (solve : PressureSolver d ℝ) (hex : ExactSolver g solve) :
    CommutesWithTranslation g t fun u => projection u solve := by
  intro u u' hu h
  have hu' := h.periodicField hu
  obtain ⟨bc, q, hq, L, D, hL, hD, hLD⟩ := hex u hu
  obtain ⟨bc', q', hq', hsol'⟩ := hex u' hu'
  have hbb : bc' = bc := by
    have := hq'.1
    rw [pressureBC_translated h, hq.1] at this
    exact (Except.ok.inj this).symm
  subst hbb
  have hqt : q.Translated t (q.translate t) := ⟨rfl, rfl, by rw [hq.2.2.1, hq.2.2.2.1], rfl, fun a => by rw [hq.2.2.1]; exact hs a, fun _ _ => rfl⟩
  have hper : ∀ a, bc'.types a = (.periodic, .periodic) := fun a => (((C15_pressure_bc _ _).1 hq.1).2.2.2.2 a (u a) (List.mem_ofFn.2 ⟨a, rfl⟩)).1 (by
    unfold PeriodicAlong
    rw [hu.2 a]
    rfl)
  obtain ⟨L', hL', hLL⟩ := (C68_laplacian (u := ⟨q, bc'⟩) (v := ⟨q.translate t, bc'⟩) ⟨rfl, hper, hqt⟩).2 L hL
  obtain ⟨D', hD', hDD⟩ := (C68_divergence (forall₂_ofFn h)).2 D hD
  have hret : Returns (fun _ _ _ => .ok (q.translate t)) g u' bc' (q.translate t) := ⟨hq'.1, fun _ _ => rfl, hq.2.2.1, hq.2.2.2.1, hq.2.2.2.2⟩
  have hLs : L.shape = g.shape := by
    rw [laplacian_periodic (u := ⟨q, bc'⟩) ⟨hper, fun a => ⟨by show q.shape a = q.grid.shape a; rw [hq.2.2.1, hq.2.2.2.1], by show 0 < q.grid.shape a; rw [hq.2.2.2.1]; exact hs a⟩⟩] at hL
    rw [← Except.ok.inj hL]
    exact hq.2.2.1
  have hDs : D.shape = g.shape := by
    rw [hu.divergence hd hs] at hD
    rw [← Except.ok.inj hD]
  have hsol : SolvesPoisson u' bc' (q.translate t) := ⟨L', D', hL', hD', fun i hi => by
    have hi' : InR g.shape i := by rw [← hq.2.2.1]; exact hi
    rw [hLL.2.2.2.2.2 i (by rw [hLs]; exact hi'), hDD.2.2.2.2.2 i (by rw [hDs]; exact hi'), hLs, hDs]
    exact hLD _ (by rw [hq.2.2.1]; exact moved_inR hs t i)⟩
  obtain ⟨w, w', hw, hw', hww⟩ := C33_solver_independent hd g u' (hu'.velocity hs) hu'.walls _ solve _ _ _ _ hret hsol hq' hsol'
  show RelE _ (projection u solve) _
  rw [projection_const hd (hu.velocity hs) hq]
  have hmain := projection_translated hu h (fun _ _ _ => .ok q) (fun _ _ _ => .ok (q.translate t)) fun q1 q1' bc1 hb1 hq1 => RelE.ok hqt
  · rw [hw] at hmain
    refine ⟨fun e he => ?_, fun r hr => ?_⟩
    · exact absurd (hmain.1 e he) (by simp)
    · obtain ⟨s, hs1, hrs⟩ := hmain.2 r hr
      have hsw := Except.ok.inj hs1
      subst hsw
      refine ⟨w', hw', fun a => ⟨(hww a).1.trans (hrs a).1, (hrs a).2.1, (hww a).2.1.trans (hrs a).2.2.1, (hww a).2.2.1.trans (hrs a).2.2.2.1, (hrs a).2.2.2.2.1,
        (hww a).2.2.2.1.trans (hrs a).2.2.2.2.2.1, (hrs a).2.2.2.2.2.2.1, fun i hi => ?_⟩⟩
      rw [← (hrs a).2.2.2.2.2.2.2 i hi]
      refine (hww a).2.2.2.2.2 i ?_
      rw [← (hww a).2.2.2.2.1, (hrs a).2.2.2.2.2.1]
      exact hi

omit [HasNan ℝ] in
theorem sumField_translated {l m : List (GridArray d ℝ)} (h : List.Forall₂ (GridArray.Translated t) l m) : RelE (GridArray.Translated t) (sumField l) (sumField m) := by
  cases h with
  | nil => exact RelE.error _
  | @cons u v rest rest' huv hrest =>
    unfold sumField
    dsimp only
    have e1 : (∃ w ∈ rest', w.offset ≠ v.offset ∨ w.grid ≠ v.grid) ↔ ∃ w ∈ rest, w.offset ≠ u.offset ∨ w.grid ≠ u.grid := by
      rw [huv.1, huv.2.1]
      clear huv
      induction hrest with
      | nil => simp
      | cons hab _ ih => simp only [List.mem_cons, exists_eq_or_imp, ih, hab.1, hab.2.1]
    have e2 : (∃ w ∈ rest', w.shape ≠ v.shape) ↔ ∃ w ∈ rest, w.shape ≠ u.shape := by
      rw [huv.shape]
      clear huv e1
      induction hrest with
      | nil => simp
      | cons hab _ ih => simp only [List.mem_cons, exists_eq_or_imp, ih, hab.shape]
    simp only [e1, e2]
    by_cases h1 : ∃ w ∈ rest, w.offset ≠ u.offset ∨ w.grid ≠ u.grid
    · rw [if_pos h1, if_pos h1]; exact RelE.error _
    rw [if_neg h1, if_neg h1]
    by_cases h2 : ∃ w ∈ rest, w.shape ≠ u.shape
    · rw [if_pos h2, if_pos h2]; exact RelE.error _
    rw [if_neg h2, if_neg h2]
    refine RelE.ok ⟨huv.1, huv.2.1, huv.2.2.1, huv.shape, huv.2.2.2.2.1, fun i hi => ?_⟩
    push Not at h2
    dsimp only [List.foldl_cons]
    rw [huv.2.2.2.2.2 i hi]
    generalize (0 : ℝ) + u.data (moved u.shape t i) = x
    clear e1 e2 h1
    induction hrest generalizing x with
    | nil => rfl
    | @cons a b l1 l2 hab _ ih =>
      rw [List.foldl_cons, List.foldl_cons, hab.2.2.2.2.2 i (by rw [h2 a (by simp)]; exact hi), h2 a (by simp)]
      exact ih hi (fun w hw => h2 w (List.mem_cons_of_mem _ hw)) _

omit [HasNan ℝ] in
theorem sumFields_translated {l m : List (Fin d → GridArray d ℝ)} (h : List.Forall₂ (fun f f' => ∀ a, (f a).Translated t (f' a)) l m) :
    RelE (fun r s => ∀ a, (r a).Translated t (s a)) (sumFields l) (sumFields m) := by
  refine RelE.seqFin (R := fun _ => GridArray.Translated t) fun a => sumField_translated ?_
  rw [List.forall₂_map_left_iff, List.forall₂_map_right_iff]
  exact h.imp fun _ _ hab => hab a

/-- **C68** The default convection commutes with every translation. -/
theorem C68_default_convection (g : Grid d ℝ) (t : Idx d) (dt : ℝ) : TendencyCommutes g t (defaultConvect dt) :=
  fun _ _ _ h => RelE.seqFin (R := fun _ => GridArray.Translated t) fun a => (C68_advection (h a) h dt).2.2

theorem convectOr_commutes {g : Grid d ℝ} {C : Option (ConvectFn d)} (hC : ∀ C', C = some C' → TendencyCommutes g t C') (dt : ℝ) : TendencyCommutes g t (convectOr C dt) := by
  cases C with
  | none => exact C68_default_convection g t dt
  | some C => exact hC C rfl

/-- A diffusion function of one component that commutes with the translation. -/
def DiffusionCommutes (t : Idx d) (D : DiffuseFn d) : Prop := ∀ u u' k, GridVariable.Translated t u u' → RelE (GridArray.Translated t) (D u k) (D u' k)

/-- **C68** The default diffusion commutes with every translation. -/
theorem C68_default_diffusion (t : Idx d) : DiffusionCommutes t diffuse := fun _ _ k h => C68_diffuse h k

/-- **C68** The explicit terms of the Navier-Stokes equations commute with every translation that convection, diffusion and forcing commute with. -/
theorem C68_explicit_terms (g : Grid d ℝ) (t : Idx d) (density : ℝ) (viscosity : Option ℝ) (dt : ℝ) (C : Option (ConvectFn d)) (D : DiffuseFn d) (f : Option (ForcingFn d))
    (hC : ∀ C', C = some C' → TendencyCommutes g t C') (hD : DiffusionCommutes t D) (hf : ∀ f', f = some f' → TendencyCommutes g t f') :
    CommutesWithTranslation g t (explicitTerms density viscosity dt C D f) := by
  intro u u' hu h
  unfold explicitTerms
  refine RelE.bind (convectOr_commutes hC dt u u' hu h) fun c c' hc => RelE.bind (R := fun r s => ∀ a, (r a).Translated t (s a)) ?_ fun x x' hx =>
    RelE.bind (R := fun r s => ∀ a, (r a).Translated t (s a)) ?_ fun y y' hy => RelE.ok fun a => ⟨(h a).1, (h a).2.1, hy a⟩
  · cases viscosity with
    | none => exact RelE.ok hc
    | some nu =>
      exact RelE.bind (R := fun a b => b = a) (RelE.same _ fun _ _ => rfl) fun k k' hk => by
        subst hk
        exact RelE.bind (RelE.seqFin (R := fun _ => GridArray.Translated t) fun a => hD _ _ _ (h a)) fun df df' hdf => sumFields_translated (.cons hc (.cons hdf .nil))
  · cases f with
    | none => exact RelE.ok hx
    | some f => exact RelE.bind (hf f rfl u u' hu h) fun F F' hF => sumFields_translated (.cons hx (.cons (fun a => (hF a).gmap _) .nil))

/-- Leaves of states laid out on the grid `g`, translated. -/
def LeavesTranslated (g : Grid d ℝ) (t : Idx d) (x y : Leaves d) : Prop := ∀ a (i : Idx d), InR g.shape i → y a i = x a (moved g.shape t i)

omit [HasNan ℝ] in
theorem leaves_translated {g : Grid d ℝ} (hs : ∀ a, 0 < g.shape a) {u u' : Fin d → GridVariable d ℝ} (hu : PeriodicField g u) (h : FieldTranslated t u u') :
    LeavesTranslated g t (leaves u) (leaves u') := by
  intro a i hi
  have e : (u a).array.shape = g.shape := (hu.1 a).2.1
  have e' : (u' a).array.shape = g.shape := (h a).2.2.2.2.2.1.trans e
  rw [leaves_inR (by rw [e']; exact hi), leaves_inR (by rw [e]; exact moved_inR hs t i), (h a).2.2.2.2.2.2.2 i (by rw [e]; exact hi), e]

omit [HasNan ℝ] in
theorem withLeaves_translated {g : Grid d ℝ} {u u' : Fin d → GridVariable d ℝ} (hu : PeriodicField g u) (h : FieldTranslated t u u') {x y : Leaves d} (hxy : LeavesTranslated g t x y) :
    FieldTranslated t (withLeaves u x) (withLeaves u' y) := by
  intro a
  have e : (u a).array.shape = g.shape := (hu.1 a).2.1
  refine ⟨(h a).1, (h a).2.1, (h a).2.2.1, (h a).2.2.2.1, (h a).2.2.2.2.1, (h a).2.2.2.2.2.1, (h a).2.2.2.2.2.2.1, fun i hi => ?_⟩
  show y a i = x a (moved (u a).array.shape t i)
  rw [e]
  exact hxy a i (by rw [← e]; exact hi)

theorem withLeaves_periodic {g : Grid d ℝ} {u : Fin d → GridVariable d ℝ} (hu : PeriodicField g u) (x : Leaves d) : PeriodicField g (withLeaves u x) :=
  SameLayout.periodicField hu fun _ => ⟨rfl, rfl, rfl, rfl⟩

theorem leavesLike_translated {g : Grid d ℝ} (hs : ∀ a, 0 < g.shape a) {u u' : Fin d → GridVariable d ℝ} (hu : PeriodicField g u) (h : FieldTranslated t u u') {r r' : Fin d → GridVariable d ℝ}
    (hr : FieldTranslated t r r') : RelE (LeavesTranslated g t) (leavesLike u r) (leavesLike u' r') := by
  unfold leavesLike
  simp only [fun a => (h a).1, fun a => (h a).2.2.1, fun a => (h a).2.2.2.1, fun a => (hr a).1, fun a => (hr a).2.2.1, fun a => (hr a).2.2.2.1, fun a => (h a).2.2.2.2.2.1,
    fun a => (hr a).2.2.2.2.2.1]
  by_cases h1 : ∃ a, (r a).array.offset ≠ (u a).array.offset ∨ (r a).array.grid ≠ (u a).array.grid ∨ (r a).bc ≠ (u a).bc
  · rw [if_pos h1, if_pos h1]; exact RelE.error _
  rw [if_neg h1, if_neg h1]
  by_cases h2 : ∃ a, (r a).array.shape ≠ (u a).array.shape
  · rw [if_pos h2, if_pos h2]; exact RelE.error _
  rw [if_neg h2, if_neg h2]
  push Not at h1 h2
  exact RelE.ok (leaves_translated hs (SameLayout.periodicField hu fun a => ⟨(h1 a).1, (h1 a).2.1, (h1 a).2.2, h2 a⟩) hr)

section RK
variable {V W : Type} [AddCommGroup V] [Module ℝ V] [AddCommGroup W] [Module ℝ W] {R : V → W → Prop}

omit [HasNan ℝ] in
theorem weightedSum_related (h0 : R 0 0) (ha : ∀ x y x' y', R x x' → R y y' → R (x + y) (x' + y')) (hm : ∀ (c : ℝ) x x', R x x' → R (c • x) (c • x')) (cs : List ℝ) {l : List V} {m : List W}
    (h : List.Forall₂ R l m) : RelE R (weightedSum cs l) (weightedSum cs m) := by
  induction h generalizing cs with
  | nil =>
    unfold weightedSum
    exact RelE.ok h0
  | cons hab _ ih =>
    cases cs with
    | nil => exact RelE.error _
    | cons c cs =>
      unfold weightedSum
      refine RelE.bind (ih cs) fun s s' hs => RelE.ok ?_
      split_ifs
      · exact hs
      · exact ha _ _ _ _ (hm c _ _ hab) hs

omit [HasNan ℝ] in
/-- A Runge-Kutta step of related systems. -/
theorem navierStokesRK_related (h0 : R 0 0) (ha : ∀ x y x' y', R x x' → R y y' → R (x + y) (x' + y')) (hm : ∀ (c : ℝ) x x', R x x' → R (c • x) (c • x')) (tab : Tableau ℝ)
    {F P : V → Except Err V} {F' P' : W → Except Err W} (hF : ∀ x x', R x x' → RelE R (F x) (F' x')) (hP : ∀ x x', R x x' → RelE R (P x) (P' x')) (dt : ℝ) {u : V} {u' : W} (hu : R u u') :
    RelE R (navierStokesRK tab F P dt u) (navierStokesRK tab F' P' dt u') := by
  unfold navierStokesRK
  refine RelE.bind (hF _ _ hu) fun k k' hk => RelE.bind (R := List.Forall₂ R) (RelE.foldlM _ (fun row _ l m hlm => ?_) (.cons hk .nil)) fun ks ks' hks =>
    RelE.bind (weightedSum_related h0 ha hm _ hks) fun s s' hs => hP _ _ (ha _ _ _ _ hu (hm _ _ _ hs))
  exact RelE.bind (weightedSum_related h0 ha hm _ hlm) fun s s' hs => RelE.bind (hP _ _ (ha _ _ _ _ hu (hm _ _ _ hs))) fun x x' hx => RelE.bind (hF _ _ hx) fun y y' hy =>
    RelE.ok (List.rel_append hlm (.cons hy .nil))

end RK

/-- **C68** A semi-implicit Navier-Stokes step with any Runge-Kutta stepper commutes with every translation that its parts commute with. -/
theorem C68_step (g : Grid d ℝ) (hs : ∀ a, 0 < g.shape a) (t : Idx d) (density : ℝ) (viscosity : Option ℝ) (dt : ℝ) (solve : PressureSolver d ℝ)
    (hP : CommutesWithTranslation g t fun u => projection u solve) (C : Option (ConvectFn d)) (D : DiffuseFn d) (f : Option (ForcingFn d))
    (hC : ∀ C', C = some C' → TendencyCommutes g t C') (hD : DiffusionCommutes t D) (hf : ∀ f', f = some f' → TendencyCommutes g t f') (s : Stepper d) (hst : RungeKutta s) :
    CommutesWithTranslation g t (semiImplicitNavierStokes density viscosity dt solve C D f s) := by
  intro u u' hu h
  obtain ⟨a, b, tab, -, -, -, rfl⟩ := hst
  unfold semiImplicitNavierStokes
  refine RelE.bind (navierStokesRK_related (R := LeavesTranslated g t) (fun _ _ _ => rfl) (fun x y x' y' hx hy a i hi => congrArg₂ (· + ·) (hx a i hi) (hy a i hi))
    (fun c x x' hx a i hi => congrArg (c * ·) (hx a i hi)) tab (fun x x' hx => ?_) (fun x x' hx => ?_) dt (leaves_translated hs hu h)) fun x y hxy => RelE.ok (withLeaves_translated hu h hxy)
  · exact RelE.bind (C68_explicit_terms g t density viscosity dt C D f hC hD hf _ _ (withLeaves_periodic hu x) (withLeaves_translated hu h hx)) fun r r' hr => leavesLike_translated hs hu h hr
  · exact RelE.bind (hP _ _ (withLeaves_periodic hu x) (withLeaves_translated hu h hx)) fun r r' hr => leavesLike_translated hs hu h hr

theorem projection_layout {g : Grid d ℝ} {u w : Fin d → GridVariable d ℝ} (hu : PeriodicField g u) {solve : PressureSolver d ℝ} (h : projection u solve = .ok w) : PeriodicField g w := by
  unfold projection at h
  obtain ⟨_, -, h⟩ := Except.bind_eq_ok.1 h
  obtain ⟨_, -, h⟩ := Except.bind_eq_ok.1 h
  obtain ⟨_, -, h⟩ := Except.bind_eq_ok.1 h
  obtain ⟨_, -, h⟩ := Except.bind_eq_ok.1 h
  obtain ⟨_, -, h⟩ := Except.bind_eq_ok.1 h
  obtain ⟨G, -, h⟩ := Except.bind_eq_ok.1 h
  refine SameLayout.periodicField hu fun a => ?_
  obtain ⟨x, hx, h⟩ := Except.bind_eq_ok.1 ((seqFin_eq_ok _ _).1 h a)
  obtain ⟨-, -, -, er⟩ := gmap2_eq_ok.1 hx
  rw [imposeBC_periodic _ _ (fun b => by rw [hu.2 a]; rfl) fun b => by rw [er]; show (u a).array.shape b = (u a).array.grid.shape b; rw [(hu.1 a).2.1, (hu.1 a).1]] at h
  rw [← Except.ok.inj h, er]
  exact ⟨rfl, rfl, rfl, rfl⟩

/-- **C68** An implicit-diffusion Navier-Stokes step commutes with every translation that its parts commute with. -/
theorem C68_implicit_step (g : Grid d ℝ) (t : Idx d) (density viscosity dt : ℝ) (solve : PressureSolver d ℝ)
    (hP : CommutesWithTranslation g t fun u => projection u solve) (dsolve : (Fin d → GridVariable d ℝ) → ℝ → ℝ → Except Err (Fin d → GridVariable d ℝ))
    (hS : CommutesWithTranslation g t fun u => dsolve u viscosity dt) (C : Option (ConvectFn d)) (f : Option (ForcingFn d))
    (hC : ∀ C', C = some C' → TendencyCommutes g t C') (hf : ∀ f', f = some f' → TendencyCommutes g t f') :
    CommutesWithTranslation g t (implicitDiffusionNavierStokes density viscosity dt solve dsolve C f) := by
  intro u u' hu h
  unfold implicitDiffusionNavierStokes
  refine RelE.bind (R := fun r s => ∀ a, (r a).Translated t (s a)) ?_ fun r r' hr => RelE.bind (RelE.seqFin (R := fun a x x' => GridVariable.Translated t x x' ∧ x.array.offset = (u a).array.offset ∧
    x.array.grid = (u a).array.grid ∧ x.bc = (u a).bc ∧ x.array.shape = (u a).array.shape) fun a => ?_) fun v v' hv => RelE.bind (R := fun w w' => FieldTranslated t w w' ∧ PeriodicField g w) ?_
      fun w w' hw => ?_
  · unfold accelerations
    refine RelE.bind (convectOr_commutes hC dt u u' hu h) fun c c' hc => ?_
    cases f with
    | none => exact sumFields_translated (.cons hc .nil)
    | some f => exact RelE.bind (hf f rfl u u' hu h) fun F F' hF => sumFields_translated (.cons hc (.cons (fun a => (hF a).gmap _) .nil))
  · have hg := (h a).2.2.gmap2 ((hr a).gmap fun x => x * dt) fun x y => x + y
    refine RelE.bind (R := fun x x' => GridArray.Translated t x x' ∧ x.offset = (u a).array.offset ∧ x.grid = (u a).array.grid ∧ x.shape = (u a).array.shape) ⟨hg.1, fun x hx => ?_⟩
      fun x x' hx => RelE.ok ⟨⟨(h a).1, (h a).2.1, hx.1⟩, hx.2.1, hx.2.2.1, rfl, hx.2.2.2⟩
    obtain ⟨s, hs, hxs⟩ := hg.2 x hx
    obtain ⟨-, -, -, er⟩ := gmap2_eq_ok.1 hx
    exact ⟨s, hs, hxs, by rw [er], by rw [er], by rw [er]⟩
  · have hl : PeriodicField g v := SameLayout.periodicField hu fun a => ⟨(hv a).2.1, (hv a).2.2.1, (hv a).2.2.2.1, (hv a).2.2.2.2⟩
    have hp := hP v v' hl fun a => (hv a).1
    exact ⟨hp.1, fun w hw => by
      obtain ⟨w', hw', hww⟩ := hp.2 w hw
      exact ⟨w', hw', hww, projection_layout hl hw⟩⟩
  · exact hS w w' hw.2 hw.1
end
end JaxCfd
