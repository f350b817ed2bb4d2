import Verif.Props.Mirror
import Verif.Props.WallStep
import Verif.Props.ForcedTrajectory

/-!
# C78: Navier-Stokes steps and trajectories commute with reflections; symmetric flows stay symmetric
-/

namespace JaxCfd
variable {d : ℕ} {ax : Fin d}

theorem GridArray.Mirrored.gmap {σ : ℝ} {u v : GridArray d ℝ} (h : u.Mirrored ax σ v) (f : ℝ → ℝ) (hf : ∀ x, f (σ * x) = σ * f x) : (JaxCfd.gmap f u).Mirrored ax σ (JaxCfd.gmap f v) := by
  obtain ⟨ho, hg, hs, m, hm, hd⟩ := h
  refine ⟨ho, hg, hs, m, hm, fun i hi => ?_⟩
  show f (v.data i) = σ * f (u.data (mirrorIdx u.shape ax m i))
  rw [hd i hi, hf]

theorem GridArray.Mirrored.index {σ : ℝ} {u v : GridArray d ℝ} (h : u.Mirrored ax σ v) {m : ℤ} (hm : (m : ℚ) = 2 * u.offset ax) {i : Idx d} (hi : InR u.shape i) :
    v.data i = σ * u.data (mirrorIdx u.shape ax m i) := by
  obtain ⟨-, -, -, k, hk, hd⟩ := h
  have : m = k := by exact_mod_cast hm.trans hk.symm
  rw [this]
  exact hd i hi

theorem GridArray.Mirrored.gmap2 {σ : ℝ} {u v u' v' : GridArray d ℝ} (h : u.Mirrored ax σ v) (h' : u'.Mirrored ax σ v') (f : ℝ → ℝ → ℝ) (hf : ∀ x y, f (σ * x) (σ * y) = σ * f x y) :
    RelE (GridArray.Mirrored ax σ) (JaxCfd.gmap2 f u u') (JaxCfd.gmap2 f v v') := by
  unfold JaxCfd.gmap2
  rw [h.2.2.1, h'.2.2.1]
  by_cases hs : u.shape = u'.shape
  · rw [if_neg (not_not.2 hs), if_neg (not_not.2 hs)]
    have e1 : consistentOffset [v, v'] = consistentOffset [u, u'] := uniqueOr_congr (.cons h.1 (.cons h'.1 .nil))
    have e2 : consistentGrid [v, v'] = consistentGrid [u, u'] := uniqueOr_congr (.cons h.2.1 (.cons h'.2.1 .nil))
    rw [e1, e2]
    refine RelE.bind (R := fun o o' => o' = o ∧ consistentOffset [u, u'] = .ok o) (RelE.same _ fun o ho => ⟨rfl, ho⟩) fun o o' ho => RelE.bind (RelE.eq rfl) fun g g' hg => RelE.ok ?_
    obtain ⟨rfl, ho⟩ := ho
    have o1 : u.offset = o' := (uniqueOr_eq_ok.1 ho).2 u (by simp)
    have o2 : u'.offset = o' := (uniqueOr_eq_ok.1 ho).2 u' (by simp)
    obtain ⟨m, hm, -⟩ := h.2.2.2
    refine ⟨rfl, hg, h.2.2.1, m, by rw [hm, o1], fun i hi => ?_⟩
    have hi1 : InR u.shape i := hi
    show f (v.data i) (v'.data i) = σ * f (u.data (mirrorIdx u.shape ax m i)) (u'.data (mirrorIdx u.shape ax m i))
    rw [h.index hm hi1, h'.index (m := m) (by rw [hm, o1, o2]) (by rw [← hs]; exact hi1), ← hs, hf]
  · rw [if_pos hs, if_pos hs]
    exact RelE.error _

theorem sumField_mirrored {σ : ℝ} {l m : List (GridArray d ℝ)} (h : List.Forall₂ (GridArray.Mirrored ax σ) l m) : RelE (GridArray.Mirrored ax σ) (sumField l) (sumField m) := by
  cases h with
  | nil => exact RelE.error _
  | @cons u v rest rest' huv hrest =>
    unfold sumField
    dsimp only
    have e1 : (∃ w ∈ rest', w.offset ≠ v.offset ∨ w.grid ≠ v.grid) ↔ ∃ w ∈ rest, w.offset ≠ u.offset ∨ w.grid ≠ u.grid := by
      rw [huv.1, huv.2.1]
      clear huv
      induction hrest with
      | nil => simp
      | cons hab _ ih => simp only [List.mem_cons, exists_eq_or_imp, ih, hab.1, hab.2.1]
    have e2 : (∃ w ∈ rest', w.shape ≠ v.shape) ↔ ∃ w ∈ rest, w.shape ≠ u.shape := by
      rw [huv.2.2.1]
      clear huv e1
      induction hrest with
      | nil => simp
      | cons hab _ ih => simp only [List.mem_cons, exists_eq_or_imp, ih, hab.2.2.1]
    simp only [e1, e2]
    by_cases h1 : ∃ w ∈ rest, w.offset ≠ u.offset ∨ w.grid ≠ u.grid
    · rw [if_pos h1, if_pos h1]; exact RelE.error _
    rw [if_neg h1, if_neg h1]
    by_cases h2 : ∃ w ∈ rest, w.shape ≠ u.shape
    · rw [if_pos h2, if_pos h2]; exact RelE.error _
    rw [if_neg h2, if_neg h2]
    obtain ⟨k, hk, -⟩ := huv.2.2.2
    refine RelE.ok ⟨huv.1, huv.2.1, huv.2.2.1, k, hk, fun i hi => ?_⟩
    push Not at h1 h2
    dsimp only [List.foldl_cons]
    rw [huv.index hk hi]
    have e0 : (0 : ℝ) + σ * u.data (mirrorIdx u.shape ax k i) = σ * (0 + u.data (mirrorIdx u.shape ax k i)) := by ring
    rw [e0]
    generalize (0 : ℝ) + u.data (mirrorIdx u.shape ax k i) = x
    clear e0 e1 e2
    induction hrest generalizing x with
    | nil => rfl
    | @cons a b l1 l2 hab _ ih =>
      have h2a := h2 a (by simp)
      have h1a := (h1 a (by simp)).1
      rw [List.foldl_cons, List.foldl_cons, hab.index (m := k) (by rw [hk, h1a]) (by rw [h2a]; exact hi), h2a, ← mul_add]
      exact ih hi (fun w hw => h1 w (List.mem_cons_of_mem _ hw)) (fun w hw => h2 w (List.mem_cons_of_mem _ hw)) _

theorem sumFields_mirrored {l m : List (Fin d → GridArray d ℝ)} (h : List.Forall₂ (TendencyMirrored ax) l m) : RelE (TendencyMirrored ax) (sumFields l) (sumFields m) := by
  refine RelE.seqFin (R := fun a (r s : GridArray d ℝ) => r.Mirrored ax (mirrorSign ax a) s) fun a => sumField_mirrored ?_
  rw [List.forall₂_map_left_iff, List.forall₂_map_right_iff]
  exact h.imp fun _ _ hab => hab a

section
variable [HasNan ℝ]

/-- Optional functions (convection, forcing): both absent, or the same on the two sides of the mirror. -/
def OptMirrors (g : Grid d ℝ) (ax : Fin d) (F F' : Option ((Fin d → GridVariable d ℝ) → Except Err (Fin d → GridArray d ℝ))) : Prop :=
  (F = none ∧ F' = none) ∨ ∃ f f', F = some f ∧ F' = some f' ∧ TendencyMirrorsTo g ax f f'

theorem convectOr_mirror (hd : d ≠ 0) {g : Grid d ℝ} (hs : ∀ a, 0 < g.shape a) {C C' : Option (ConvectFn d)} (hC : OptMirrors g ax C C') (dt : ℝ) :
    TendencyMirrorsTo g ax (convectOr C dt) (convectOr C' dt) := by
  rcases hC with ⟨rfl, rfl⟩ | ⟨F, F', rfl, rfl, h⟩
  · exact (C78_convection hd g hs ax dt).1
  · exact h

/-- A diffusion function that commutes with the reflection, on the components of periodic fields. -/
def DiffusionCommutesMirror (ax : Fin d) (D : DiffuseFn d) : Prop :=
  ∀ (u u' : GridVariable d ℝ) (σ k : ℝ), u.Periodic → u'.bc = u.bc → u.array.Mirrored ax σ u'.array → RelE (GridArray.Mirrored ax σ) (D u k) (D u' k)

/-- **C78** The default diffusion commutes with every reflection. -/
theorem C78_default_diffusion (ax : Fin d) : DiffusionCommutesMirror ax diffuse := fun u u' σ k hu hb h => RelE.of_ok (C78_diffuse u u' hu hb σ h k)

/-- **C78** The explicit terms of the Navier-Stokes equations: reflecting convection, diffusion and forcing reflects the result. -/
theorem C78_explicit_terms (hd : d ≠ 0) (g : Grid d ℝ) (hs : ∀ a, 0 < g.shape a) (ax : Fin d) (density : ℝ) (viscosity : Option ℝ) (dt : ℝ) (C C' : Option (ConvectFn d)) (D : DiffuseFn d)
    (f f' : Option (ForcingFn d)) (hC : OptMirrors g ax C C') (hD : DiffusionCommutesMirror ax D) (hf : OptMirrors g ax f f') :
    MirrorsTo g ax (explicitTerms density viscosity dt C D f) (explicitTerms density viscosity dt C' D f') := by
  intro u u' hu h
  unfold explicitTerms
  refine RelE.bind (convectOr_mirror hd hs hC dt u u' hu h) fun c c' hc => RelE.bind (R := TendencyMirrored ax) ?_ fun x x' hx =>
    RelE.bind (R := TendencyMirrored ax) ?_ fun y y' hy => RelE.ok fun a => ⟨(h a).1, hy a⟩
  · cases viscosity with
    | none => exact RelE.ok hc
    | some nu =>
      exact RelE.bind (R := fun a b => b = a) (RelE.same _ fun _ _ => rfl) fun k k' hk => by
        subst hk
        exact RelE.bind (RelE.seqFin (R := fun a (r s : GridArray d ℝ) => r.Mirrored ax (mirrorSign ax a) s) fun a => hD _ _ _ _ (hu.periodic hs a) (h a).1 (h a).2) fun df df' hdf =>
          sumFields_mirrored (.cons hc (.cons hdf .nil))
  · rcases hf with ⟨rfl, rfl⟩ | ⟨f, f', rfl, rfl, hf⟩
    · exact RelE.ok hx
    · exact RelE.bind (hf u u' hu h) fun F F' hF => sumFields_mirrored (.cons hx (.cons (fun a => (hF a).gmap _ fun x => by ring) .nil))

omit [HasNan ℝ] in
theorem leaves_mirrored {g : Grid d ℝ} (hs : ∀ a, 0 < g.shape a) {u u' : Fin d → GridVariable d ℝ} (hu : PeriodicField g u) (h : FieldMirrored ax u u') :
    MirrorData g.shape ax (leaves u) (leaves u') := by
  intro a i hi
  have e : (u a).array.shape = g.shape := (hu.1 a).2.1
  have e' : (u' a).array.shape = g.shape := (h a).2.2.2.1.trans e
  rw [leaves_inR (by rw [e']; exact hi), leaves_inR (by rw [e]; exact mirrorIdx_inR hs _ hi)]
  exact h.data hu a i hi

theorem withLeaves_mirrored {g : Grid d ℝ} {u u' : Fin d → GridVariable d ℝ} (hu : PeriodicField g u) (h : FieldMirrored ax u u') {x y : Leaves d} (hxy : MirrorData g.shape ax x y) :
    FieldMirrored ax (withLeaves u x) (withLeaves u' y) :=
  FieldMirrored.of_data (withLeaves_periodic hu x) (withLeaves_periodic (h.periodicField hu) y) hxy

theorem leavesLike_mirrored {g : Grid d ℝ} (hs : ∀ a, 0 < g.shape a) {u u' : Fin d → GridVariable d ℝ} (hu : PeriodicField g u) (h : FieldMirrored ax u u') {r r' : Fin d → GridVariable d ℝ}
    (hr : FieldMirrored ax r r') : RelE (MirrorData g.shape ax) (leavesLike u r) (leavesLike u' r') := by
  unfold leavesLike
  simp only [fun a => (h a).1, fun a => (h a).2.1, fun a => (h a).2.2.1, fun a => (hr a).1, fun a => (hr a).2.1, fun a => (hr a).2.2.1, fun a => (h a).2.2.2.1, fun a => (hr a).2.2.2.1]
  by_cases h1 : ∃ a, (r a).array.offset ≠ (u a).array.offset ∨ (r a).array.grid ≠ (u a).array.grid ∨ (r a).bc ≠ (u a).bc
  · rw [if_pos h1, if_pos h1]; exact RelE.error _
  rw [if_neg h1, if_neg h1]
  by_cases h2 : ∃ a, (r a).array.shape ≠ (u a).array.shape
  · rw [if_pos h2, if_pos h2]; exact RelE.error _
  rw [if_neg h2, if_neg h2]
  push Not at h1 h2
  exact RelE.ok (leaves_mirrored hs (SameLayout.periodicField hu fun a => ⟨(h1 a).1, (h1 a).2.1, (h1 a).2.2, h2 a⟩) hr)

/-- **C78** A semi-implicit Navier-Stokes step with any Runge-Kutta stepper: reflecting its parts reflects the result. -/
theorem C78_step (hd : d ≠ 0) (g : Grid d ℝ) (hs : ∀ a, 0 < g.shape a) (ax : Fin d) (density : ℝ) (viscosity : Option ℝ) (dt : ℝ) (solve : PressureSolver d ℝ)
    (hP : CommutesWithMirror g ax fun u => projection u solve) (C C' : Option (ConvectFn d)) (D : DiffuseFn d) (f f' : Option (ForcingFn d))
    (hC : OptMirrors g ax C C') (hD : DiffusionCommutesMirror ax D) (hf : OptMirrors g ax f f') (s : Stepper d) (hst : RungeKutta s) :
    MirrorsTo g ax (semiImplicitNavierStokes density viscosity dt solve C D f s) (semiImplicitNavierStokes density viscosity dt solve C' D f' s) := by
  intro u u' hu h
  obtain ⟨a, b, tab, -, -, -, rfl⟩ := hst
  unfold semiImplicitNavierStokes
  refine RelE.bind (navierStokesRK_related (R := MirrorData g.shape ax) (fun a i _ => (mul_zero _).symm) (fun x y x' y' hx hy a i hi => ?_)
    (fun c x x' hx a i hi => ?_) tab (fun x x' hx => ?_) (fun x x' hx => ?_) dt (leaves_mirrored hs hu h)) fun x y hxy => RelE.ok (withLeaves_mirrored hu h hxy)
  · show x' a i + y' a i = mirrorSign ax a * (x a _ + y a _)
    rw [hx a i hi, hy a i hi, mul_add]
  · show c * x' a i = mirrorSign ax a * (c * x a _)
    rw [hx a i hi]
    ring
  · exact RelE.bind (C78_explicit_terms hd g hs ax density viscosity dt C C' D f f' hC hD hf _ _ (withLeaves_periodic hu x) (withLeaves_mirrored hu h hx)) fun r r' hr => leavesLike_mirrored hs hu h hr
  · exact RelE.bind (hP _ _ (withLeaves_periodic hu x) (withLeaves_mirrored hu h hx)) fun r r' hr => leavesLike_mirrored hs hu h hr

/-- **C78** An implicit-diffusion Navier-Stokes step: reflecting its parts reflects the result. -/
theorem C78_implicit_step (hd : d ≠ 0) (g : Grid d ℝ) (hs : ∀ a, 0 < g.shape a) (ax : Fin d) (density viscosity dt : ℝ) (solve : PressureSolver d ℝ)
    (hP : CommutesWithMirror g ax fun u => projection u solve) (dsolve : (Fin d → GridVariable d ℝ) → ℝ → ℝ → Except Err (Fin d → GridVariable d ℝ))
    (hS : CommutesWithMirror g ax fun u => dsolve u viscosity dt) (C C' : Option (ConvectFn d)) (f f' : Option (ForcingFn d))
    (hC : OptMirrors g ax C C') (hf : OptMirrors g ax f f') :
    MirrorsTo g ax (implicitDiffusionNavierStokes density viscosity dt solve dsolve C f) (implicitDiffusionNavierStokes density viscosity dt solve dsolve C' f') := by
  intro u u' hu h
  unfold implicitDiffusionNavierStokes
  refine RelE.bind (R := TendencyMirrored ax) ?_ fun r r' hr => RelE.bind (RelE.seqFin (R := fun a x x' => (x'.bc = x.bc ∧ x.array.Mirrored ax (mirrorSign ax a) x'.array) ∧
    x.array.offset = (u a).array.offset ∧ x.array.grid = (u a).array.grid ∧ x.bc = (u a).bc ∧ x.array.shape = (u a).array.shape) fun a => ?_) fun v v' hv =>
      RelE.bind (R := fun w w' => FieldMirrored ax w w' ∧ PeriodicField g w) ?_ fun w w' hw => ?_
  · unfold accelerations
    refine RelE.bind (convectOr_mirror hd hs hC dt u u' hu h) fun c c' hc => ?_
    rcases hf with ⟨rfl, rfl⟩ | ⟨f, f', rfl, rfl, hf⟩
    · exact sumFields_mirrored (.cons hc .nil)
    · exact RelE.bind (hf u u' hu h) fun F F' hF => sumFields_mirrored (.cons hc (.cons (fun a => (hF a).gmap _ fun x => by ring) .nil))
  · have hg := (h a).2.gmap2 ((hr a).gmap (fun x => x * dt) fun x => by ring) (fun x y => x + y) fun x y => (mul_add _ _ _).symm
    refine RelE.bind (R := fun x x' => x.Mirrored ax (mirrorSign ax a) x' ∧ x.offset = (u a).array.offset ∧ x.grid = (u a).array.grid ∧ x.shape = (u a).array.shape) ⟨hg.1, fun x hx => ?_⟩
      fun x x' hx => RelE.ok ⟨⟨(h a).1, hx.1⟩, hx.2.1, hx.2.2.1, rfl, hx.2.2.2⟩
    obtain ⟨s, hs, hxs⟩ := hg.2 x hx
    obtain ⟨-, -, -, er⟩ := gmap2_eq_ok.1 hx
    exact ⟨s, hs, hxs, by rw [er], by rw [er], by rw [er]⟩
  · have hl : PeriodicField g v := SameLayout.periodicField hu fun a => ⟨(hv a).2.1, (hv a).2.2.1, (hv a).2.2.2.1, (hv a).2.2.2.2⟩
    have hp := hP v v' hl fun a => (hv a).1
    exact ⟨hp.1, fun w hw => by
      obtain ⟨w', hw', hww⟩ := hp.2 w hw
      exact ⟨w', hw', hww, projection_layout hl hw⟩⟩
  · exact hS w w' hw.2 hw.1

/-- **C78** An exact diffusion solve — however it is computed — commutes with every reflection. -/
theorem C78_exact_diffusion (g : Grid d ℝ) (hs : ∀ a, 0 < g.shape a) (ax : Fin d) (nu dt : ℝ) (hc : 0 ≤ nu * dt)
    (dsolve : (Fin d → GridVariable d ℝ) → ℝ → ℝ → Except Err (Fin d → GridVariable d ℝ)) (hex : ExactDiffusion g dsolve) :
    CommutesWithMirror g ax fun u => dsolve u nu dt := by
  intro u u' hu h
  have hu' := h.periodicField hu
  obtain ⟨r, hr, hb⟩ := hex u nu dt hu hc
  obtain ⟨r', hr', hb'⟩ := hex u' nu dt hu' hc
  show RelE _ (dsolve u nu dt) (dsolve u' nu dt)
  rw [hr, hr']
  have hrp : PeriodicField g r := SameLayout.periodicField hu fun a => ⟨(hb a).offset, (hb a).grid, (hb a).bc, (hb a).shape⟩
  have hrp' : PeriodicField g r' := SameLayout.periodicField hu' fun a => ⟨(hb' a).offset, (hb' a).grid, (hb' a).bc, (hb' a).shape⟩
  refine RelE.ok (FieldMirrored.of_data hrp hrp' fun a i hi => ?_)
  have hper := hu.periodic hs a
  have hper' := hu'.periodic hs a
  -- the mirror image of the solution solves the mirrored problem
  let m : GridVariable d ℝ := ⟨⟨⟨(u' a).array.shape, fun i => mirrorSign ax a * fieldData r a (mirrorIdx g.shape ax (faceIndex ax a) i)⟩, (u' a).array.offset, (u' a).array.grid⟩, (u' a).bc⟩
  have hmp : m.Periodic := hper'.mk' (fun _ => rfl) rfl rfl
  have hbm : BackwardEuler (u' a) m nu dt := by
    obtain ⟨L, hL, hLe⟩ := (hb a).step
    rw [laplacian_periodic (hrp.periodic hs a)] at hL
    obtain rfl := Except.ok.inj hL
    refine ⟨rfl, rfl, rfl, rfl, ⟨lapP m, laplacian_periodic hmp, fun j hj => ?_⟩, fun j hj hn => absurd (by rw [periodic_interior hper']; exact hj) hn⟩
    rw [periodic_interior hper', (hu'.1 a).2.1] at hj
    have hjM := mirrorIdx_inR (ax := ax) hs (faceIndex ax a) hj
    have h1 := hLe _ (by rw [periodic_interior hper, (hu.1 a).2.1]; exact hjM)
    have h2 : (lapP m).data j = mirrorSign ax a * (lapP (r a)).data (mirrorIdx g.shape ax (faceIndex ax a) j) := by
      have e1 : (lapP m).data j = dLap g.shape g.step m.array.data j := by
        show (∑ b : Fin d, _ : ℝ) = _
        rw [show m.array.shape = g.shape from (hu'.1 a).2.1, show m.array.grid = g from (hu'.1 a).1]
        rfl
      have e2 : (lapP (r a)).data (mirrorIdx g.shape ax (faceIndex ax a) j) = dLap g.shape g.step (fieldData r a) (mirrorIdx g.shape ax (faceIndex ax a) j) := by
        show (∑ b : Fin d, _ : ℝ) = _
        rw [(hrp.1 a).2.1, (hrp.1 a).1]
        rfl
      rw [e1, e2]
      exact dLap_mirror (fun i _ => rfl) hj
    rw [h2]
    have h3 : (u' a).array.data j = mirrorSign ax a * (u a).array.data (mirrorIdx g.shape ax (faceIndex ax a) j) := h.data hu a j hj
    rw [h3, ← h1]
    show mirrorSign ax a * (r a).array.data _ - _ = _
    ring
  exact C36_diffusion_unique (u' a) (r' a) m nu dt hc ((hu'.velocity hs).supported a) (hb' a) hbm i (by rw [periodic_interior hper', (hu'.1 a).2.1]; exact hi)

/-- **C78** Repeated steps, for every number of steps. -/
theorem C78_repeated (g : Grid d ℝ) (ax : Fin d) (f f' : (Fin d → GridVariable d ℝ) → Except Err (Fin d → GridVariable d ℝ)) (hf : MirrorsTo g ax f f')
    (hk : ∀ u w, PeriodicField g u → f u = .ok w → PeriodicField g w) (n : ℕ) : MirrorsTo g ax (repeated 0 f n) (repeated 0 f' n) := by
  induction n with
  | zero => exact fun u u' _ h => RelE.ok h
  | succ n ih =>
    intro u u' hu h
    have h1 := hf u u' hu h
    cases e : f u with
    | error err =>
      have e' := h1.1 err e
      have hrep : ∀ (F : (Fin d → GridVariable d ℝ) → Except Err (Fin d → GridVariable d ℝ)) x, F x = .error err → repeated 0 F (n + 1) x = .error err := by
        intro F x hx
        unfold repeated scanNone
        rw [if_neg (by simp), List.replicate_succ, laxScan.eq_2, hx]
        rfl
      rw [hrep f u e, hrep f' u' e']
      exact RelE.error _
    | ok w =>
      obtain ⟨w', hw', hww⟩ := h1.2 w e
      rw [repeated_succ f n u w e, repeated_succ f' n u' w' hw']
      exact ih w w' (hk u w hu e) hww

/-- **C78** The default Navier-Stokes solver on a periodic domain (van Leer convection, finite-difference diffusion, fast-diagonalization pressure solve, no forcing), any Runge-Kutta
stepper, any number of steps: the trajectory of the mirror image of an initial state is the mirror image of the trajectory. -/
theorem C78_default_trajectory (hd : d ≠ 0) (g : Grid d ℝ) (cutoff : ℝ) (hr : Resolved g cutoff) (eigh : EighFn ℝ) (heigh : ∀ m, m.Symmetric → IsEigh m (eigh m)) (tpu : Bool)
    (density : ℝ) (viscosity : Option ℝ) (hρ : density ≠ 0 ∨ viscosity = none) (dt : ℝ) (s : Stepper d) (hst : RungeKutta s) (n : ℕ) (ax : Fin d) (v v' : Fin d → GridVariable d ℝ)
    (hv : PeriodicField g v) (h : FieldMirrored ax v v') :
    ∃ w w', repeated 0 (semiImplicitNavierStokes density viscosity dt (defaultSolver tpu eigh cutoff) none diffuse none s) n v = .ok w ∧
      repeated 0 (semiImplicitNavierStokes density viscosity dt (defaultSolver tpu eigh cutoff) none diffuse none s) n v' = .ok w' ∧ FieldMirrored ax w w' := by
  have hs : ∀ a, 0 < g.shape a := fun a => by have := hr.cells a; omega
  have hex := C56_default_solver hd g cutoff hr eigh heigh tpu
  obtain ⟨w, hw, -⟩ := C56_default_trajectory hd g hs density viscosity hρ dt _ hex s hst n v hv
  obtain ⟨w', hw', hww⟩ := (C78_repeated g ax _ _ (C78_step hd g hs ax density viscosity dt _ (C78_exact_projection hd g hs ax _ hex) none none diffuse none none (Or.inl ⟨rfl, rfl⟩) (C78_default_diffusion ax)
    (Or.inl ⟨rfl, rfl⟩) s hst) (fun u w hu hw => (C56_divergence_free hd g hs density viscosity dt _ hex none diffuse none s hst u w hu hw).1) n v v' hv h).2 w hw
  exact ⟨w, w', hw, hw', hww⟩

omit [HasNan ℝ] in
/-- **C78** No flow through a plane of symmetry: for a flow that is its own mirror image, the velocity normal to the mirror vanishes on the mirror, which consists of the upper faces of
the last cells and, if the number of cells is even, of those in the middle of the domain. -/
theorem C78_no_flow_through_mirror (g : Grid d ℝ) (u : Fin d → GridVariable d ℝ) (hu : PeriodicField g u) (h : FieldMirrored ax u u) (i : Idx d) (hi : InR g.shape i)
    (hm : i ax = g.shape ax - 1 ∨ 2 * i ax = g.shape ax - 2) : (u ax).array.data i = 0 := by
  have h1 := h.data hu ax i hi
  have h2 : mirrorIdx g.shape ax (faceIndex ax ax) i = i := by
    unfold mirrorIdx faceIndex
    rw [if_pos rfl]
    have : (-(i ax) - 2) % (g.shape ax : ℤ) = i ax := by
      have hb := hi ax
      rcases hm with hm | hm
      · rw [show -(i ax) - 2 = i ax + (g.shape ax : ℤ) * (-2) by rw [hm]; ring, Int.add_mul_emod_self_left]
        exact Int.emod_eq_of_lt hb.1 hb.2
      · rw [show -(i ax) - 2 = i ax + (g.shape ax : ℤ) * (-1) by linarith, Int.add_mul_emod_self_left]
        exact Int.emod_eq_of_lt hb.1 hb.2
    rw [this, Function.update_eq_self]
  rw [h2] at h1
  unfold mirrorSign at h1
  rw [if_pos rfl] at h1
  have : (u ax).array.data i = -1 * (u ax).array.data i := h1
  linarith

/-- **C78** A flow that is its own mirror image stays so along the trajectory of the default solver, and never crosses the plane of symmetry. -/
theorem C78_symmetric_trajectory (hd : d ≠ 0) (g : Grid d ℝ) (cutoff : ℝ) (hr : Resolved g cutoff) (eigh : EighFn ℝ) (heigh : ∀ m, m.Symmetric → IsEigh m (eigh m)) (tpu : Bool)
    (density : ℝ) (viscosity : Option ℝ) (hρ : density ≠ 0 ∨ viscosity = none) (dt : ℝ) (s : Stepper d) (hst : RungeKutta s) (n : ℕ) (ax : Fin d) (v : Fin d → GridVariable d ℝ)
    (hv : PeriodicField g v) (h : FieldMirrored ax v v) :
    ∃ w, repeated 0 (semiImplicitNavierStokes density viscosity dt (defaultSolver tpu eigh cutoff) none diffuse none s) n v = .ok w ∧ FieldMirrored ax w w ∧
      ∀ i, InR g.shape i → i ax = g.shape ax - 1 ∨ 2 * i ax = g.shape ax - 2 → (w ax).array.data i = 0 := by
  have hs : ∀ a, 0 < g.shape a := fun a => by have := hr.cells a; omega
  obtain ⟨w, w', hw, hw', hww⟩ := C78_default_trajectory hd g cutoff hr eigh heigh tpu density viscosity hρ dt s hst n ax v v hv h
  rw [hw] at hw'
  obtain rfl := Except.ok.inj hw'
  obtain ⟨w1, hw1, hp, -⟩ := C56_default_trajectory hd g hs density viscosity hρ dt _ (C56_default_solver hd g cutoff hr eigh heigh tpu) s hst n v hv
  rw [hw] at hw1
  obtain rfl := Except.ok.inj hw1
  exact ⟨w, hw, hww, fun i hi hm => C78_no_flow_through_mirror g w hp hww i hi hm⟩

omit [HasNan ℝ] in
/-- **C78** Forcings: the linear forcing, no forcing, forcings by a fixed field and its mirror image, and sums of forcings. -/
theorem C78_forcings (g : Grid d ℝ) (ax : Fin d) :
    (∀ c : ℝ, TendencyCommutesMirror g ax (linearForcing c)) ∧ TendencyCommutesMirror g ax noForcing ∧
      (∀ (F F' : ForcingFn d) (f f' : Fin d → GridArray d ℝ), (∀ v, F v = .ok f) → (∀ v, F' v = .ok f') → TendencyMirrored ax f f' → TendencyMirrorsTo g ax F F') ∧
      ∀ l l' : List (ForcingFn d), List.Forall₂ (TendencyMirrorsTo g ax) l l' → TendencyMirrorsTo g ax (sumForcings l) (sumForcings l') := by
  refine ⟨fun c u u' _ h => RelE.ok fun a => (h a).2.gmap _ fun x => by ring, fun u u' _ h => RelE.ok fun a => (h a).2.gmap _ fun x => by ring, fun F F' f f' hF hF' hf u u' _ h => ?_,
    fun l l' hl u u' hu h => ?_⟩
  · rw [hF, hF']
    exact RelE.ok hf
  · unfold sumForcings
    exact RelE.bind (R := List.Forall₂ (TendencyMirrored ax)) (RelE.mapM hl fun F F' hF => hF u u' hu h) fun x y hxy => sumFields_mirrored hxy

/-- **C78** Kolmogorov forcing: on a grid whose lower corner is a node of the forcing and whose length is a multiple of its wave length, the mirror image — in either direction — of the
forcing is the forcing of opposite sign; mirrors normal to further axes leave it unchanged. -/
theorem C78_kolmogorov (h2 : 2 ≤ d) (h3 : d ≤ 3) (g : Grid d ℝ) (hg : g.Valid) (ax : Fin d) (scale k : ℝ) (swap : Bool)
    (hlo : ∃ n : ℤ, k * (g.domain (kolmogorovAxes d h2 swap).2).1 = n * Real.pi)
    (hL : ∃ n : ℤ, k * ((g.domain (kolmogorovAxes d h2 swap).2).2 - (g.domain (kolmogorovAxes d h2 swap).2).1) = n * (2 * Real.pi)) :
    ∃ F F', kolmogorovForcing g scale k swap none = .ok F ∧ kolmogorovForcing g (if (ax : ℕ) < 2 then -scale else scale) k swap none = .ok F' ∧ TendencyMirrorsTo g ax F F' := by
  have hs : ∀ a, 0 < g.shape a := fun a => (hg a).1
  obtain ⟨F, hF, f, hf, hff, hdat⟩ := C49_kolmogorov h2 h3 g scale k swap
  obtain ⟨F', hF', f', hf', hff', hdat'⟩ := C49_kolmogorov h2 h3 g (if (ax : ℕ) < 2 then -scale else scale) k swap
  refine ⟨F, F', hF, hF', (C78_forcings g ax).2.2.1 F F' f f' hf hf' fun a => ?_⟩
  have hoff : (faceIndex ax a : ℚ) = 2 * (f a).offset ax := by
    rw [(hff a).2.2 ax]
    unfold faceIndex
    by_cases h : a = ax
    · rw [if_pos h, if_pos h.symm]; norm_num
    · rw [if_neg h, if_neg fun e => h e.symm]; norm_num
  refine ⟨funext fun b => ((hff' a).2.2 b).trans ((hff a).2.2 b).symm, (hff' a).1.trans (hff a).1.symm, (hff' a).2.1.trans (hff a).2.1.symm, faceIndex ax a, hoff, fun i hi => ?_⟩
  rw [(hff a).2.1] at hi ⊢
  rw [hdat' a i hi, hdat a _ (mirrorIdx_inR hs _ hi)]
  have hc : ∀ b j, coord (f a) b j = g.position (f a).offset j b := fun b j => by unfold coord Grid.position; rw [(hff a).1]
  have hc' : ∀ b j, coord (f' a) b j = g.position (f a).offset j b := fun b j => by
    unfold coord Grid.position
    rw [(hff' a).1, (hff' a).2.2, (hff a).2.2]
  rw [hc, hc']
  obtain ⟨⟨n, hn⟩, hother⟩ := C78_mirror_position g hg (f a).offset (faceIndex ax a) hoff i
  have hne : (kolmogorovAxes d h2 swap).2 ≠ (kolmogorovAxes d h2 swap).1 := by
    cases swap <;> simp [kolmogorovAxes]
  have hlt : (ax : ℕ) < 2 ↔ ax = (kolmogorovAxes d h2 swap).1 ∨ ax = (kolmogorovAxes d h2 swap).2 := by
    cases swap <;> simp only [kolmogorovAxes, Fin.ext_iff, if_true, if_false, Bool.false_eq_true] <;> omega
  by_cases ham : a = (kolmogorovAxes d h2 swap).1
  · rw [if_pos ham, if_pos ham]
    by_cases h1 : ax = (kolmogorovAxes d h2 swap).1
    · rw [if_pos (hlt.2 (Or.inl h1)), hother _ (by rw [h1]; exact hne), show mirrorSign ax a = -1 by unfold mirrorSign; rw [if_pos (ham.trans h1.symm)]]
      ring
    · rw [show mirrorSign ax a = 1 by unfold mirrorSign; rw [if_neg fun e => h1 (e.symm.trans ham)], one_mul]
      by_cases h3 : ax = (kolmogorovAxes d h2 swap).2
      · rw [if_pos (hlt.2 (Or.inr h3)), ← h3]
        rw [← h3] at hlo hL
        obtain ⟨p, hp⟩ := hlo
        obtain ⟨q, hq⟩ := hL
        have e : k * g.position (f a).offset (mirrorIdx g.shape ax (faceIndex ax a) i) ax = -(k * g.position (f a).offset i ax) + (p + n * q : ℤ) * (2 * Real.pi) := by
          push_cast
          linear_combination k * hn + 2 * hp + n * hq
        rw [e, Real.sin_add_int_mul_two_pi, Real.sin_neg]
        ring
      · rw [if_neg (by rw [hlt]; tauto), hother _ fun e => h3 e.symm]
  · rw [if_neg ham, if_neg ham, mul_zero]

/-- **C78** Kolmogorov flow is symmetric under half turns: reflecting the initial velocity in two mirrors normal to the first two axes (in either order) reflects, in the same two mirrors,
the state after any number of steps with the same forcing. -/
theorem C78_kolmogorov_half_turn (h2 : 2 ≤ d) (h3 : d ≤ 3) (g : Grid d ℝ) (hg : g.Valid) (ax ay : Fin d) (hx : (ax : ℕ) < 2) (hy : (ay : ℕ) < 2) (scale k : ℝ) (swap : Bool)
    (hlo : ∃ n : ℤ, k * (g.domain (kolmogorovAxes d h2 swap).2).1 = n * Real.pi)
    (hL : ∃ n : ℤ, k * ((g.domain (kolmogorovAxes d h2 swap).2).2 - (g.domain (kolmogorovAxes d h2 swap).2).1) = n * (2 * Real.pi))
    (solve : PressureSolver d ℝ) (hex : ExactSolver g solve) (density : ℝ) (viscosity : Option ℝ) (dt : ℝ) (s : Stepper d) (hst : RungeKutta s) (n : ℕ) :
    ∃ F, kolmogorovForcing g scale k swap none = .ok F ∧ ∀ u v w, PeriodicField g u → FieldMirrored ax u v → FieldMirrored ay v w →
      ∀ U, repeated 0 (semiImplicitNavierStokes density viscosity dt solve none diffuse (some F) s) n u = .ok U →
        ∃ V W, repeated 0 (semiImplicitNavierStokes density viscosity dt solve none diffuse (some F) s) n w = .ok W ∧ FieldMirrored ax U V ∧ FieldMirrored ay V W := by
  have hd : d ≠ 0 := by omega
  have hs : ∀ a, 0 < g.shape a := fun a => (hg a).1
  obtain ⟨F, F', hF, hF', hm⟩ := C78_kolmogorov h2 h3 g hg ax scale k swap hlo hL
  obtain ⟨G', F1, hG', hF1, hm'⟩ := C78_kolmogorov h2 h3 g hg ay (-scale) k swap hlo hL
  rw [if_pos hx] at hF'
  rw [if_pos hy, neg_neg, hF] at hF1
  rw [hF'] at hG'
  obtain rfl := Except.ok.inj hF1
  obtain rfl := Except.ok.inj hG'
  have key : ∀ (b : Fin d) (A B : ForcingFn d), TendencyMirrorsTo g b A B →
      MirrorsTo g b (repeated 0 (semiImplicitNavierStokes density viscosity dt solve none diffuse (some A) s) n) (repeated 0 (semiImplicitNavierStokes density viscosity dt solve none diffuse (some B) s) n) :=
    fun b A B hAB => C78_repeated g b _ _ (C78_step hd g hs b density viscosity dt _ (C78_exact_projection hd g hs b _ hex) none none diffuse (some A) (some B) (Or.inl ⟨rfl, rfl⟩)
      (C78_default_diffusion b) (Or.inr ⟨A, B, rfl, rfl, hAB⟩) s hst) (fun u w hu hw => (C56_divergence_free hd g hs density viscosity dt _ hex none diffuse (some A) s hst u w hu hw).1) n
  refine ⟨F, hF, fun u v w hu huv hvw U hU => ?_⟩
  obtain ⟨V, hV, hUV⟩ := (key ax F F' hm u v hu huv).2 U hU
  obtain ⟨W, hW, hVW⟩ := (key ay F' F hm' v w (huv.periodicField hu) hvw).2 V hV
  exact ⟨V, W, hW, hUV, hVW⟩

omit [HasNan ℝ] in
/-- **C78** Every periodic field has a mirror image, again a periodic field, of which it is the mirror image, and any two mirror images of it agree. -/
theorem C78_mirror_image (g : Grid d ℝ) (ax : Fin d) (u : Fin d → GridVariable d ℝ) (hu : PeriodicField g u) :
    ∃ v, PeriodicField g v ∧ FieldMirrored ax u v ∧ FieldMirrored ax v u ∧
      ∀ v', FieldMirrored ax u v' → ∀ a i, InR g.shape i → (v' a).array.data i = (v a).array.data i := by
  refine ⟨fun a => ⟨⟨⟨(u a).array.shape, fun i => mirrorSign ax a * fieldData u a (mirrorIdx g.shape ax (faceIndex ax a) i)⟩, (u a).array.offset, (u a).array.grid⟩, (u a).bc⟩,
    ⟨hu.1, hu.2⟩, FieldMirrored.of_data hu ⟨hu.1, hu.2⟩ fun a i _ => rfl, FieldMirrored.of_data ⟨hu.1, hu.2⟩ hu fun a i hi => ?_, fun v' hv a i hi => hv.data hu a i hi⟩
  show fieldData u a i = mirrorSign ax a * (mirrorSign ax a * fieldData u a (mirrorIdx g.shape ax (faceIndex ax a) (mirrorIdx g.shape ax (faceIndex ax a) i)))
  rw [mirrorIdx_mirror _ hi, ← mul_assoc]
  unfold mirrorSign
  split_ifs <;> ring

end

namespace Fixtures
open JaxCfd
variable [HasNan ℝ]

/-- A flow on the 3 × 4 grid symmetric about a mirror normal to axis 0: the sum of `swirl` and its mirror image. -/
noncomputable def swirlM (a : Fin 2) : GridVariable 2 ℝ :=
  ⟨⟨⟨![3, 4], fun i => (swirl a).array.data i + mirrorSign 0 a * (swirl a).array.data (mirrorIdx g34r.shape 0 (faceIndex 0 a) i)⟩, fun b => if b = a then 1 else 1 / 2, g34r⟩, periodicBC 2⟩

omit [HasNan ℝ] in
theorem swirlM_field : PeriodicField g34r swirlM := ⟨fun _ => ⟨rfl, rfl, fun _ => rfl⟩, fun _ => rfl⟩

omit [HasNan ℝ] in
theorem swirlM_symmetric : FieldMirrored 0 swirlM swirlM := by
  refine FieldMirrored.of_data swirlM_field swirlM_field fun a i hi => ?_
  show (swirl a).array.data i + mirrorSign 0 a * (swirl a).array.data (mirrorIdx g34r.shape 0 (faceIndex 0 a) i) =
    mirrorSign 0 a * ((swirl a).array.data (mirrorIdx g34r.shape 0 (faceIndex 0 a) i) +
      mirrorSign 0 a * (swirl a).array.data (mirrorIdx g34r.shape 0 (faceIndex 0 a) (mirrorIdx g34r.shape 0 (faceIndex 0 a) i)))
  rw [mirrorIdx_mirror _ hi]
  unfold mirrorSign
  split_ifs <;> ring

/-- it is not at rest -/
example : (swirlM 1).array.data ![0, 0] = 4 := by
  show (swirl 1).array.data ![0, 0] + mirrorSign 0 1 * (swirl 1).array.data (mirrorIdx g34r.shape 0 (faceIndex 0 1) ![0, 0]) = 4
  simp [swirl, mirrorSign, mirrorIdx, faceIndex, g34r]
  norm_num

/-- 100 steps of the default solver keep it symmetric, and nothing crosses the mirror -/
example : ∃ w, repeated 0 (semiImplicitNavierStokes 2 (some 3) (1 / 10) (defaultSolver false exists_eigh.choose (1 / 1000000)) none diffuse none classicRK4) 100 swirlM = .ok w ∧
    FieldMirrored 0 w w ∧ ∀ i : Idx 2, InR g34r.shape i → i 0 = 2 → (w 0).array.data i = 0 := by
  obtain ⟨w, h1, h2, h3⟩ := C78_symmetric_trajectory two_ne_zero g34r _ g34r_resolved _ exists_eigh.choose_spec false 2 (some 3) (Or.inl two_ne_zero) (1 / 10) classicRK4
    C56_steppers.2.2.2 100 0 swirlM swirlM_field swirlM_symmetric
  exact ⟨w, h1, h2, fun i hi h => h3 i hi (Or.inl (by rw [h]; rfl))⟩

/-- `swirl` is not symmetric; its trajectory and that of its mirror image are mirror images -/
example : ∃ v, FieldMirrored 0 swirl v ∧ ¬ FieldMirrored 0 swirl swirl ∧
    ∃ w w', repeated 0 (semiImplicitNavierStokes 2 (some 3) (1 / 10) (defaultSolver false exists_eigh.choose (1 / 1000000)) none diffuse none classicRK4) 100 swirl = .ok w ∧
      repeated 0 (semiImplicitNavierStokes 2 (some 3) (1 / 10) (defaultSolver false exists_eigh.choose (1 / 1000000)) none diffuse none classicRK4) 100 v = .ok w' ∧ FieldMirrored 0 w w' := by
  obtain ⟨v, hv, h, -⟩ := C78_mirror_image g34r 0 swirl swirl_field
  refine ⟨v, h, fun hn => ?_, C78_default_trajectory two_ne_zero g34r _ g34r_resolved _ exists_eigh.choose_spec false 2 (some 3) (Or.inl two_ne_zero) (1 / 10) classicRK4
    C56_steppers.2.2.2 100 0 swirl v swirl_field h⟩
  have h1 := hn.data swirl_field 1 ![0, 0] (fun a => by fin_cases a <;> simp [g34r])
  simp [swirl, fieldData, mirrorSign, mirrorIdx, faceIndex, g34r] at h1
  norm_num at h1

/-- Kolmogorov flow with one wave across the grid, started from the swirl and from the swirl turned by 180 degrees: 100 steps. -/
example : ∃ F, kolmogorovForcing g34r 1 Real.pi false none = .ok F ∧ ∃ v w, FieldMirrored 0 swirl v ∧ FieldMirrored 1 v w ∧
    ∃ U V W, repeated 0 (semiImplicitNavierStokes 2 (some 3) (1 / 10) (defaultSolver false exists_eigh.choose (1 / 1000000)) none diffuse (some F) classicRK4) 100 swirl = .ok U ∧
      repeated 0 (semiImplicitNavierStokes 2 (some 3) (1 / 10) (defaultSolver false exists_eigh.choose (1 / 1000000)) none diffuse (some F) classicRK4) 100 w = .ok W ∧
      FieldMirrored 0 U V ∧ FieldMirrored 1 V W := by
  have hv : g34r.Valid := fun a => ⟨g34r_pos a, by fin_cases a <;> norm_num [g34r]⟩
  have hex := C56_default_solver two_ne_zero g34r _ g34r_resolved _ exists_eigh.choose_spec false
  obtain ⟨F, hF, h⟩ := C78_kolmogorov_half_turn (d := 2) le_rfl (by norm_num) g34r hv 0 1 (by norm_num) (by norm_num) 1 Real.pi false ⟨0, by simp [kolmogorovAxes, g34r]⟩
    ⟨1, by simp [kolmogorovAxes, g34r]; ring⟩ (defaultSolver false exists_eigh.choose (1 / 1000000)) hex 2 (some 3) (1 / 10) classicRK4 C56_steppers.2.2.2 100
  obtain ⟨v, hvp, huv, -⟩ := C78_mirror_image g34r 0 swirl swirl_field
  obtain ⟨w, -, hvw, -⟩ := C78_mirror_image g34r 1 v hvp
  obtain ⟨F1, hF1, hff⟩ := (C56_face_forcings g34r).2.2.1 1 Real.pi false le_rfl (by norm_num)
  rw [hF] at hF1
  obtain rfl := Except.ok.inj hF1
  obtain ⟨U, hU, -⟩ := C56_forced_trajectory two_ne_zero g34r g34r_pos 2 (some 3) (Or.inl two_ne_zero) (1 / 10) _ hex F hff classicRK4 C56_steppers.2.2.2 100 swirl swirl_field
  obtain ⟨V, W, hW, h1, h2⟩ := h swirl v w swirl_field huv hvw U hU
  exact ⟨F, hF, v, w, huv, hvw, U, V, W, hU, hW, h1, h2⟩

end Fixtures
end JaxCfd
