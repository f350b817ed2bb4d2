import Verif.Props.TranslationSteps
import Mathlib.Tactic.FinCases

/-!
# C68: trajectories commute with translations; symmetric states stay symmetric
-/

namespace JaxCfd
variable {d : ℕ} {t : Idx d}

section
variable [HasNan ℝ]

/-- **C68** An exact diffusion solve — however it is computed — commutes with every translation. -/
theorem C68_exact_diffusion (g : Grid d ℝ) (hs : ∀ a, 0 < g.shape a) (t : Idx d) (nu dt : ℝ) (hc : 0 ≤ nu * dt)
    (dsolve : (Fin d → GridVariable d ℝ) → ℝ → ℝ → Except Err (Fin d → GridVariable d ℝ)) (hex : ExactDiffusion g dsolve) :
    CommutesWithTranslation g t fun u => dsolve u nu dt := by
  intro u u' hu h
  have hu' := h.periodicField hu
  obtain ⟨r, hr, hb⟩ := hex u nu dt hu hc
  obtain ⟨r', hr', hb'⟩ := hex u' nu dt hu' hc
  show RelE _ (dsolve u nu dt) (dsolve u' nu dt)
  rw [hr, hr']
  refine RelE.ok fun a => ?_
  have hper := hu.periodic hs a
  have hper' := hu'.periodic hs a
  have hsh : (r a).array.shape = g.shape := (hb a).shape.trans (hu.1 a).2.1
  have hgr : (r a).array.grid = g := (hb a).grid.trans (hu.1 a).1
  have hrp : (r a).Periodic := ⟨by rw [(hb a).bc]; exact hper.1, by rw [(hb a).shape, (hb a).grid]; exact hper.2⟩
  have htr := GridVariable.translate_translated t (r a) hrp
  have hbt : BackwardEuler (u' a) ⟨(r a).array.translate t, (r a).bc⟩ nu dt := by
    obtain ⟨L, hL, hLe⟩ := (hb a).step
    obtain ⟨L', hL', hLL⟩ := (C68_laplacian htr).2 L hL
    have hLs : L.shape = g.shape := by
      rw [laplacian_periodic hrp] at hL
      rw [← Except.ok.inj hL]
      exact hsh
    refine ⟨(hb a).bc.trans (h a).1.symm, (hb a).shape.trans (h a).2.2.2.2.2.1.symm, (hb a).offset.trans (h a).2.2.1.symm, (hb a).grid.trans (h a).2.2.2.1.symm, ⟨L', hL', fun i hi => ?_⟩,
      fun i hi hn => absurd (by rw [periodic_interior hper']; exact hi) hn⟩
    rw [periodic_interior hper', (hu'.1 a).2.1] at hi
    have hi' := moved_inR hs t i
    rw [hLL.2.2.2.2.2 i (by rw [hLs]; exact hi), (h a).2.2.2.2.2.2.2 i (by rw [(hu.1 a).2.1]; exact hi), show (u a).array.toNArr.shape = g.shape from (hu.1 a).2.1,
      ← hLe (moved g.shape t i) (by rw [periodic_interior hper, (hu.1 a).2.1]; exact hi'), hLs]
    show (r a).array.data (moved (r a).array.shape t i) - _ = _
    rw [hsh]
  refine ⟨(hb' a).bc.trans ((h a).1.trans (hb a).bc.symm), hrp.1, (hb' a).offset.trans ((h a).2.2.1.trans (hb a).offset.symm), (hb' a).grid.trans ((h a).2.2.2.1.trans (hb a).grid.symm),
    by rw [hsh, hgr], (hb' a).shape.trans ((h a).2.2.2.2.2.1.trans (hb a).shape.symm), fun b => by rw [hsh]; exact hs b, fun i hi => ?_⟩
  have hi' : InR g.shape i := by rw [← hsh]; exact hi
  exact C36_diffusion_unique (u' a) (r' a) _ nu dt hc ((hu'.velocity hs).supported a) (hb' a) hbt i (by rw [periodic_interior hper', (hu'.1 a).2.1]; exact hi')

/-- **C68** Repeated steps of a function that commutes with a translation commute with it, for every number of steps. -/
theorem C68_repeated (g : Grid d ℝ) (t : Idx d) (f : (Fin d → GridVariable d ℝ) → Except Err (Fin d → GridVariable d ℝ)) (hf : CommutesWithTranslation g t f)
    (hk : ∀ u w, PeriodicField g u → f u = .ok w → PeriodicField g w) (n : ℕ) : CommutesWithTranslation g t (repeated 0 f n) := by
  induction n with
  | zero => exact fun u u' _ h => RelE.ok h
  | succ n ih =>
    intro u u' hu h
    have h1 := hf u u' hu h
    cases e : f u with
    | error err =>
      have e' := h1.1 err e
      have hrep : ∀ x, f x = .error err → repeated 0 f (n + 1) x = .error err := by
        intro x hx
        unfold repeated scanNone
        rw [if_neg (by simp), List.replicate_succ, laxScan.eq_2]
        beta_reduce
        rw [hx]
        rfl
      rw [hrep u e, hrep u' e']
      exact RelE.error _
    | ok w =>
      obtain ⟨w', hw', hww⟩ := h1.2 w e
      rw [repeated_succ f n u w e, repeated_succ f n u' w' hw']
      exact ih w w' (hk u w hu e) hww

/-- **C68** A state that is unchanged by a translation — for instance one that does not vary along an axis, or repeats itself — leads to a state with the same symmetry. -/
theorem C68_symmetry (g : Grid d ℝ) (t : Idx d) (f : (Fin d → GridVariable d ℝ) → Except Err (Fin d → GridVariable d ℝ)) (hf : CommutesWithTranslation g t f)
    (u w : Fin d → GridVariable d ℝ) (hu : PeriodicField g u) (h : FieldTranslated t u u) (hw : f u = .ok w) : FieldTranslated t w w := by
  obtain ⟨w', hw', hww⟩ := (hf u u hu h).2 w hw
  rw [hw] at hw'
  rwa [← Except.ok.inj hw'] at hww

/-- **C68** The default Navier-Stokes solver on a periodic domain (van Leer convection, finite-difference diffusion, fast-diagonalization pressure solve, no forcing), any Runge-Kutta
stepper, any number of steps: the trajectory of a translated initial state is the translated trajectory. -/
theorem C68_default_trajectory (hd : d ≠ 0) (g : Grid d ℝ) (cutoff : ℝ) (hr : Resolved g cutoff) (eigh : EighFn ℝ) (heigh : ∀ m, m.Symmetric → IsEigh m (eigh m)) (tpu : Bool)
    (density : ℝ) (viscosity : Option ℝ) (hρ : density ≠ 0 ∨ viscosity = none) (dt : ℝ) (s : Stepper d) (hst : RungeKutta s) (n : ℕ) (t : Idx d) (v v' : Fin d → GridVariable d ℝ)
    (hv : PeriodicField g v) (h : FieldTranslated t v v') :
    ∃ w w', repeated 0 (semiImplicitNavierStokes density viscosity dt (defaultSolver tpu eigh cutoff) none diffuse none s) n v = .ok w ∧
      repeated 0 (semiImplicitNavierStokes density viscosity dt (defaultSolver tpu eigh cutoff) none diffuse none s) n v' = .ok w' ∧ FieldTranslated t w w' := by
  have hs : ∀ a, 0 < g.shape a := fun a => by have := hr.cells a; omega
  have hex := C56_default_solver hd g cutoff hr eigh heigh tpu
  obtain ⟨w, hw, -⟩ := C56_default_trajectory hd g hs density viscosity hρ dt _ hex s hst n v hv
  obtain ⟨w', hw', hww⟩ := (C68_repeated g t _ (C68_step g hs t density viscosity dt _ (C68_exact_projection hd g hs t _ hex) none diffuse none (by simp) (C68_default_diffusion t) (by simp) s hst)
    (fun u w hu hw => (C56_divergence_free hd g hs density viscosity dt _ hex none diffuse none s hst u w hu hw).1) n v v' hv h).2 w hw
  exact ⟨w, w', hw, hw', hww⟩

/-- **C68** Forcings by a fixed field commute with the translations that leave the field unchanged; the linear forcing commutes with all of them. -/
theorem C68_forcings (g : Grid d ℝ) (t : Idx d) :
    (∀ c : ℝ, TendencyCommutes g t (linearForcing c)) ∧ TendencyCommutes g t noForcing ∧
      (∀ (F : ForcingFn d) (f : Fin d → GridArray d ℝ), (∀ v, F v = .ok f) → (∀ a, (f a).Translated t (f a)) → TendencyCommutes g t F) ∧
      ∀ l : List (ForcingFn d), (∀ F ∈ l, TendencyCommutes g t F) → TendencyCommutes g t (sumForcings l) := by
  refine ⟨fun c u u' _ h => RelE.ok fun a => (h a).2.2.gmap _, fun u u' _ h => RelE.ok fun a => (h a).2.2.gmap _, fun F f hF hf u u' _ h => ?_, fun l hl u u' hu h => ?_⟩
  · rw [hF, hF]
    exact RelE.ok hf
  · unfold sumForcings
    refine RelE.bind (R := List.Forall₂ fun f f' => ∀ a, GridArray.Translated t (f a) (f' a)) ?_ fun x y hxy => sumFields_translated hxy
    refine RelE.mapM (R := fun F F' => F' = F ∧ TendencyCommutes g t F) (List.forall₂_same.2 fun F hF => ⟨rfl, hl F hF⟩) fun F F' hF => ?_
    rw [hF.1]
    exact hF.2 u u' hu h

/-- **C68** The Kolmogorov forcing commutes with the translations that leave the transverse coordinate unchanged. -/
theorem C68_kolmogorov (h2 : 2 ≤ d) (h3 : d ≤ 3) (g : Grid d ℝ) (hs : ∀ a, 0 < g.shape a) (scale k : ℝ) (swap : Bool) (t : Idx d)
    (ht : (g.shape (kolmogorovAxes d h2 swap).2 : ℤ) ∣ t (kolmogorovAxes d h2 swap).2) :
    ∃ F, kolmogorovForcing g scale k swap none = .ok F ∧ TendencyCommutes g t F := by
  obtain ⟨F, hF, f, hf, hff, hdat⟩ := C49_kolmogorov h2 h3 g scale k swap
  refine ⟨F, hF, (C68_forcings g t).2.2.1 F f hf fun a => ⟨rfl, rfl, by rw [(hff a).1, (hff a).2.1], rfl, fun b => by rw [(hff a).2.1]; exact hs b, fun i hi => ?_⟩⟩
  have hi' : InR g.shape i := by rw [← (hff a).2.1]; exact hi
  rw [show (f a).toNArr.shape = g.shape from (hff a).2.1, hdat a i hi', hdat a _ (moved_inR hs t i)]
  have : coord (f a) (kolmogorovAxes d h2 swap).2 (moved g.shape t i) = coord (f a) (kolmogorovAxes d h2 swap).2 i := by
    unfold coord moved
    have e : (i (kolmogorovAxes d h2 swap).2 + t (kolmogorovAxes d h2 swap).2) % (g.shape (kolmogorovAxes d h2 swap).2 : ℤ) = i (kolmogorovAxes d h2 swap).2 := by
      obtain ⟨q, hq⟩ := ht
      rw [hq, Int.add_mul_emod_self_left]
      exact Int.emod_eq_of_lt (hi' _).1 (hi' _).2
    simp only [e]
  rw [this]

end

section Examples
open Fixtures
variable [HasNan ℝ]

omit [HasNan ℝ] in
theorem grid34_pos (a : Fin 2) : 0 < g34r.shape a := by fin_cases a <;> norm_num [g34r]

/-- Non-vacuity: a velocity field on the 3 × 4 grid and its translate by one cell along the first axis are different fields. -/
example : ∃ v v' : Fin 2 → GridVariable 2 ℝ, PeriodicField g34r v ∧ FieldTranslated (fun a => if a = 0 then 1 else 0) v v' ∧
    (v 0).array.data (fun _ => 0) ≠ (v' 0).array.data (fun _ => 0) := by
  have hp : PeriodicField g34r fun a => (⟨⟨⟨g34r.shape, fun i => (i 0 : ℝ)⟩, fun b => if b = a then 1 else 1 / 2, g34r⟩, periodicBC 2⟩ : GridVariable 2 ℝ) := ⟨fun a => ⟨rfl, rfl, fun _ => rfl⟩, fun a => rfl⟩
  refine ⟨_, _, hp, fun a => GridVariable.translate_translated _ _ (hp.periodic grid34_pos a), ?_⟩
  norm_num [GridArray.translate, moved, g34r]

/-- Non-vacuity of the symmetry: a shear flow that does not vary along the first axis is unchanged by translations along it. -/
example : FieldTranslated (fun a => if a = 0 then 1 else 0) (fun a => (⟨⟨⟨g34r.shape, fun i => if a = 0 then (i 1 : ℝ) else 0⟩, fun b => if b = a then 1 else 1 / 2, g34r⟩, periodicBC 2⟩ : GridVariable 2 ℝ))
    (fun a => ⟨⟨⟨g34r.shape, fun i => if a = 0 then (i 1 : ℝ) else 0⟩, fun b => if b = a then 1 else 1 / 2, g34r⟩, periodicBC 2⟩) := by
  refine fun a => ⟨rfl, fun _ => rfl, rfl, rfl, rfl, rfl, grid34_pos, fun i hi => ?_⟩
  have : moved g34r.shape (fun a => if a = 0 then 1 else 0) i 1 = i 1 := by
    unfold moved
    simp only [show ¬ ((1 : Fin 2) = 0) by decide, if_false, add_zero]
    exact Int.emod_eq_of_lt (hi 1).1 (hi 1).2
  show (if a = 0 then (i 1 : ℝ) else 0) = if a = 0 then ((moved g34r.shape _ i 1 : ℤ) : ℝ) else 0
  rw [this]

end Examples
end JaxCfd
