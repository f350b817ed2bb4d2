import Verif.Props.UnitsForcings

/-!
# C77: the default pressure solver

`fast_diagonalization.pseudoinverse` compares eigenvalues of the Laplacian, which are in units of one over length squared, with an absolute
number (`10 * eps`).  While that number is small compared to `1 / length²`, nothing depends on the unit of length; in a small enough unit of
length the pressure is 0 and `projection` returns the velocity as it is.
-/

namespace JaxCfd
variable {d : ℕ} {l m τ : ℝ}
open VelocityField

section
variable [HasNan ℝ]

/-- The eigenvalues of one axis are at most `4 / step²` in absolute value. -/
theorem VelocityField.eigen_bound {g : Grid d ℝ} {v : Fin d → GridVariable d ℝ} (h : VelocityField g v) (hN : ∀ a, 3 ≤ g.shape a) {ms : Fin d → Mat ℝ}
    (hms : laplacianMatrixWB g (fun _ => 1 / 2) (pbc v) = .ok ms) (a : Fin d) {z : ℂ} (hz : IsEigenvalue (ms a) z) : ‖z‖ ≤ 4 / g.step a ^ 2 := by
  obtain ⟨ms', e, hm, -⟩ := h.pressure_matrices hN
  rw [hms] at e
  injection e with e
  subst e
  have H := h.axisVel_field a
  obtain ⟨m1, e1, hm1, hL1⟩ := H.pressure_matrices (fun _ => hN a)
  have hsame : m1 0 = ms a := by
    unfold laplacianMatrixWB at e1 hms
    rw [Except.bind_eq_ok] at e1 hms
    obtain ⟨p1, q1, r1⟩ := e1
    obtain ⟨p2, q2, r2⟩ := hms
    have s1 := (seqFin_eq_ok _ _).1 r1 0
    have s2 := (seqFin_eq_ok _ _).1 r2 a
    have t1 := (seqFin_eq_ok _ _).1 q1 0
    have t2 := (seqFin_eq_ok _ _).1 q2 a
    have hst : (axisGrid g a).step 0 = g.step a := rfl
    rw [hst] at t1 s1
    rw [show (axisGrid g a).shape 0 = g.shape a from rfl, t2] at t1
    injection t1 with t1
    have hty : (pbc (axisVel g v a)).types 0 = (pbc v).types a := rfl
    rw [hty, ← t1, s2] at s1
    injection s1 with s1
    exact s1.symm
  obtain ⟨lam, rfl, x, ⟨i0, p0, p1, hx0⟩, hx⟩ := (hm a).2.1.real_eigen hz
  rw [(hm a).1] at hx p1
  let X : Idx 1 → ℝ := fun i => x (i 0)
  obtain ⟨j, hj, hmax⟩ := Finset.exists_max_image (Finset.Ico (0 : ℤ) (g.shape a)) (fun j => |x j|) ⟨i0, Finset.mem_Ico.2 ⟨p0, p1⟩⟩
  rw [Finset.mem_Ico] at hj
  have hle : ∀ k : ℤ, 0 ≤ k → k < g.shape a → |x k| ≤ |x j| := fun k h0 h1 => hmax k (Finset.mem_Ico.2 ⟨h0, h1⟩)
  have hpos : 0 < |x j| := lt_of_lt_of_le (abs_pos.2 hx0) (hle i0 p0 p1)
  have hI : InR (axisGrid g a).shape (fun _ : Fin 1 => j) := fun _ => hj
  have hXe : ((pvar (axisGrid g a) (axisVel g v a) X).above 0 (fun _ => j) + (pvar (axisGrid g a) (axisVel g v a) X).below 0 (fun _ => j) - 2 * x j) / g.step a ^ 2 = lam * x j := by
    have := hL1 X (fun _ => j) hI
    unfold kronSum at this
    rw [Fin.sum_univ_one, Fin.sum_univ_one] at this
    refine this.symm.trans ?_
    beta_reduce; rw [hsame]
    simp only [X, Function.update_self]
    exact hx j hj.1 hj.2
  have hX : ∀ i : Idx 1, InR (axisGrid g a).shape i → |X i| ≤ |x j| := fun i hi => hle (i 0) (hi 0).1 (hi 0).2
  have hup : |(pvar (axisGrid g a) (axisVel g v a) X).above 0 (fun _ => j)| ≤ |x j| := by
    rw [pvar_above]
    split_ifs with h1 h2
    · exact hX _ (rollIdx_inR hI _ _)
    · exact hX _ (hI.update 0 (by have := hj.1; omega) h2)
    · exact hX _ hI
  have hdn : |(pvar (axisGrid g a) (axisVel g v a) X).below 0 (fun _ => j)| ≤ |x j| := by
    rw [pvar_below]
    split_ifs with h1 h2
    · exact hX _ (rollIdx_inR hI _ _)
    · exact hX _ (hI.update 0 (by omega) (by have := hj.2; show j - 1 < (g.shape a : ℤ); omega))
    · exact hX _ hI
  rw [Complex.norm_real, Real.norm_eq_abs]
  refine le_of_mul_le_mul_right ?_ hpos
  rw [← abs_mul, ← hXe, abs_div, abs_of_nonneg (sq_nonneg (g.step a)), div_mul_eq_mul_div]
  refine div_le_div_of_nonneg_right ?_ (sq_nonneg _)
  have h1 := abs_sub (((pvar (axisGrid g a) (axisVel g v a) X).above 0 fun _ => j) + (pvar (axisGrid g a) (axisVel g v a) X).below 0 fun _ => j) (2 * x j)
  have h2 := abs_add_le ((pvar (axisGrid g a) (axisVel g v a) X).above 0 fun _ => j) ((pvar (axisGrid g a) (axisVel g v a) X).below 0 fun _ => j)
  rw [abs_mul, abs_two] at h1
  linarith

/-- **C77** If the cutoff is not smaller than the sum of `4 / step²` over the axes, the default pressure solver returns 0 for every velocity, and `projection` does not change the velocity. -/
theorem C77_cutoff_projection (hd : d ≠ 0) (g : Grid d ℝ) (v : Fin d → GridVariable d ℝ) (h : VelocityField g v) (hw : WallsStored v) (hN : ∀ a, 3 ≤ g.shape a) (cutoff : ℝ)
    (hc : ∑ a, 4 / g.step a ^ 2 ≤ cutoff) (eigh : EighFn ℝ) (heigh : ∀ m, m.Symmetric → IsEigh m (eigh m)) (tpu : Bool) :
    ∃ w, projection v (defaultSolver tpu eigh cutoff) = .ok w ∧ ∀ a (i : Idx d), InR g.shape i → (w a).array.data i = (v a).array.data i := by
  obtain ⟨D, hD, -⟩ := h.divergence_eq hd
  obtain ⟨ms, hms, hm, -⟩ := h.pressure_matrices hN
  obtain ⟨P, hP⟩ := h.pinv_ok hd cutoff eigh tpu none (Or.inl rfl) ms fun a => ⟨(hm a).1, (hm a).2.1⟩
  obtain ⟨hs1, -⟩ := pressureRhs_eq (pbc v) (⟨⟨g.shape, D⟩, fun _ => 1 / 2, g⟩ : GridArray d ℝ) h.cells_pos
  have hx' : List.ofFn (pressureRhs (⟨⟨g.shape, D⟩, fun _ => 1 / 2, g⟩ : GridArray d ℝ) (pbc v)).shape = (List.ofFn ms).map Mat.rows := by
    rw [List.map_ofFn, hs1]
    exact congrArg List.ofFn (funext fun a => (hm a).1.symm)
  obtain ⟨r, e1, e2, e3⟩ := C35_function_of_operator hP (h.promised hN heigh hms) _ hx' 0 (fun z hz => by
    rw [map_zero]
    unfold pinvFn
    rw [if_neg]
    rw [not_lt]
    obtain ⟨ev, hev, rfl⟩ := hz
    refine (norm_sum_le _ _).trans (le_trans (Finset.sum_le_sum fun a _ => ?_) hc)
    have := hev a
    rw [opAt_ofFn] at this
    exact h.eigen_bound hN hms a this)
  have hq : pressureFastDiag tpu eigh cutoff v (some (pbc v)) none = .ok ⟨r, fun _ => 1 / 2, g⟩ := by
    unfold pressureFastDiag pressureFastDiagWith
    dsimp only
    rw [hD, Except.bind_ok]
    dsimp only
    rw [hms, Except.bind_ok, hP, Except.bind_ok, e1, Except.bind_ok]
    rfl
  have hr0 : ∀ i, InR g.shape i → r.data i = 0 := fun i hi => by
    rw [e3 i (by rw [hs1]; exact hi)]
    simp [polyApply]
  obtain ⟨x, hx, hxe⟩ := VelocityField.projection_eq hd h hw (solve := defaultSolver tpu eigh cutoff) (bc := pbc v) (q := ⟨r, fun _ => 1 / 2, g⟩) ⟨h.pressureBC hd, fun _ _ => hq, e2.trans hs1, rfl, rfl⟩
  refine ⟨_, hx, fun a i hi => ?_⟩
  refine (hxe a i hi).trans ?_
  have : grad g v r.data a i = 0 := by
    unfold grad
    rw [pvar_above, hr0 i hi]
    have : (if (v a).bc.types a = (.periodic, .periodic) then r.data (rollIdx g.shape a 1 i) else if i a + 1 < g.shape a then r.data (Function.update i a (i a + 1)) else r.data i) = 0 := by
      split_ifs with h1 h2
      · exact hr0 _ (rollIdx_inR hi _ _)
      · exact hr0 _ (hi.update a (by have := (hi a).1; omega) h2)
      · exact hr0 _ hi
    rw [hr0 i hi] at this
    rw [this, sub_zero, zero_div]
  show (v a).array.data i - grad g v r.data a i = _
  rw [this, sub_zero]

/-- **C77** Whatever the (positive) cutoff and the velocity, there is a unit of length such that in it, and in every smaller one, the default projection does not change the velocity. -/
theorem C77_cutoff_hidden_unit (hd : d ≠ 0) (g : Grid d ℝ) (v : Fin d → GridVariable d ℝ) (h : VelocityField g v) (hw : WallsStored v) (hN : ∀ a, 3 ≤ g.shape a) (hg : ∀ a, 0 < g.step a) (cutoff : ℝ) (h0 : 0 < cutoff)
    (eigh : EighFn ℝ) (heigh : ∀ m, m.Symmetric → IsEigh m (eigh m)) (tpu : Bool) :
    ∃ l0 > 0, ∀ l ≥ l0, ∀ τ v', VelocityInUnits l τ v v' →
      ∃ w, projection v' (defaultSolver tpu eigh cutoff) = .ok w ∧ ∀ a (i : Idx d), InR g.shape i → (w a).array.data i = (v' a).array.data i := by
  have hS : 0 ≤ ∑ a, 4 / g.step a ^ 2 := Finset.sum_nonneg fun a _ => by positivity
  refine ⟨Real.sqrt ((∑ a, 4 / g.step a ^ 2) / cutoff) + 1, by positivity, fun l hl τ v' hv => ?_⟩
  have hl0 : 0 < l := lt_of_lt_of_le (by positivity) hl
  refine C77_cutoff_projection hd (g.inUnits l) v' (hv.field h) (hv.walls hw) hN cutoff ?_ eigh heigh tpu
  have e : ∑ a, 4 / (g.inUnits l).step a ^ 2 = (∑ a, 4 / g.step a ^ 2) / l ^ 2 := by
    rw [Finset.sum_div]
    refine Finset.sum_congr rfl fun a _ => ?_
    rw [Grid.inUnits_step, div_div, mul_pow, mul_comm]
  rw [e, div_le_iff₀ (by positivity), mul_comm, ← div_le_iff₀ h0]
  refine le_trans (Real.sq_sqrt (div_nonneg hS h0.le)).symm.le (pow_le_pow_left₀ (Real.sqrt_nonneg _) (by linarith) 2)

/-! ## Trajectories -/

/-- **C77** Repeated steps, for every number of steps. -/
theorem C77_repeated (Adm : (Fin d → GridVariable d ℝ) → Prop) (f f' : (Fin d → GridVariable d ℝ) → Except Err (Fin d → GridVariable d ℝ)) (hf : UnitsCommute l τ Adm f f')
    (hk : ∀ u w, Adm u → f u = .ok w → Adm w) (n : ℕ) : UnitsCommute l τ Adm (repeated 0 f n) (repeated 0 f' n) := by
  induction n with
  | zero => exact fun u u' _ h => RelS.ok h
  | succ n ih =>
    intro u u' hu h
    have h1 := hf u u' hu h
    cases e : f u with
    | error err =>
      have hrep : repeated 0 f (n + 1) u = .error err := by
        unfold repeated scanNone
        rw [if_neg (by simp), List.replicate_succ, laxScan.eq_2]
        beta_reduce
        rw [e]
        rfl
      rw [hrep]
      exact RelS.error _ _
    | ok w =>
      obtain ⟨w', hw', hww⟩ := h1 w e
      rw [repeated_succ f n u w e, repeated_succ f' n u' w' hw']
      exact ih w w' (hk u w hu e) hww

/-- **C77** Trajectories of the default solver on a periodic domain with exact pressure solves, any Runge-Kutta stepper and any number of steps: the same run in other units of length, time and density. -/
theorem C77_exact_trajectory (hd : d ≠ 0) (hl : 0 < l) (hτ : 0 < τ) {ρ : ℝ} (hρ : ρ ≠ 0) (g : Grid d ℝ) (hs : ∀ a, 0 < g.shape a) (density : ℝ) (viscosity : Option ℝ) (hv0 : density ≠ 0 ∨ viscosity = none) (dt : ℝ)
    (solve solve' : PressureSolver d ℝ) (hex : ExactSolver g solve) (hex' : ExactSolver (g.inUnits l) solve') (s : Stepper d) (hst : RungeKutta s) (n : ℕ) (v v' : Fin d → GridVariable d ℝ)
    (hv : PeriodicField g v) (h : VelocityInUnits l τ v v') :
    ∃ w w', repeated 0 (semiImplicitNavierStokes density viscosity dt solve none diffuse none s) n v = .ok w ∧
      repeated 0 (semiImplicitNavierStokes (ρ * density) (viscosity.map fun nu => ρ * (l ^ 2 / τ) * nu) (τ * dt) solve' none diffuse none s) n v' = .ok w' ∧ VelocityInUnits l τ w w' := by
  obtain ⟨w, hw, -⟩ := C56_default_trajectory hd g hs density viscosity hv0 dt _ hex s hst n v hv
  obtain ⟨w', hw', hww⟩ := C77_repeated (PeriodicField g) _ _ (C77_default_step hd hl hτ hρ g hs density viscosity dt solve solve' hex hex' s hst)
    (fun u w hu hw => (C56_divergence_free hd g hs density viscosity dt _ hex none diffuse none s hst u w hu hw).1) n v v' hv h w hw
  exact ⟨w, w', hw, hw', hww⟩

omit [HasNan ℝ] in
theorem Resolved.inUnits {g : Grid d ℝ} {cutoff : ℝ} (hl : 0 < l) (h : Resolved g cutoff) (hc : ∀ a, cutoff * (l * ((g.domain a).2 - (g.domain a).1)) ^ 2 < 1) : Resolved (g.inUnits l) cutoff :=
  ⟨h.cells, fun a => by
    show l * _ < l * _
    exact mul_lt_mul_of_pos_left (h.length a) hl, h.cutoff_nonneg, fun a => by
    show cutoff * (l * _ - l * _) ^ 2 < 1
    rw [← mul_sub]
    exact hc a⟩

/-- **C77** The default pressure solver on both sides, with the same absolute cutoff: no hidden unit as long as the domain is short compared to `1 / √cutoff` in both systems of units. -/
theorem C77_default_trajectory (hd : d ≠ 0) (hl : 0 < l) (hτ : 0 < τ) {ρ : ℝ} (hρ : ρ ≠ 0) (g : Grid d ℝ) (cutoff : ℝ) (hr : Resolved g cutoff) (hc : ∀ a, cutoff * (l * ((g.domain a).2 - (g.domain a).1)) ^ 2 < 1)
    (eigh : EighFn ℝ) (heigh : ∀ m, m.Symmetric → IsEigh m (eigh m)) (tpu : Bool) (density : ℝ) (viscosity : Option ℝ) (hv0 : density ≠ 0 ∨ viscosity = none) (dt : ℝ) (s : Stepper d) (hst : RungeKutta s) (n : ℕ)
    (v v' : Fin d → GridVariable d ℝ) (hv : PeriodicField g v) (h : VelocityInUnits l τ v v') :
    ∃ w w', repeated 0 (semiImplicitNavierStokes density viscosity dt (defaultSolver tpu eigh cutoff) none diffuse none s) n v = .ok w ∧
      repeated 0 (semiImplicitNavierStokes (ρ * density) (viscosity.map fun nu => ρ * (l ^ 2 / τ) * nu) (τ * dt) (defaultSolver tpu eigh cutoff) none diffuse none s) n v' = .ok w' ∧ VelocityInUnits l τ w w' :=
  C77_exact_trajectory hd hl hτ hρ g (fun a => by have := hr.cells a; omega) density viscosity hv0 dt _ _ (C56_default_solver hd g cutoff hr eigh heigh tpu)
    (C56_default_solver hd (g.inUnits l) cutoff (hr.inUnits hl hc) eigh heigh tpu) s hst n v v' hv h

/-! ## Every field has a version in other units -/

omit [HasNan ℝ] in
/-- The same variable in other units. -/
noncomputable def GridVariable.toUnits (l m : ℝ) (u : GridVariable d ℝ) : GridVariable d ℝ := ⟨⟨⟨u.array.shape, fun i => m * u.array.data i⟩, u.array.offset, u.array.grid.inUnits l⟩, u.bc.inUnits l m⟩

omit [HasNan ℝ] in
theorem GridVariable.toUnits_inUnits (l m : ℝ) {u : GridVariable d ℝ} (h : u.bc.Given) : u.InUnits l m (u.toUnits l m) := ⟨rfl, h, rfl, rfl, rfl, fun _ _ => rfl⟩

namespace Fixtures

/-- Metres and seconds to centimetres and milliseconds: 100 steps from the swirl, with the default solver. -/
example : ∃ w w', repeated 0 (semiImplicitNavierStokes 2 (some 3) (1 / 10) (defaultSolver false exists_eigh.choose (1 / 1000000)) none diffuse none classicRK4) 100 swirl = .ok w ∧
    repeated 0 (semiImplicitNavierStokes (7 * 2) (some (7 * (100 ^ 2 / 1000) * 3)) (1000 * (1 / 10)) (defaultSolver false exists_eigh.choose (1 / 1000000)) none diffuse none classicRK4) 100
      (fun a => (swirl a).toUnits 100 (100 / 1000)) = .ok w' ∧ VelocityInUnits 100 1000 w w' :=
  C77_default_trajectory two_ne_zero (by norm_num) (by norm_num) (by norm_num) g34r _ g34r_resolved (fun a => by fin_cases a <;> norm_num [g34r]) _ exists_eigh.choose_spec false 2 (some 3) (Or.inl two_ne_zero) _ classicRK4
    C56_steppers.2.2.2 100 swirl _ swirl_field fun a => GridVariable.toUnits_inUnits _ _ (by rw [swirl_field.2 a]; exact periodicBC_given 2)

/-- In micrometres the default projection does nothing to the swirl, which is not free of divergence. -/
example : ∃ l0 > 0, ∀ l ≥ l0, ∃ w, projection (fun a => (swirl a).toUnits l (l / 1)) (defaultSolver false exists_eigh.choose (1 / 1000000)) = .ok w ∧
    ∀ a (i : Idx 2), InR g34r.shape i → (w a).array.data i = l / 1 * (swirl a).array.data i := by
  obtain ⟨l0, h0, h⟩ := C77_cutoff_hidden_unit two_ne_zero g34r swirl (swirl_field.velocity g34r_pos) swirl_field.walls (fun a => by fin_cases a <;> simp [g34r]) (fun a => by fin_cases a <;> norm_num [g34r, Grid.step]) (1 / 1000000)
    (by norm_num) _ exists_eigh.choose_spec false
  exact ⟨l0, h0, fun l hl => h l hl 1 _ fun a => GridVariable.toUnits_inUnits _ _ (by rw [swirl_field.2 a]; exact periodicBC_given 2)⟩

/-- The boundary conditions of the channel are given, so the operator theorems apply to it. -/
example (l : ℝ) : VelocityInUnits l 1 chanR fun a => (chanR a).toUnits l (l / 1) :=
  fun a => GridVariable.toUnits_inUnits _ _ fun b => ⟨fun _ => by simp [chanR], fun _ => by simp [chanR]⟩

end Fixtures

end
end JaxCfd
