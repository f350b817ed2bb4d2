import Verif.Model.Diffusion
import Verif.Props.Advection
import Verif.Props.Wall
import Mathlib.Algebra.Order.BigOperators.Group.Finset
import Mathlib.Tactic.Positivity

/-!
# Property theorems: stable time steps (C31)
-/

set_option linter.unusedSectionVars false

namespace JaxCfd
variable {d : ℕ} {K : Type} [Field K] [LinearOrder K] [IsStrictOrderedRing K]

/-- `min(xs)` of a nonempty sequence succeeds with the least entry. -/
theorem pyMin_spec (xs : List K) (h : xs ≠ []) : ∃ m, pyMin xs = .ok m ∧ m ∈ xs ∧ ∀ x ∈ xs, m ≤ x := by
  cases xs with
  | nil => exact absurd rfl h
  | cons x xs =>
    refine ⟨_, rfl, ?_⟩
    clear h
    induction xs generalizing x with
    | nil => simp
    | cons y ys ih =>
      obtain ⟨h1, h2⟩ := ih (min x y)
      rw [List.foldl_cons]
      refine ⟨?_, fun z hz => ?_⟩
      · rcases List.mem_cons.1 h1 with h | h
        · rw [h]
          rcases min_choice x y with h | h <;> rw [h] <;> simp
        · exact List.mem_cons_of_mem _ (List.mem_cons_of_mem _ h)
      · have hm := h2 (min x y) List.mem_cons_self
        rcases List.mem_cons.1 hz with rfl | hz
        · exact hm.trans (min_le_left _ _)
        · rcases List.mem_cons.1 hz with rfl | hz
          · exact hm.trans (min_le_right _ _)
          · exact h2 z (List.mem_cons_of_mem _ hz)

/-- `min(grid.step)` -/
theorem minStep_spec (hd : d ≠ 0) (g : Grid d K) :
    ∃ m a, pyMin (List.ofFn g.step) = .ok m ∧ m = g.step a ∧ ∀ b, m ≤ g.step b := by
  obtain ⟨m, h1, h2, h3⟩ := pyMin_spec (List.ofFn g.step) (by
    rw [Ne, List.ofFn_eq_nil_iff]; exact hd)
  obtain ⟨a, ha⟩ := List.mem_ofFn.1 h2
  exact ⟨m, a, h1, ha.symm, fun b => h3 _ (List.mem_ofFn.2 ⟨b, rfl⟩)⟩

/-- **C31** The advective time step keeps the Courant number `|u| dt / step` of every speed up to `max_velocity` below
`max_courant_number` along every axis, and it is the largest such step: the bound is attained on some axis. -/
theorem C31_courant (hd : d ≠ 0) (g : Grid d K) (hg : ∀ a, 0 < g.step a) (vmax cmax : K) (hv : 0 < vmax) (hc : 0 ≤ cmax) :
    ∃ dt, advectionStableTimeStep vmax cmax g = .ok dt ∧ 0 ≤ dt ∧
      (∀ u, |u| ≤ vmax → ∀ a, |u| * dt / g.step a ≤ cmax) ∧ ∃ a, vmax * dt / g.step a = cmax := by
  obtain ⟨m, a, h1, h2, h3⟩ := minStep_spec hd g
  have hm : 0 < m := by rw [h2]; exact hg a
  refine ⟨cmax * m / vmax, ?_, by positivity, ?_, a, ?_⟩
  · unfold advectionStableTimeStep
    rw [h1, Except.bind_ok, if_neg hv.ne']; rfl
  · intro u hu b
    rw [div_le_iff₀ (hg b)]
    calc |u| * (cmax * m / vmax) ≤ vmax * (cmax * m / vmax) := mul_le_mul_of_nonneg_right hu (by positivity)
      _ = cmax * m := by field_simp
      _ ≤ cmax * g.step b := mul_le_mul_of_nonneg_left (h3 b) hc
  · rw [h2] at hm ⊢
    field_simp

/-- **C31** Zero `max_velocity` and rank-0 grids raise. -/
theorem C31_advective_errors (g : Grid d K) (vmax cmax : K) :
    (vmax = 0 → d ≠ 0 → advectionStableTimeStep vmax cmax g = .error .zeroDivision) ∧
    (d = 0 → advectionStableTimeStep vmax cmax g = .error .value) := by
  constructor
  · intro hv hd
    obtain ⟨m, a, h1, -⟩ := minStep_spec hd g
    unfold advectionStableTimeStep
    rw [h1, Except.bind_ok, if_pos hv]; rfl
  · intro hd
    subst hd
    rfl

/-- **C31** `diffusion.stable_time_step` is infinite without viscosity and `min(step)² / (ν 2^d)` otherwise. -/
theorem C31_diffusion_step (hd : d ≠ 0) (g : Grid d K) (nu : K) :
    (nu = 0 → diffusionStableTimeStep nu g = .ok ⊤) ∧
    (nu ≠ 0 → ∃ m a, m = g.step a ∧ (∀ b, m ≤ g.step b) ∧
      diffusionStableTimeStep nu g = .ok ((m ^ 2 / (nu * 2 ^ d) : K) : WithTop K)) := by
  constructor
  · intro h; unfold diffusionStableTimeStep; rw [if_pos h]
  · intro h
    obtain ⟨m, a, h1, h2, h3⟩ := minStep_spec hd g
    refine ⟨m, a, h2, h3, ?_⟩
    unfold diffusionStableTimeStep
    rw [if_neg h, h1]; rfl

/-- **C31** `equations.stable_time_step` returns the advective step, unless diffusion is explicit and its stable step is
smaller; then it raises ValueError. -/
theorem C31_equations_step (vmax cmax nu dt : K) (ddt : WithTop K) (g : Grid d K) (implicit : Bool)
    (h1 : advectionStableTimeStep vmax cmax g = .ok dt) (h2 : diffusionStableTimeStep nu g = .ok ddt) :
    stableTimeStep vmax cmax nu g implicit =
      if implicit = false ∧ ddt < (dt : WithTop K) then .error .value else .ok (dt : WithTop K) := by
  unfold stableTimeStep checkDiffusionStep
  rw [h1, Except.bind_ok]
  cases implicit with
  | true => simp
  | false =>
    simp only [Bool.false_eq_true, if_false, true_and]
    rw [h2, Except.bind_ok]
    by_cases h : ddt < (dt : WithTop K)
    · rw [if_pos h, if_pos h]; rfl
    · rw [if_neg h, if_neg h]; rfl

/-- **C31** A step returned by `equations.stable_time_step` satisfies both stability bounds. -/
theorem C31_equations_step_sound (hd : d ≠ 0) (g : Grid d K) (hg : ∀ a, 0 < g.step a) (vmax cmax nu : K) (hv : 0 < vmax)
    (hc : 0 ≤ cmax) (hnu : 0 ≤ nu) (r : WithTop K) (h : stableTimeStep vmax cmax nu g = .ok r) :
    ∃ dt : K, r = dt ∧ 0 ≤ dt ∧ (∀ u, |u| ≤ vmax → ∀ a, |u| * dt / g.step a ≤ cmax) ∧
      ∀ a, nu * dt * 2 ^ d ≤ g.step a ^ 2 := by
  obtain ⟨dt, h1, h2, h3, -⟩ := C31_courant hd g hg vmax cmax hv hc
  obtain ⟨e1, e2⟩ := C31_diffusion_step hd g nu
  refine ⟨dt, ?_, h2, h3, ?_⟩
  · rcases eq_or_ne nu 0 with h0 | h0
    · rw [C31_equations_step vmax cmax nu dt ⊤ g false h1 (e1 h0), if_neg (by simp)] at h
      injection h with h; exact h.symm
    · obtain ⟨m, a, -, -, hs⟩ := e2 h0
      rw [C31_equations_step vmax cmax nu dt _ g false h1 hs] at h
      by_cases hlt : ((m ^ 2 / (nu * 2 ^ d) : K) : WithTop K) < (dt : WithTop K)
      · rw [if_pos ⟨rfl, hlt⟩] at h; injection h
      · rw [if_neg (by simpa using hlt)] at h; injection h with h; exact h.symm
  · intro b
    rcases eq_or_ne nu 0 with h0 | h0
    · rw [h0]; simp; positivity
    · obtain ⟨m, a, hm, hmin, hs⟩ := e2 h0
      rw [C31_equations_step vmax cmax nu dt _ g false h1 hs] at h
      by_cases hlt : ((m ^ 2 / (nu * 2 ^ d) : K) : WithTop K) < (dt : WithTop K)
      · rw [if_pos ⟨rfl, hlt⟩] at h; injection h
      · rw [WithTop.coe_lt_coe, not_lt] at hlt
        have hpos : 0 < nu * 2 ^ d := mul_pos (lt_of_le_of_ne hnu h0.symm) (by positivity)
        rw [le_div_iff₀ hpos] at hlt
        have hm0 : 0 < m := by rw [hm]; exact hg a
        have : m ^ 2 ≤ g.step b ^ 2 := pow_le_pow_left₀ hm0.le (hmin b) 2
        calc nu * dt * 2 ^ d = dt * (nu * 2 ^ d) := by ring
          _ ≤ m ^ 2 := hlt
          _ ≤ _ := this

theorem checkDiffusionStep_eq {dt r : WithTop K} {nu : K} {g : Grid d K} {implicit : Bool}
    (h : checkDiffusionStep dt nu g implicit = .ok r) : dt = r := by
  unfold checkDiffusionStep at h
  by_cases hi : implicit = true
  · rw [if_pos hi] at h; injection h
  · rw [if_neg hi, Except.bind_eq_ok] at h
    obtain ⟨ddt, -, h⟩ := h
    by_cases hlt : ddt < dt
    · rw [if_pos hlt] at h; injection h
    · rw [if_neg hlt] at h; injection h

/-- **C31** `dynamic_time_step`: the Courant number of every entry of every velocity component is at most
`max_courant_number` along every axis. -/
theorem C31_dynamic_time_step (v : Fin d → GridVariable d ℝ) (cmax nu : ℝ) (hc : 0 ≤ cmax) (g : Grid d ℝ)
    (hg : ∀ a, 0 < g.step a) (implicit : Bool) (dt : ℝ)
    (h : dynamicTimeStep v cmax nu g implicit = .ok (dt : WithTop ℝ)) :
    ∀ a b i, InR (v a).array.shape i → |(v a).array.data i| * dt / g.step b ≤ cmax := by
  intro a b i hi
  have hd : d ≠ 0 := fun h => by subst h; exact a.elim0
  unfold dynamicTimeStep at h
  rw [Except.bind_eq_ok] at h
  obtain ⟨s, hs, h⟩ := h
  rw [Except.bind_eq_ok] at h
  obtain ⟨m, hm, h⟩ := h
  have hshape : (v a).array.shape = s := (uniqueOr_eq_ok.1 hs).2 _ (List.mem_ofFn.2 ⟨a, rfl⟩)
  rw [hshape] at hi
  have hle : |(v a).array.data i| ≤ Real.sqrt m := by
    unfold jnpMax at hm
    split at hm
    · rename_i hne
      injection hm with hm
      have h1 : ∑ a, (v a).array.data i ^ 2 ≤ m := by
        rw [← hm]
        exact Finset.le_sup' (fun i => ∑ a, (v a).array.data i ^ 2) (mem_box.2 hi)
      have h2 : (v a).array.data i ^ 2 ≤ ∑ a, (v a).array.data i ^ 2 :=
        Finset.single_le_sum (f := fun a => (v a).array.data i ^ 2) (fun a _ => sq_nonneg _) (Finset.mem_univ a)
      rw [← Real.sqrt_sq_eq_abs]
      exact Real.sqrt_le_sqrt (h2.trans h1)
    · injection hm
  obtain ⟨x, a', x1, x2, x3⟩ := minStep_spec hd g
  rw [x1, Except.bind_ok] at h
  have key : (if Real.sqrt m = 0 then (⊤ : WithTop ℝ) else ((cmax * x / Real.sqrt m : ℝ) : WithTop ℝ)) = (dt : WithTop ℝ) := by
    exact checkDiffusionStep_eq h
  by_cases h0 : Real.sqrt m = 0
  · rw [if_pos h0] at key; exact absurd key (by simp)
  · rw [if_neg h0, WithTop.coe_inj] at key
    have hpos : 0 < Real.sqrt m := lt_of_le_of_ne (Real.sqrt_nonneg _) (Ne.symm h0)
    obtain ⟨dt', e1, -, e3, -⟩ := C31_courant hd g hg (Real.sqrt m) cmax hpos hc
    unfold advectionStableTimeStep at e1
    rw [x1, Except.bind_ok, if_neg hpos.ne'] at e1
    injection e1 with e1
    rw [← key, e1]
    exact e3 _ hle b

section upwind
variable [HasNan K]

/-- **C31** With `d * max_courant_number ≤ 1` the stable time step of a divergence-free velocity bounded by `max_velocity`
makes the upwind scheme obey the maximum principle. -/
theorem C31_upwind_stable (hd : d ≠ 0) (c : GridVariable d K) (hc : c.Periodic) (v : Fin d → GridVariable d K)
    (hv : StaggeredPeriodic c v) (hstep : ∀ a, 0 < c.array.grid.step a)
    (dv : GridArray d K) (hdiv : divergence (List.ofFn v) = .ok dv) (hdv : ∀ i, InR c.array.shape i → dv.data i = 0)
    (vmax cmax : K) (hvmax : 0 < vmax) (hcmax : 0 ≤ cmax) (hcfl : (d : K) * cmax ≤ 1)
    (hbound : ∀ a i, InR c.array.shape i → |(v a).array.data i| ≤ vmax)
    (lo hi : K) (hb : ∀ i, InR c.array.shape i → lo ≤ c.array.data i ∧ c.array.data i ≤ hi) :
    ∃ dt r, advectionStableTimeStep vmax cmax c.array.grid = .ok dt ∧ advectUpwind c v dt = .ok r ∧
      ∀ i, InR c.array.shape i → lo ≤ c.array.data i + dt * r.data i ∧ c.array.data i + dt * r.data i ≤ hi := by
  obtain ⟨dt, h1, h2, h3, -⟩ := C31_courant hd c.array.grid hstep vmax cmax hvmax hcmax
  have hout : ∀ i, InR c.array.shape i → dt * outflow c v i ≤ 1 := by
    intro i hi
    have hz := hdv i hi
    rw [divergence_staggered hd hv] at hdiv
    injection hdiv with hdiv
    subst hdiv
    dsimp only at hz
    have e : outflow c v i = 1 / 2 * ∑ a, (|(v a).array.data i| + |(v a).array.data (rollIdx c.array.shape a (-1) i)|) /
        c.array.grid.step a := by
      have hm : ∀ x : K, max x 0 = 1 / 2 * (|x| + x) := by
        intro x
        rcases le_total 0 x with h | h
        · rw [max_eq_left h, abs_of_nonneg h]; ring
        · rw [max_eq_right h, abs_of_nonpos h]; ring
      have : outflow c v i = 1 / 2 * ∑ a, (|(v a).array.data i| + |(v a).array.data (rollIdx c.array.shape a (-1) i)|) /
          c.array.grid.step a + 1 / 2 * ∑ a, ((v a).array.data i - (v a).array.data (rollIdx c.array.shape a (-1) i)) /
            c.array.grid.step a := by
        unfold outflow
        rw [← mul_add, ← Finset.sum_add_distrib, Finset.mul_sum]
        refine Finset.sum_congr rfl fun a _ => ?_
        rw [hm, hm, abs_neg]; ring
      rw [this]
      rw [hz]; ring
    rw [e]
    have hsum : ∑ a, (|(v a).array.data i| + |(v a).array.data (rollIdx c.array.shape a (-1) i)|) /
        c.array.grid.step a * dt ≤ ∑ _a : Fin d, 2 * cmax := by
      refine Finset.sum_le_sum fun a _ => ?_
      have e1 := h3 _ (by rw [abs_abs]; exact hbound a i hi) a
      have e2 := h3 _ (by rw [abs_abs]; exact hbound a _ (rollIdx_inR hi a (-1))) a
      rw [abs_abs] at e1 e2
      calc _ = |(v a).array.data i| * dt / c.array.grid.step a +
            |(v a).array.data (rollIdx c.array.shape a (-1) i)| * dt / c.array.grid.step a := by ring
        _ ≤ 2 * cmax := by linarith
    rw [Finset.sum_const, Finset.card_univ, Fintype.card_fin, nsmul_eq_mul, ← Finset.sum_mul] at hsum
    linarith
  obtain ⟨r, hr, -, hr2⟩ := C30_upwind_maximum_principle hd c hc v hv dt h2 hstep dv hdiv hdv hout lo hi hb
  exact ⟨dt, r, h1, hr, hr2⟩

end upwind

section diffusion
variable [HasNan K]

/-- Boundary conditions for which every neighbour value a stencil sees lies between `lo` and `hi` when the stored data does:
periodic axes, cell centres between zero-slope Neumann walls, faces between Dirichlet walls with values in `[lo, hi]`. -/
def GridVariable.Bounded (u : GridVariable d K) (lo hi : K) : Prop :=
  ∀ a, u.array.shape a = u.array.grid.shape a ∧ 0 < u.array.grid.shape a ∧
    (u.bc.types a = (.periodic, .periodic) ∨
     (u.bc.types a = (.neumann, .neumann) ∧ u.array.offset a = 1 / 2 ∧ u.bc.bcValues a = (some 0, some 0)) ∨
     (u.bc.types a = (.dirichlet, .dirichlet) ∧ u.array.offset a = 1 ∧
      ∃ x y, u.bc.bcValues a = (some x, some y) ∧ lo ≤ x ∧ x ≤ hi ∧ lo ≤ y ∧ y ≤ hi))

theorem GridVariable.Bounded.supported {u : GridVariable d K} {lo hi : K} (h : u.Bounded lo hi) : u.Supported := by
  intro a
  obtain ⟨h1, h2, h3⟩ := h a
  refine ⟨h1, h2, ?_⟩
  rcases h3 with h3 | ⟨h3, h4, -⟩ | ⟨h3, h4, -⟩
  · exact Or.inl h3
  · exact Or.inr (Or.inl ⟨Or.inr (by rw [h3]), Or.inr (by rw [h3]), h4⟩)
  · exact Or.inr (Or.inr ⟨h3, h4⟩)

theorem GridVariable.Bounded.neighbours {u : GridVariable d K} {lo hi : K} (h : u.Bounded lo hi)
    (hb : ∀ i, InR u.array.shape i → lo ≤ u.array.data i ∧ u.array.data i ≤ hi) (a : Fin d) (i : Idx d)
    (hi' : InR u.array.shape i) : (lo ≤ u.above a i ∧ u.above a i ≤ hi) ∧ (lo ≤ u.below a i ∧ u.below a i ≤ hi) := by
  have np : ¬ BCType.neumann = BCType.periodic := by decide
  have nd : ¬ BCType.neumann = BCType.dirichlet := by decide
  have dp : ¬ BCType.dirichlet = BCType.periodic := by decide
  have ne : ¬ (1 : ℚ) = 1 / 2 := by norm_num
  obtain ⟨h1, h2, h3⟩ := h a
  have hia := hi' a
  unfold GridVariable.above GridVariable.below
  rcases h3 with h3 | ⟨h3, h4, h5⟩ | ⟨h3, h4, x, y, h5, h6⟩
  · simp only [h3, if_true]
    exact ⟨hb _ (rollIdx_inR hi' a 1), hb _ (rollIdx_inR hi' a (-1))⟩
  · simp only [h3, np, if_false, h4, if_true, nd, BC.constantValues, h5, Option.getD_some, mul_zero, add_zero, sub_zero]
    constructor
    · by_cases hlt : i a + 1 < u.array.shape a
      · rw [if_pos hlt]; exact hb _ (hi'.update a (by omega) (by omega))
      · rw [if_neg hlt]; exact hb _ hi'
    · by_cases hlt : 0 < i a
      · rw [if_pos hlt]; exact hb _ (hi'.update a (by omega) (by omega))
      · rw [if_neg hlt]; exact hb _ hi'
  · simp only [h3, dp, if_false, h4, ne, BC.constantValues, h5, Option.getD_some]
    constructor
    · by_cases hlt : i a + 2 < u.array.shape a
      · rw [if_pos hlt]; exact hb _ (hi'.update a (by omega) (by omega))
      · rw [if_neg hlt]; exact ⟨h6.2.2.1, h6.2.2.2⟩
    · by_cases hlt : 0 < i a
      · rw [if_pos hlt]; exact hb _ (hi'.update a (by omega) (by omega))
      · rw [if_neg hlt]; exact ⟨h6.1, h6.2.1⟩

theorem two_mul_le_two_pow (d : ℕ) : 2 * d ≤ 2 ^ d := by
  induction d with
  | zero => simp
  | succ n ih =>
    rcases Nat.eq_zero_or_pos n with rfl | h
    · simp
    · have : 2 ≤ 2 ^ n := by calc 2 = 2 ^ 1 := by norm_num
                              _ ≤ 2 ^ n := Nat.pow_le_pow_right (by norm_num) h
      rw [pow_succ]; omega

theorem sum_two_pow_le (g : Grid d K) (hg : ∀ a, 0 < g.step a) (x : K) (hx : ∀ a, x * 2 ^ d ≤ g.step a ^ 2) :
    ∑ a, x * 2 / g.step a ^ 2 ≤ 1 := by
  have h : ∀ a ∈ Finset.univ, x * 2 / g.step a ^ 2 ≤ 2 / 2 ^ d := by
    intro a _
    rw [div_le_div_iff₀ (pow_pos (hg a) 2) (by positivity)]
    linarith [hx a]
  refine (Finset.sum_le_sum h).trans ?_
  rw [Finset.sum_const, Finset.card_univ, Fintype.card_fin, nsmul_eq_mul, ← mul_div_assoc, div_le_one (by positivity)]
  have := two_mul_le_two_pow d
  have : ((2 * d : ℕ) : K) ≤ ((2 ^ d : ℕ) : K) := Nat.cast_le.2 this
  push_cast at this
  linarith

/-- **C31** Explicit diffusion with a step no larger than `diffusion.stable_time_step` obeys the maximum principle on
periodic axes, between zero-slope Neumann walls, and for face values between Dirichlet walls. -/
theorem C31_diffusion_maximum_principle (hd : d ≠ 0) (u : GridVariable d K) (hstep : ∀ a, 0 < u.array.grid.step a)
    (nu dt : K) (hnu : 0 ≤ nu) (hdt : 0 ≤ dt) (D : WithTop K) (hD : diffusionStableTimeStep nu u.array.grid = .ok D)
    (hle : (dt : WithTop K) ≤ D) (lo hi : K) (hu : u.Bounded lo hi)
    (hb : ∀ i, InR u.array.shape i → lo ≤ u.array.data i ∧ u.array.data i ≤ hi) :
    ∃ r, diffuse u nu = .ok r ∧ r.shape = u.array.shape ∧ ∀ i, InR u.array.shape i →
      lo ≤ u.array.data i + dt * r.data i ∧ u.array.data i + dt * r.data i ≤ hi := by
  have hx : ∀ a, (dt * nu) * 2 ^ d ≤ u.array.grid.step a ^ 2 := by
    intro b
    obtain ⟨e1, e2⟩ := C31_diffusion_step hd u.array.grid nu
    rcases eq_or_ne nu 0 with h0 | h0
    · rw [h0]; simp; positivity
    · obtain ⟨m, a, hm, hmin, hs⟩ := e2 h0
      rw [hs] at hD; injection hD with hD
      rw [← hD, WithTop.coe_le_coe, le_div_iff₀ (mul_pos (lt_of_le_of_ne hnu h0.symm) (by positivity))] at hle
      have hm0 : 0 < m := by rw [hm]; exact hstep a
      have := pow_le_pow_left₀ hm0.le (hmin b) 2
      linarith
  have hsum := sum_two_pow_le u.array.grid hstep (dt * nu) hx
  obtain ⟨l, hl, hs, hdata⟩ := laplacian_supported u hu.supported
  refine ⟨gmap (fun x => nu * x) l, by unfold diffuse; rw [hl]; rfl, hs, fun i hi' => ?_⟩
  simp only [gmap, NArr.map]
  have hn : 0 ≤ dt * nu := mul_nonneg hdt hnu
  have split : ∀ k : K, u.array.data i + dt * (nu * l.data i) =
      k + (u.array.data i - k) * (1 - ∑ a, dt * nu * 2 / u.array.grid.step a ^ 2) +
        ∑ a, dt * nu * ((u.above a i - k) + (u.below a i - k)) / u.array.grid.step a ^ 2 := by
    intro k
    rw [hdata i hi', mul_sub, Finset.mul_sum, Finset.mul_sum, Finset.mul_sum]
    have : ∑ a, dt * nu * ((u.above a i - k) + (u.below a i - k)) / u.array.grid.step a ^ 2 -
        ∑ a, (u.array.data i - k) * (dt * nu * 2 / u.array.grid.step a ^ 2) =
        ∑ a, dt * (nu * ((u.above a i + u.below a i - 2 * u.array.data i) / u.array.grid.step a ^ 2)) := by
      rw [← Finset.sum_sub_distrib]
      exact Finset.sum_congr rfl fun a _ => by ring
    linarith
  constructor
  · rw [split lo]
    have h1 : 0 ≤ (u.array.data i - lo) * (1 - ∑ a, dt * nu * 2 / u.array.grid.step a ^ 2) :=
      mul_nonneg (by linarith [(hb i hi').1]) (by linarith)
    have h2 : 0 ≤ ∑ a, dt * nu * ((u.above a i - lo) + (u.below a i - lo)) / u.array.grid.step a ^ 2 := by
      refine Finset.sum_nonneg fun a _ => div_nonneg (mul_nonneg hn ?_) (by positivity)
      have := hu.neighbours hb a i hi'
      linarith [this.1.1, this.2.1]
    linarith
  · rw [split hi]
    have h1 : (u.array.data i - hi) * (1 - ∑ a, dt * nu * 2 / u.array.grid.step a ^ 2) ≤ 0 :=
      mul_nonpos_of_nonpos_of_nonneg (by linarith [(hb i hi').2]) (by linarith)
    have h2 : ∑ a, dt * nu * ((u.above a i - hi) + (u.below a i - hi)) / u.array.grid.step a ^ 2 ≤ 0 := by
      refine Finset.sum_nonpos fun a _ => div_nonpos_of_nonpos_of_nonneg (mul_nonpos_of_nonneg_of_nonpos hn ?_) (by positivity)
      have := hu.neighbours hb a i hi'
      linarith [this.1.2, this.2.2]
    linarith

/-- the same variable with other data -/
def GridVariable.withData (u : GridVariable d K) (x : Idx d → K) : GridVariable d K :=
  ⟨⟨⟨u.array.shape, x⟩, u.array.offset, u.array.grid⟩, u.bc⟩

theorem axisForm_le (u : GridVariable d K) (a : Fin d) :
    axisForm u a u.array.data ≤ 4 * ∑ i ∈ box u.array.shape, u.array.data i ^ 2 := by
  unfold axisForm
  have hsq : ∀ x y : K, (x - y) * (x - y) ≤ 2 * x ^ 2 + 2 * y ^ 2 := fun x y => by nlinarith [sq_nonneg (x + y)]
  split
  · refine (Finset.sum_le_sum fun i _ => hsq _ _).trans (le_of_eq ?_)
    rw [Finset.sum_add_distrib, sum_roll u.array.shape a 1 (fun i => 2 * u.array.data i ^ 2), ← Finset.mul_sum]
    ring
  · have h1 : ∀ i ∈ box u.array.shape,
      ((if i a + 1 < u.array.shape a then (u.array.data (Function.update i a (i a + 1)) - u.array.data i) *
          (u.array.data (Function.update i a (i a + 1)) - u.array.data i) else 0) +
        (if (u.bc.types a).2 = .dirichlet ∧ ¬ i a + 1 < u.array.shape a then 2 * (u.array.data i * u.array.data i) else 0) +
        (if (u.bc.types a).1 = .dirichlet ∧ ¬ 0 < i a then 2 * (u.array.data i * u.array.data i) else 0)) ≤
        (if i a + 1 < u.array.shape a then 2 * u.array.data (Function.update i a (i a + 1)) ^ 2 else 0) +
          (2 * u.array.data i ^ 2 + if 0 < i a then 0 else 2 * u.array.data i ^ 2) := by
      intro i _
      have e := hsq (u.array.data (Function.update i a (i a + 1))) (u.array.data i)
      have p := sq_nonneg (u.array.data i)
      split_ifs <;> nlinarith
    refine (Finset.sum_le_sum h1).trans (le_of_eq ?_)
    rw [Finset.sum_add_distrib, sum_faces u.array.shape a (fun i => 2 * u.array.data (Function.update i a (i a + 1)) ^ 2),
      ← Finset.sum_add_distrib, Finset.mul_sum]
    refine Finset.sum_congr rfl fun i _ => ?_
    by_cases h : 0 < i a
    · simp [h]; ring
    · simp [h]; ring

theorem axisForm_sub (u : GridVariable d K) (a : Fin d) (w : Idx d → K) (t : K) :
    axisForm (u.withData fun i => u.array.data i - t * w i) a (fun i => u.array.data i - t * w i) =
      axisForm u a u.array.data - 2 * t * axisForm u a w + t ^ 2 * axisForm (u.withData w) a w := by
  unfold axisForm
  simp only [GridVariable.withData]
  by_cases h : u.bc.types a = (.periodic, .periodic)
  · simp only [h, if_true]
    rw [Finset.mul_sum, Finset.mul_sum, ← Finset.sum_sub_distrib, ← Finset.sum_add_distrib]
    exact Finset.sum_congr rfl fun i _ => by ring
  · simp only [h, if_false]
    rw [Finset.mul_sum, Finset.mul_sum, ← Finset.sum_sub_distrib, ← Finset.sum_add_distrib]
    refine Finset.sum_congr rfl fun i _ => ?_
    by_cases h1 : i a + 1 < u.array.shape a <;> by_cases h2 : (u.bc.types a).2 = .dirichlet <;>
      by_cases h3 : (u.bc.types a).1 = .dirichlet <;> by_cases h4 : 0 < i a <;>
      simp only [h1, h2, h3, h4, if_true, if_false, not_true_eq_false, not_false_eq_true, and_true, and_false] <;> ring

/-- **C31** (L² stability) With homogeneous Dirichlet / Neumann walls or periodic axes, one explicit diffusion step no larger
than `diffusion.stable_time_step` does not increase `sum(u²)`, in any dimension. -/
theorem C31_diffusion_l2_stable (hd : d ≠ 0) (u : GridVariable d K) (hstep : ∀ a, 0 < u.array.grid.step a)
    (nu dt : K) (hnu : 0 ≤ nu) (hdt : 0 ≤ dt) (D : WithTop K) (hD : diffusionStableTimeStep nu u.array.grid = .ok D)
    (hle : (dt : WithTop K) ≤ D) (hu : u.CenteredHomogeneous) :
    ∃ r, diffuse u nu = .ok r ∧ r.shape = u.array.shape ∧
      ∑ i ∈ box u.array.shape, (u.array.data i + dt * r.data i) ^ 2 ≤ ∑ i ∈ box u.array.shape, u.array.data i ^ 2 := by
  have hx : ∀ a, (dt * nu) * 2 ^ d ≤ u.array.grid.step a ^ 2 := by
    intro b
    obtain ⟨e1, e2⟩ := C31_diffusion_step hd u.array.grid nu
    rcases eq_or_ne nu 0 with h0 | h0
    · rw [h0]; simp; positivity
    · obtain ⟨m, a, hm, hmin, hs⟩ := e2 h0
      rw [hs] at hD; injection hD with hD
      rw [← hD, WithTop.coe_le_coe, le_div_iff₀ (mul_pos (lt_of_le_of_ne hnu h0.symm) (by positivity))] at hle
      have hm0 : 0 < m := by rw [hm]; exact hstep a
      have := pow_le_pow_left₀ hm0.le (hmin b) 2
      linarith
  have hsum := sum_two_pow_le u.array.grid hstep (dt * nu) hx
  obtain ⟨l, hl, hs, hdata⟩ := laplacian_supported u hu.1
  refine ⟨gmap (fun x => nu * x) l, by unfold diffuse; rw [hl]; rfl, hs, ?_⟩
  simp only [gmap, NArr.map]
  set c : K := ∑ a, 4 / u.array.grid.step a ^ 2 with hc
  have hcpos : 0 < c := Finset.sum_pos (fun a _ => div_pos (by norm_num) (pow_pos (hstep a) 2))
    ⟨⟨0, Nat.pos_of_ne_zero hd⟩, Finset.mem_univ _⟩
  have hcx : dt * nu * c ≤ 2 := by
    have : dt * nu * c = 2 * ∑ a, dt * nu * 2 / u.array.grid.step a ^ 2 := by
      rw [hc, Finset.mul_sum, Finset.mul_sum]
      exact Finset.sum_congr rfl fun a _ => by ring
    linarith
  -- w = - laplacian u
  set w : Idx d → K := fun i => - l.data i with hw
  set A := ∑ a, axisForm u a u.array.data / u.array.grid.step a ^ 2 with hA
  have h1 : ∑ i ∈ box u.array.shape, u.array.data i * l.data i = -A := inner_laplacian u hu _ l hl
  have h2 : ∑ i ∈ box u.array.shape, w i * l.data i = -∑ a, axisForm u a w / u.array.grid.step a ^ 2 :=
    inner_laplacian u hu w l hl
  set W := ∑ i ∈ box u.array.shape, l.data i ^ 2 with hW
  have h2' : ∑ a, axisForm u a w / u.array.grid.step a ^ 2 = W := by
    have : ∑ i ∈ box u.array.shape, w i * l.data i = -W := by
      rw [hW, ← Finset.sum_neg_distrib]
      exact Finset.sum_congr rfl fun i _ => by rw [hw]; ring
    linarith
  have h3 : ∑ a, axisForm (u.withData w) a w / u.array.grid.step a ^ 2 ≤ c * W := by
    rw [hc, Finset.sum_mul]
    refine Finset.sum_le_sum fun a _ => ?_
    have := axisForm_le (u.withData w) a
    have e : ∑ i ∈ box (u.withData w).array.shape, (u.withData w).array.data i ^ 2 = W := by
      rw [hW]
      exact Finset.sum_congr rfl fun i _ => by simp [GridVariable.withData, hw]
    rw [e] at this
    rw [div_mul_eq_mul_div]
    exact div_le_div_of_nonneg_right this (by positivity)
  have h4 : 0 ≤ A - 2 * (1 / c) * W + (1 / c) ^ 2 * ∑ a, axisForm (u.withData w) a w / u.array.grid.step a ^ 2 := by
    have : A - 2 * (1 / c) * W + (1 / c) ^ 2 * ∑ a, axisForm (u.withData w) a w / u.array.grid.step a ^ 2 =
        ∑ a, axisForm (u.withData fun i => u.array.data i - (1 / c) * w i) a (fun i => u.array.data i - (1 / c) * w i) /
          u.array.grid.step a ^ 2 := by
      rw [hA, ← h2', Finset.mul_sum, Finset.mul_sum, ← Finset.sum_sub_distrib, ← Finset.sum_add_distrib]
      exact Finset.sum_congr rfl fun a _ => by rw [axisForm_sub]; ring
    rw [this]
    exact Finset.sum_nonneg fun a _ => div_nonneg (axisForm_nonneg (u.withData _) a) (by positivity)
  have h5 : W ≤ c * A := by
    have e1 : (1 / c) ^ 2 * ∑ a, axisForm (u.withData w) a w / u.array.grid.step a ^ 2 ≤ (1 / c) ^ 2 * (c * W) :=
      mul_le_mul_of_nonneg_left h3 (by positivity)
    have e2 : (1 / c) ^ 2 * (c * W) = 1 / c * W := by field_simp
    have e3 : 0 ≤ A - 1 / c * W := by linarith
    have e4 := mul_nonneg hcpos.le e3
    have e5 : c * (A - 1 / c * W) = c * A - W := by field_simp
    linarith
  have hApos : 0 ≤ A := Finset.sum_nonneg fun a _ => div_nonneg (axisForm_nonneg u a) (by positivity)
  have hx0 : 0 ≤ dt * nu := mul_nonneg hdt hnu
  have expand : ∑ i ∈ box u.array.shape, (u.array.data i + dt * (nu * l.data i)) ^ 2 =
      ∑ i ∈ box u.array.shape, u.array.data i ^ 2 - 2 * (dt * nu) * A + (dt * nu) ^ 2 * W := by
    have : -2 * (dt * nu) * A = 2 * (dt * nu) * ∑ i ∈ box u.array.shape, u.array.data i * l.data i := by rw [h1]; ring
    rw [show ∑ i ∈ box u.array.shape, u.array.data i ^ 2 - 2 * (dt * nu) * A + (dt * nu) ^ 2 * W =
      ∑ i ∈ box u.array.shape, u.array.data i ^ 2 + -2 * (dt * nu) * A + (dt * nu) ^ 2 * W by ring, this, hW, Finset.mul_sum,
      Finset.mul_sum, ← Finset.sum_add_distrib, ← Finset.sum_add_distrib]
    exact Finset.sum_congr rfl fun i _ => by ring
  rw [expand]
  have f1 : (dt * nu) ^ 2 * W ≤ (dt * nu) ^ 2 * (c * A) := mul_le_mul_of_nonneg_left h5 (by positivity)
  have f2 : (dt * nu) ^ 2 * (c * A) ≤ 2 * (dt * nu) * A := by
    have := mul_le_mul_of_nonneg_right hcx (mul_nonneg hx0 hApos)
    nlinarith
  linarith

end diffusion

/-! ## Non-vacuity, and a limit of the property -/

section examples
open Fixtures

theorem g34_steps : ∀ a, 0 < g34.step a := by
  intro a
  fin_cases a <;> norm_num [Grid.step, g34]

example : ∃ dt : ℚ, advectionStableTimeStep 2 (1 / 2) g34 = .ok dt ∧ dt = 1 / 8 := by
  obtain ⟨m, a, h1, h2, h3⟩ := minStep_spec (by norm_num : 2 ≠ 0) g34
  have hm : m = 1 / 2 := by
    have e0 : g34.step 0 = 1 := by norm_num [Grid.step, g34]
    have e1 : g34.step 1 = 1 / 2 := by norm_num [Grid.step, g34]
    have := h3 1
    rw [e1] at this
    fin_cases a
    · change m = g34.step 0 at h2; rw [e0] at h2; linarith
    · change m = g34.step 1 at h2; rw [e1] at h2; exact h2
  refine ⟨_, by unfold advectionStableTimeStep; rw [h1, Except.bind_ok, if_neg (by norm_num)]; rfl, ?_⟩
  rw [hm]; norm_num

-- hypotheses of C31_upwind_stable: the shear flow of C30, bounded by 2, with Courant number 1/2 on a 2-d grid
example : (∀ a i, InR pu34.array.shape i → |(shear34 a).array.data i| ≤ 2) ∧ ((2 : ℕ) : ℚ) * (1 / 2) ≤ 1 := by
  refine ⟨?_, by norm_num⟩
  intro a i hi
  have h0 := hi 0
  have h1 := hi 1
  have e0 : pu34.array.shape 0 = 3 := rfl
  have e1 : pu34.array.shape 1 = 4 := rfl
  rw [e0] at h0
  rw [e1] at h1
  have q0 : (i 0 : ℚ) ≤ 2 := by exact_mod_cast (by omega : i 0 ≤ 2)
  have q0' : (0 : ℚ) ≤ i 0 := by exact_mod_cast h0.1
  have q1 : (i 1 : ℚ) ≤ 3 := by exact_mod_cast (by omega : i 1 ≤ 3)
  have q1' : (0 : ℚ) ≤ i 1 := by exact_mod_cast h1.1
  rw [abs_le]
  fin_cases a
  · simp only [shear34]; norm_num; constructor <;> linarith
  · simp only [shear34]; norm_num; constructor <;> linarith

-- hypotheses of the diffusion theorems
example : cNeu.Bounded 1 10 ∧ cFace.Bounded 0 3 ∧ pu34.Bounded 0 25 ∧
    ∀ i, InR cNeu.array.shape i → 1 ≤ cNeu.array.data i ∧ cNeu.array.data i ≤ 10 := by
  refine ⟨fun a => ⟨rfl, by simp [cNeu, uCenter, g4], Or.inr (Or.inl ⟨rfl, rfl, rfl⟩)⟩,
    fun a => ⟨rfl, by simp [cFace, g4], Or.inr (Or.inr ⟨rfl, rfl, 0, 0, rfl, by norm_num⟩)⟩,
    fun a => ⟨(pu34_periodic.2 a).1, (pu34_periodic.2 a).2, Or.inl rfl⟩, ?_⟩
  intro i hi
  have h0 := hi 0
  have e0 : cNeu.array.shape 0 = 4 := rfl
  rw [e0] at h0
  have q0 : (i 0 : ℚ) ≤ 3 := by exact_mod_cast (by omega : i 0 ≤ 3)
  have q0' : (0 : ℚ) ≤ i 0 := by exact_mod_cast h0.1
  show 1 ≤ (i 0 : ℚ) ^ 2 + 1 ∧ (i 0 : ℚ) ^ 2 + 1 ≤ 10
  constructor <;> nlinarith

/-- a spike next to a zero Dirichlet wall, at the cell centres of `g4` -/
def spike : GridVariable 1 ℚ :=
  ⟨⟨⟨fun _ => 4, fun i => if i 0 = 0 then 1 else 0⟩, fun _ => 1 / 2, g4⟩,
    ⟨.homogeneous, fun _ => (.dirichlet, .dirichlet), fun _ => (some 0, some 0)⟩⟩

theorem spike_supported : spike.Supported :=
  fun a => ⟨rfl, by simp [spike, g4], Or.inr (Or.inl ⟨Or.inl rfl, Or.inl rfl, rfl⟩)⟩

example : spike.CenteredHomogeneous := ⟨spike_supported, fun _ _ => ⟨rfl, rfl⟩⟩

/-- **C31** (limit) For cell-centred data next to Dirichlet walls the stable step does *not* give a maximum principle: a spike of
height 1 next to a zero wall becomes negative. -/
theorem C31_dirichlet_cells_no_maximum_principle :
    diffusionStableTimeStep 1 spike.array.grid = .ok (((1 / 8 : ℚ)) : WithTop ℚ) ∧
    (∀ i, 0 ≤ spike.array.data i ∧ spike.array.data i ≤ 1) ∧
    ∃ r, diffuse spike 1 = .ok r ∧ spike.array.data (fun _ => 0) + 1 / 8 * r.data (fun _ => 0) = -1 / 2 := by
  have np : ¬ (BCType.dirichlet = BCType.periodic) := by decide
  refine ⟨?_, ?_, ?_⟩
  · norm_num [diffusionStableTimeStep, pyMin, spike, g4, Grid.step]
  · intro i
    simp only [spike]
    split <;> norm_num
  · obtain ⟨l, hl, hs, hdata⟩ := laplacian_supported spike spike_supported
    refine ⟨gmap (fun x => 1 * x) l, by unfold diffuse; rw [hl]; rfl, ?_⟩
    simp only [gmap, NArr.map]
    rw [hdata _ (by intro a; simp [spike])]
    norm_num [GridVariable.below, GridVariable.above, spike, BC.constantValues, g4, Grid.step, np]

/-- a uniform velocity 2 on four cells of [0, 2] -/
noncomputable def uniform4 (_ : Fin 1) : GridVariable 1 ℝ :=
  ⟨⟨⟨fun _ => 4, fun _ => 2⟩, fun _ => 1, ⟨fun _ => 4, fun _ => (0, 2)⟩⟩,
    ⟨.homogeneous, fun _ => (.periodic, .periodic), fun _ => (some 0, some 0)⟩⟩

/-- `dynamic_time_step` of a uniform flow, without viscosity. -/
theorem uniform4_step : dynamicTimeStep uniform4 (1 / 2) 0 ⟨fun _ => 4, fun _ => (0, 2)⟩ = .ok ((1 / 8 : ℝ) : WithTop ℝ) := by
  have hne : (box (fun _ : Fin 1 => 4)).Nonempty := ⟨fun _ => 0, mem_box.2 fun a => by simp⟩
  have h1 : uniqueOr .type (fun u : GridVariable 1 ℝ => u.array.shape) (List.ofFn uniform4) = .ok (fun _ => 4) :=
    uniqueOr_eq_ok.2 ⟨by simp, by simp [uniform4]⟩
  have h2 : jnpMax (⟨fun _ => 4, fun i => ∑ a, (uniform4 a).array.data i ^ 2⟩ : NArr 1 ℝ) = .ok 4 := by
    unfold jnpMax
    rw [dif_pos hne]
    refine congrArg Except.ok ((Finset.sup'_congr hne rfl (g := fun _ => (4 : ℝ)) fun i _ => ?_).trans
      (Finset.sup'_const hne _))
    norm_num [uniform4]
  have h3 : Real.sqrt 4 = 2 := by
    rw [show (4 : ℝ) = 2 ^ 2 by norm_num]; exact Real.sqrt_sq (by norm_num)
  unfold dynamicTimeStep
  rw [h1, Except.bind_ok, h2, Except.bind_ok, h3]
  norm_num [pyMin, checkDiffusionStep, diffusionStableTimeStep, Grid.step]
  rw [Except.bind_ok, Except.bind_ok, if_neg (by simp), Except.pure_eq_ok]
  norm_num
end examples

end JaxCfd
