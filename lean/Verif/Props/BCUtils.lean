import Verif.Model.BCUtils
import Verif.Lemmas.Seq
import Verif.Lemmas.Unique
import Verif.Props.Fixtures

/-!
# C15, C16: boundary-condition constructors and decision logic
-/

namespace JaxCfd
variable {d : ℕ} {K : Type}

/-- **C15** Types and values produced by the constructors, axis by axis. -/
theorem C15_constructor_types [Zero K] (a : Fin d) (vals : Option (Fin d → Option K × Option K)) :
    (periodicBC d : BC d K).types a = (.periodic, .periodic) ∧
    (dirichletBC d vals).types a = (.dirichlet, .dirichlet) ∧
    (neumannBC d vals).types a = (.neumann, .neumann) ∧
    (channelBC d vals).types a = (if (a : ℕ) = 1 then (.dirichlet, .dirichlet) else (.periodic, .periodic)) := by
  refine ⟨rfl, by cases vals <;> rfl, by cases vals <;> rfl, ?_⟩
  have h : (channelBC d vals).types a = (channelTypes d).getD a (.periodic, .periodic) := by
    cases vals <;> rfl
  rw [h]
  obtain ⟨a, ha⟩ := a
  simp only
  match a with
  | 0 => rfl
  | 1 => rfl
  | a + 2 =>
    rw [if_neg (by omega)]
    simp only [channelTypes, List.cons_append, List.nil_append, List.getD_cons_succ]
    rw [List.getD_eq_getElem?_getD, List.getElem?_replicate]
    split <;> rfl

/-- **C15** Boundary values: zero (a homogeneous condition) when no values are given, else exactly those. -/
theorem C15_constructor_values [Zero K] (vals : Fin d → Option K × Option K) :
    (dirichletBC d (some vals)).bcValues = vals ∧ (neumannBC d (some vals)).bcValues = vals ∧
    (channelBC d (some vals)).bcValues = vals ∧
    (∀ a, (dirichletBC d none : BC d K).bcValues a = (some 0, some 0)) ∧
    (∀ a, (neumannBC d none : BC d K).bcValues a = (some 0, some 0)) ∧
    (∀ a, (channelBC d none : BC d K).bcValues a = (some 0, some 0)) ∧
    (∀ a, (periodicBC d : BC d K).bcValues a = (some 0, some 0)) ∧
    (dirichletBC d none : BC d K).cls = .homogeneous ∧ (dirichletBC d (some vals)).cls = .constant :=
  ⟨rfl, rfl, rfl, fun _ => rfl, fun _ => rfl, fun _ => rfl, fun _ => rfl, rfl, rfl⟩

/-- **C15** `values` gives the prescribed lower and upper boundary values as arrays over the other axes, and nothing when either is missing.
(defect) For `periodic_boundary_conditions` it returns zeros, although documented to return `(None, None)`. -/
theorem C15_values [Zero K] (bc : BC (d + 1) K) (ax : Fin (d + 1)) (g : Grid (d + 1) K) :
    (∀ lo hi, bc.bcValues ax = (some lo, some hi) → ∃ l u, bc.values ax g = (some l, some u) ∧
      (∀ b, l.shape b = g.shape (ax.succAbove b) ∧ u.shape b = g.shape (ax.succAbove b)) ∧ ∀ i, l.data i = lo ∧ u.data i = hi) ∧
    ((bc.bcValues ax).1 = none ∨ (bc.bcValues ax).2 = none → bc.values ax g = (none, none)) ∧
    ∃ l u, (periodicBC (d + 1) : BC (d + 1) K).values ax g = (some l, some u) ∧ ∀ i, l.data i = 0 ∧ u.data i = 0 := by
  refine ⟨fun lo hi h => ?_, fun h => ?_, ?_⟩
  · unfold BC.values
    rw [h]
    exact ⟨_, _, rfl, fun b => ⟨rfl, rfl⟩, fun i => ⟨rfl, rfl⟩⟩
  · unfold BC.values
    exact if_pos (by rcases h with h | h <;> simp [h])
  · exact ⟨_, _, rfl, fun i => ⟨rfl, rfl⟩⟩

/-- **C15** The channel constructor makes `max 2 ndim` entries: for fewer than two dimensions it yields a
condition of the wrong rank. -/
theorem C15_channel_length (n : ℕ) : (channelTypes n).length = max 2 n := by
  simp [channelTypes]; omega

/-- **C15** The two-dimensional mixed constructors. -/
theorem C15_mixed_types [Zero K] (vals : Option (Option K × Option K)) (p : ℤ) :
    (periodicAndNeumannBC vals).types 0 = (.periodic, .periodic) ∧
    (periodicAndNeumannBC vals).types 1 = (.neumann, .neumann) ∧
    (periodicAndDirichletBC vals p).types (if p = 0 then 0 else 1) = (.periodic, .periodic) ∧
    (periodicAndDirichletBC vals p).types (if p = 0 then 1 else 0) = (.dirichlet, .dirichlet) ∧
    (∀ v, vals = some v → (periodicAndNeumannBC vals).bcValues 1 = v ∧
      (periodicAndDirichletBC vals p).bcValues (if p = 0 then 1 else 0) = v) := by
  refine ⟨by cases vals <;> rfl, by cases vals <;> rfl, ?_, ?_, ?_⟩
  · by_cases hp : p = 0 <;> cases vals <;> simp [periodicAndDirichletBC, hp, bcWithValues, homogeneousBC, constantBC]
  · by_cases hp : p = 0 <;> cases vals <;> simp [periodicAndDirichletBC, hp, bcWithValues, homogeneousBC, constantBC]
  · rintro v rfl
    refine ⟨rfl, ?_⟩
    by_cases hp : p = 0 <;> simp [periodicAndDirichletBC, hp, bcWithValues, constantBC]

/-- The (lower) boundary of `c` along `a` is periodic. -/
def PeriodicAlong (c : GridVariable d K) (a : Fin d) : Prop := (c.bc.types a).1 = .periodic

theorem isPeriodicBC_iff (c : GridVariable d K) (a : Fin d) : isPeriodicBC c a = true ↔ PeriodicAlong c a := by
  unfold isPeriodicBC PeriodicAlong
  by_cases h : (c.bc.types a).1 = .periodic <;> simp [h]

/-- **C15** `has_all_periodic_boundary_conditions` is true iff every axis of every array is periodic. -/
theorem C15_has_all_periodic (us : List (GridVariable d K)) :
    hasAllPeriodic us = true ↔ ∀ u ∈ us, ∀ a, PeriodicAlong u a := by
  simp [hasAllPeriodic, List.all_eq_true, isPeriodicBC_iff]

/-- **C15** `consistent_boundary_conditions` succeeds exactly when the arrays (at least one) agree on
periodicity along every axis, and then reports the periodicity of each axis. -/
theorem C15_consistent_iff (us : List (GridVariable d K)) (t : Fin d → Bool) :
    consistentBC us = .ok t ↔ us ≠ [] ∧ ∀ a, ∀ u ∈ us, (t a = true ↔ PeriodicAlong u a) := by
  match us with
  | [] => simp [consistentBC]
  | u :: us =>
    unfold consistentBC
    rw [seqFin_eq_ok]
    simp only [uniqueOr_eq_ok]
    constructor
    · intro h
      refine ⟨by simp, fun a w hw => ?_⟩
      rw [← isPeriodicBC_iff, (h a).2 w hw]
    · rintro ⟨-, h⟩ a
      refine ⟨by simp, fun w hw => ?_⟩
      rw [Bool.eq_iff_iff, isPeriodicBC_iff]
      exact (h a w hw).symm

/-- **C15** … and otherwise raises: InconsistentBoundaryConditionsError exactly when two arrays disagree. -/
theorem C15_consistent_error (us : List (GridVariable d K)) :
    consistentBC us = .error .bc ↔ ∃ a, ∃ u ∈ us, ∃ w ∈ us, PeriodicAlong u a ∧ ¬ PeriodicAlong w a := by
  match us with
  | [] => simp [consistentBC]
  | u :: us =>
    set l := u :: us with hl
    have hne : l ≠ [] := by simp [hl]
    have hdef : consistentBC l = seqFin fun ax => uniqueOr .bc (fun a => isPeriodicBC a ax) l := rfl
    rcases seqFin_isError (fun ax => uniqueOr Err.bc (fun a => isPeriodicBC a ax) l) with ⟨g, hg⟩ | ⟨a, e, ha, -, he⟩
    · constructor
      · intro h; rw [hdef, hg] at h; cases h
      · rintro ⟨a, x, hx, y, hy, h1, h2⟩
        rw [← hdef, C15_consistent_iff] at hg
        exact absurd ((hg.2 a y hy).1 ((hg.2 a x hx).2 h1)) h2
    · obtain ⟨rfl, hd⟩ := uniqueOr_eq_error ha
      rw [hdef, he]
      refine ⟨fun _ => ?_, fun _ => rfl⟩
      rcases hd with hd | ⟨x, hx, y, hy, hxy⟩
      · exact absurd hd hne
      · by_cases hp : PeriodicAlong x a
        · refine ⟨a, x, hx, y, hy, hp, fun hp' => hxy ?_⟩
          rw [Bool.eq_iff_iff, isPeriodicBC_iff, isPeriodicBC_iff]
          exact ⟨fun _ => hp', fun _ => hp⟩
        · refine ⟨a, y, hy, x, hx, ?_, hp⟩
          by_contra hp'
          apply hxy
          rw [Bool.eq_iff_iff, isPeriodicBC_iff, isPeriodicBC_iff]
          exact ⟨fun h => absurd h hp, fun h => absurd h hp'⟩

/-- **C15** The pressure condition derived from a velocity exists iff the components agree on periodicity; it
is homogeneous, periodic exactly along the periodic axes and Neumann along all others. -/
theorem C15_pressure_bc [Zero K] (v : List (GridVariable d K)) (p : BC d K) :
    pressureBCFromVelocity v = .ok p ↔ v ≠ [] ∧ (∀ a, ∀ u ∈ v, ∀ w ∈ v, PeriodicAlong u a → PeriodicAlong w a) ∧
      p.cls = .homogeneous ∧ (∀ a, p.bcValues a = (some 0, some 0)) ∧
      (∀ a, ∀ u ∈ v, (PeriodicAlong u a → p.types a = (.periodic, .periodic)) ∧
        (¬ PeriodicAlong u a → p.types a = (.neumann, .neumann))) := by
  unfold pressureBCFromVelocity
  rw [Except.bind_eq_ok]
  constructor
  · rintro ⟨t, ht, hp⟩
    rw [C15_consistent_iff] at ht
    rw [Except.pure_eq_ok] at hp
    injection hp with hp
    subst hp
    refine ⟨ht.1, fun a u hu w hw h => (ht.2 a w hw).1 ((ht.2 a u hu).2 h), rfl, fun _ => rfl, fun a u hu => ⟨fun h => ?_, fun h => ?_⟩⟩
    · have := (ht.2 a u hu).2 h
      simp [homogeneousBC, this]
    · have : ¬ t a = true := fun hh => h ((ht.2 a u hu).1 hh)
      simp [homogeneousBC, this]
  · rintro ⟨hne, hag, hc, hv, ht⟩
    obtain ⟨u, hu⟩ := List.exists_mem_of_ne_nil v hne
    refine ⟨fun a => isPeriodicBC u a, ?_, ?_⟩
    · rw [C15_consistent_iff]
      refine ⟨hne, fun a w hw => ?_⟩
      rw [isPeriodicBC_iff]
      exact ⟨hag a u hu w hw, hag a w hw u hu⟩
    · rw [Except.pure_eq_ok]
      congr 1
      apply BC.ext
      · exact hc.symm
      · funext a
        by_cases hp : PeriodicAlong u a
        · rw [(ht a u hu).1 hp]
          simp [homogeneousBC, (isPeriodicBC_iff u a).2 hp]
        · rw [(ht a u hu).2 hp]
          have : ¬ isPeriodicBC u a = true := fun h => hp ((isPeriodicBC_iff u a).1 h)
          simp [homogeneousBC, this]
      · funext a; rw [hv a]; rfl

/-- The wall conditions along the flux direction for which a flux boundary condition exists: no-penetration, or
zero normal derivative of both velocity and scalar. -/
def SideSupported [Zero K] (ut : BCType) (uv : Option K) (ct : BCType) (cv : Option K) : Prop :=
  (ut = .dirichlet ∧ uv = some 0) ∨ (ut = .neumann ∧ ct = .neumann ∧ cv = some 0)

theorem fluxSide_ok_iff [Zero K] [DecidableEq K] (ut : BCType) (uv : Option K) (ct : BCType)
    (cv : Option K) (r : BCType × Option K) :
    fluxSide ut uv ct cv = .ok r ↔ SideSupported ut uv ct cv ∧ r = (ut, some 0) := by
  unfold fluxSide SideSupported
  by_cases h1 : ut = .dirichlet ∧ uv = some 0
  · obtain ⟨rfl, rfl⟩ := h1
    simp [eq_comm]
  · rw [if_neg h1]
    by_cases h2 : ut = .neumann ∧ ct = .neumann
    · obtain ⟨rfl, rfl⟩ := h2
      rw [if_pos ⟨rfl, rfl⟩]
      cases cv with
      | none => simp
      | some x =>
        by_cases hx : x = 0
        · subst hx; simp [eq_comm]
        · simp [hx]
    · rw [if_neg h2]
      simp only [reduceCtorEq, false_iff, not_and]
      rintro (h | ⟨ha, hb, -⟩)
      · exact absurd h h1
      · exact absurd ⟨ha, hb⟩ h2

/-- **C16** `get_advection_flux_bc_from_velocity_and_scalar` succeeds iff the velocity condition is homogeneous and,
unless the flux direction is periodic, both walls are supported; the result is then periodic on the velocity's
periodic axes, zero Dirichlet along parallel walls, and zero-valued of the velocity's type in the flux direction. -/
theorem C16_flux_bc [Zero K] [DecidableEq K] (u c : GridVariable d K) (dir : Fin d) (r : BC d K) :
    advectionFluxBC u c dir = .ok r ↔
      u.bc.cls = .homogeneous ∧
      (¬ PeriodicAlong u dir →
        SideSupported (u.bc.types dir).1 (u.bc.bcValues dir).1 (c.bc.types dir).1 (c.bc.bcValues dir).1 ∧
        SideSupported (u.bc.types dir).2 (u.bc.bcValues dir).2 (c.bc.types dir).2 (c.bc.bcValues dir).2) ∧
      r.cls = .constant ∧
      (∀ a, (PeriodicAlong u a → r.types a = (.periodic, .periodic) ∧ r.bcValues a = (none, none)) ∧
        (¬ PeriodicAlong u a → a ≠ dir →
          r.types a = (.dirichlet, .dirichlet) ∧ r.bcValues a = (some 0, some 0)) ∧
        (¬ PeriodicAlong u a → a = dir → r.types a = u.bc.types a ∧ r.bcValues a = (some 0, some 0))) := by
  unfold advectionFluxBC
  by_cases hc : u.bc.cls = .homogeneous
  · rw [if_neg (by simp [hc])]
    rw [Except.bind_eq_ok]
    simp only [hc, true_and]
    have hax : ∀ a x, fluxAxis u c dir a = .ok x ↔
        (PeriodicAlong u a → x = ((.periodic, .periodic), (none, none))) ∧
        (¬ PeriodicAlong u a → a ≠ dir → x = ((.dirichlet, .dirichlet), (some 0, some 0))) ∧
        (¬ PeriodicAlong u a → a = dir →
          (SideSupported (u.bc.types a).1 (u.bc.bcValues a).1 (c.bc.types a).1 (c.bc.bcValues a).1 ∧
           SideSupported (u.bc.types a).2 (u.bc.bcValues a).2 (c.bc.types a).2 (c.bc.bcValues a).2) ∧
          x = (u.bc.types a, (some 0, some 0))) := by
      intro a x
      unfold fluxAxis
      by_cases hp : (u.bc.types a).1 = .periodic
      · rw [if_pos hp]
        have : PeriodicAlong u a := hp
        simp [this, eq_comm]
      · rw [if_neg hp]
        have hp' : ¬ PeriodicAlong u a := hp
        by_cases hd : dir ≠ a
        · rw [if_pos hd]
          simp [hp', Ne.symm hd, eq_comm]
        · rw [if_neg hd]
          have hd : a = dir := by
            by_contra hh; exact hd (Ne.symm hh)
          subst hd
          simp only [hp', false_implies, true_and, not_true, not_false_eq_true, true_implies, ne_eq]
          rw [Except.bind_eq_ok]
          constructor
          · rintro ⟨lo, hlo, h⟩
            rw [Except.bind_eq_ok] at h
            obtain ⟨hi, hhi, h⟩ := h
            rw [fluxSide_ok_iff] at hlo hhi
            rw [Except.pure_eq_ok] at h
            injection h with h
            refine ⟨⟨hlo.1, hhi.1⟩, ?_⟩
            rw [← h, hlo.2, hhi.2]
          · rintro ⟨⟨h1, h2⟩, rfl⟩
            refine ⟨_, (fluxSide_ok_iff _ _ _ _ _).2 ⟨h1, rfl⟩, ?_⟩
            rw [(fluxSide_ok_iff _ _ _ _ _).2 ⟨h2, rfl⟩]
            rfl
    constructor
    · rintro ⟨x, hx, hr⟩
      rw [Except.pure_eq_ok] at hr
      injection hr with hr
      subst hr
      rw [seqFin_eq_ok] at hx
      refine ⟨fun hp => (((hax dir _).1 (hx dir)).2.2 hp rfl).1, rfl, fun a => ⟨fun hp => ?_, fun hp hd => ?_, fun hp hd => ?_⟩⟩
      · have := ((hax a _).1 (hx a)).1 hp
        simp [constantBC, this]
      · have := ((hax a _).1 (hx a)).2.1 hp hd
        simp [constantBC, this]
      · have := (((hax a _).1 (hx a)).2.2 hp hd).2
        simp [constantBC, this]
    · rintro ⟨hs, hcls, hall⟩
      refine ⟨fun a => (r.types a, r.bcValues a), ?_, ?_⟩
      · rw [seqFin_eq_ok]
        intro a
        rw [hax]
        obtain ⟨h1, h2, h3⟩ := hall a
        refine ⟨fun hp => ?_, fun hp hd => ?_, fun hp hd => ?_⟩
        · rw [(h1 hp).1, (h1 hp).2]
        · rw [(h2 hp hd).1, (h2 hp hd).2]
        · refine ⟨by subst hd; exact hs hp, ?_⟩
          rw [(h3 hp hd).1, (h3 hp hd).2]
      · rw [Except.pure_eq_ok]
        congr 1
        exact BC.ext hcls.symm rfl rfl
  · rw [if_pos hc]
    simp [hc]

section
open Fixtures
def wallVel : GridVariable 2 ℚ := ⟨u34, channelBC 2 none⟩
-- a channel: periodic along axis 0, no-penetration walls along axis 1
example : wallVel.bc.cls = .homogeneous ∧ ¬ PeriodicAlong wallVel 1 ∧
    SideSupported (wallVel.bc.types 1).1 (wallVel.bc.bcValues 1).1 (wallVel.bc.types 1).1 (wallVel.bc.bcValues 1).1 := by
  refine ⟨rfl, by unfold PeriodicAlong; decide, Or.inl ⟨rfl, rfl⟩⟩
-- arrays that disagree
example : ∃ a, ∃ u ∈ [wallVel, ⟨u34, periodicBC 2⟩], ∃ w ∈ [wallVel, ⟨u34, periodicBC 2⟩],
    PeriodicAlong u a ∧ ¬ PeriodicAlong w a :=
  ⟨1, ⟨u34, periodicBC 2⟩, by simp, wallVel, by simp, rfl, by unfold PeriodicAlong; decide⟩
end

end JaxCfd
