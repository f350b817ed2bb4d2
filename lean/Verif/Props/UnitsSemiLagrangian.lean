import Verif.Props.UnitsCutoff
import Verif.Props.TimeStep
import Verif.Props.SemiLagrangian
import Verif.Model.Diffusion

/-!
# C77: no hidden units — semi-Lagrangian advection and the dynamic time step
-/

namespace JaxCfd
variable {d : ℕ} {l m τ : ℝ}

section
variable [HasNan ℝ]

/-- **C77** A semi-Lagrangian step: the departure points are computed from absolute coordinates, in units of length, and divided by the spacing again. -/
theorem C77_semi_lagrangian (hl : 0 < l) (hτ : 0 < τ) {c c' : GridVariable d ℝ} {v v' : Fin d → GridVariable d ℝ} (hc : c.InUnits l m c') (hp : c.Periodic)
    (hv : VelocityInUnits l τ v v') (hf : ∀ a, (v a).Periodic ∨ (v a).array.Fits) (dt : ℝ) :
    RelS (GridVariable.InUnits l m) (advectSemilagrangian c v dt) (advectSemilagrangian c' v' (τ * dt)) := by
  unfold advectSemilagrangian
  have hl' := hl.ne'
  refine RelS.bind (consistentGrid_inUnits (l := l) (.cons hc.2.2.grid (forall₂_ofFn fun a => (hv a).2.2.grid))) fun g g' hg => ?_
  obtain ⟨rfl, hgg⟩ := hg
  have hcg : c.array.grid = g := hgg _ (by simp)
  have hdom : (∃ a, ((g.inUnits l).domain a).1 ≠ 0) ↔ ∃ a, (g.domain a).1 ≠ 0 := exists_congr fun a => by
    show l * (g.domain a).1 ≠ 0 ↔ _
    simp [hl']
  by_cases h0 : ∃ a, (g.domain a).1 ≠ 0
  · rw [if_pos h0]; exact RelS.error _ _
  rw [if_neg h0, if_neg (fun h => h0 (hdom.1 h)), hc.2.2.offset]
  obtain ⟨M, hM, hMv⟩ := mesh_value g c.array.offset
  obtain ⟨M', hM', hMv'⟩ := mesh_value (g.inUnits l) c.array.offset
  rw [hM, hM', Except.bind_ok, Except.bind_ok]
  have hs : ∀ a, (g.inUnits l).shape a = g.shape a := fun _ => rfl
  refine RelS.bind (R := fun x y : Fin d → NArr d ℝ => ∀ a, ∀ i : Idx d, InR g.shape i → (y a).data i = l * (x a).data i) (RelS.seq (R := fun _ (x y : NArr d ℝ) => ∀ i : Idx d, InR g.shape i → y.data i = l * x.data i) fun a => ?_) fun x y hxy => ?_
  · refine RelS.bind (C77_linear hl' (hv a) (hf a) _) fun u u' hu => ?_
    have e : (M' a).shape = (M a).shape := by rw [(hMv a).1, (hMv' a).1]; rfl
    by_cases hsh : u.array.shape ≠ (M a).shape
    · rw [if_pos hsh]; exact RelS.error _ _
    · rw [if_neg hsh, if_neg (by rw [hu.2.2.shape, e]; exact hsh)]
      refine RelS.ok fun i hi => ?_
      have hi' : InR u.array.shape i := by rw [not_not.1 hsh, (hMv a).1]; exact hi
      unfold NArr.map2
      dsimp only
      rw [(hMv a).2 i hi, (hMv' a).2 i hi, hu.2.2.data hi', Grid.inUnits_step]
      show l * (g.domain a).1 + ((i a : ℝ) + (c.array.offset a : ℝ)) * (l * g.step a) - τ * dt * (l / τ * u.array.data i) = _
      have := hτ.ne'
      field_simp
  · have hper : hasAllPeriodic [c'] = hasAllPeriodic [c] := by
      unfold hasAllPeriodic
      rw [List.all_cons, List.all_cons, List.all_nil]
      unfold isPeriodicBC
      rw [hc.1]
      rfl
    rw [hper]
    split_ifs
    · refine RelS.ok ⟨hc.1, hc.2.1, rfl, hc.2.2.grid, rfl, fun i hi => ?_⟩
      have hi' : InR g.shape i := hi
      unfold mapCoordinatesWrap
      dsimp only
      rw [Finset.mul_sum]
      have hpos : ∀ a, 0 < c.array.shape a := fun a => by rw [(hp.2 a).1]; exact (hp.2 a).2
      have hcoord : ∀ a, (y a).data i / (g.inUnits l).step a - (c.array.offset a : ℝ) = (x a).data i / g.step a - (c.array.offset a : ℝ) := fun a => by
        rw [hxy a i hi', Grid.inUnits_step, mul_div_mul_left _ _ hl']
      refine Finset.sum_congr rfl fun b _ => ?_
      simp only [hcoord, hc.2.2.shape]
      rw [hc.2.2.data (i := fun a => (⌊(x a).data i / g.step a - (c.array.offset a : ℝ)⌋ + (if b a = true then 1 else 0)) % (c.array.shape a : ℤ))
        fun a => ⟨Int.emod_nonneg _ (by have := hpos a; omega), Int.emod_lt_of_pos _ (by have := hpos a; omega)⟩]
      ring
    · exact RelS.error _ _

end

/-- **C77** The dynamic time step of a velocity field: with lengths, times and the viscosity in other units it is the same time. -/
theorem C77_dynamic_time_step (hl : 0 < l) (hτ : 0 < τ) {v v' : Fin d → GridVariable d ℝ} (hv : VelocityInUnits l τ v v') (courant nu : ℝ) (g : Grid d ℝ) (im : Bool) :
    RelS (fun x y => y = x.map (τ * ·)) (dynamicTimeStep v courant nu g im) (dynamicTimeStep v' courant (l ^ 2 / τ * nu) (g.inUnits l) im) := by
  have hl' := hl.ne'
  have hτ' := hτ.ne'
  have hq : 0 < l / τ := div_pos hl hτ
  unfold dynamicTimeStep
  refine RelS.bind (R := fun s s' => s' = s ∧ ∀ a, (v a).array.shape = s) ?_ fun s s' hs => ?_
  · intro r hr
    obtain ⟨h0, h1⟩ := uniqueOr_eq_ok.1 hr
    refine ⟨r, uniqueOr_eq_ok.2 ⟨by simpa using h0, fun x hx => ?_⟩, rfl, fun a => h1 _ (List.mem_ofFn.2 ⟨a, rfl⟩)⟩
    obtain ⟨a, rfl⟩ := (List.mem_ofFn' _ _).1 hx
    rw [(hv a).2.2.shape]
    exact h1 _ (List.mem_ofFn.2 ⟨a, rfl⟩)
  obtain ⟨rfl, hs⟩ := hs
  refine RelS.bind (R := fun x y => y = (l / τ) ^ 2 * x) ?_ fun M M' hM => ?_
  · unfold jnpMax
    by_cases h : (box s').Nonempty
    · rw [dif_pos h, dif_pos h]
      refine RelS.ok ?_
      dsimp only
      rw [Finset.apply_sup'_eq_sup'_comp h (fun x : ℝ => (l / τ) ^ 2 * x) (fun x y => mul_max_of_nonneg x y (sq_nonneg (l / τ)))]
      refine Finset.sup'_congr h rfl fun i hi => ?_
      rw [Function.comp_apply, Finset.mul_sum]
      refine Finset.sum_congr rfl fun a _ => ?_
      rw [(hv a).2.2.data (by rw [hs a]; exact mem_box.1 hi), mul_pow]
    · rw [dif_neg h]; exact RelS.error _ _
  subst hM
  refine RelS.bind (pyMin_inUnits hl g) fun x y hxy => ?_
  subst hxy
  have e : (if Real.sqrt ((l / τ) ^ 2 * M) = 0 then (⊤ : WithTop ℝ) else ((courant * (l * x) / Real.sqrt ((l / τ) ^ 2 * M) : ℝ) : WithTop ℝ)) =
      (if Real.sqrt M = 0 then (⊤ : WithTop ℝ) else ((courant * x / Real.sqrt M : ℝ) : WithTop ℝ)).map (τ * ·) := by
    rw [Real.sqrt_mul (sq_nonneg _), Real.sqrt_sq hq.le]
    by_cases h : Real.sqrt M = 0
    · rw [if_pos h, h, mul_zero, if_pos rfl]; rfl
    · rw [if_neg h, if_neg (mul_ne_zero hq.ne' h), WithTop.map_coe]
      congr 1
      field_simp
  rw [e]
  exact checkDiffusionStep_inUnits hl hτ _ nu g im

/-! ## Non-vacuity -/
section examples
variable [HasNan ℝ]
namespace Fixtures

/-- The first component of the swirl carried by the swirl, in two systems of units. -/
example : ∃ r r', advectSemilagrangian (swirl 0) swirl (1 / 10) = .ok r ∧
    advectSemilagrangian ((swirl 0).toUnits 100 3) (fun a => (swirl a).toUnits 100 (100 / 1000)) (1000 * (1 / 10)) = .ok r' ∧ GridVariable.InUnits 100 3 r r' := by
  have hper : ∀ a, (swirl a).Periodic := fun a => ⟨fun _ => rfl, fun b => ⟨rfl, g34r_pos b⟩⟩
  obtain ⟨r, hr⟩ := C32_succeeds (swirl 0) (hper 0) swirl hper (fun _ => rfl) (fun a => by fin_cases a <;> simp [swirl, g34r]) (1 / 10)
  obtain ⟨r', hr', h⟩ := C77_semi_lagrangian (l := 100) (m := 3) (τ := 1000) (by norm_num) (by norm_num) (GridVariable.toUnits_inUnits 100 3 (periodicBC_given 2)) (hper 0)
    (fun a => GridVariable.toUnits_inUnits 100 (100 / 1000) (periodicBC_given 2)) (fun a => Or.inl (hper a)) (1 / 10) r hr
  exact ⟨r, r', hr, hr', h⟩

/-- The dynamic time step of a uniform flow, 1/8 of a second, is 125 milliseconds. -/
example : dynamicTimeStep (fun a => (uniform4 a).toUnits 100 (100 / 1000)) (1 / 2) (100 ^ 2 / 1000 * 0) (Grid.inUnits 100 ⟨fun _ => 4, fun _ => (0, 2)⟩) = .ok ((125 : ℝ) : WithTop ℝ) := by
  obtain ⟨y, hy, e⟩ := C77_dynamic_time_step (l := 100) (τ := 1000) (by norm_num) (by norm_num)
    (fun a => GridVariable.toUnits_inUnits 100 (100 / 1000) (u := uniform4 a) fun b => ⟨fun h => absurd rfl h, fun h => absurd rfl h⟩) (1 / 2) 0 ⟨fun _ => 4, fun _ => (0, 2)⟩ false _ uniform4_step
  rw [hy, e]
  norm_num

end Fixtures
end examples

end JaxCfd
