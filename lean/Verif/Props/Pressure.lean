import Verif.Lemmas.Pressure
import Mathlib.Tactic.LinearCombination
import Mathlib.Algebra.Order.BigOperators.Ring.Finset
import Mathlib.Algebra.Order.Field.Basic

/-!
# C33: the pressure projection

`projection(v, solve)` subtracts the gradient of the pressure the solver returns.  The first theorem holds for every solver
(in particular for approximate ones such as conjugate gradients); the others for a solver that solves the Poisson equation.
-/

set_option linter.unusedSectionVars false

namespace JaxCfd

variable {d : ℕ} {K : Type} [Field K] [HasNan K] [DecidableEq K]

/-- When called on the velocity `v` with the initial guess zero the solver returns the cell-centred array `q`. -/
def Returns (solve : PressureSolver d K) (g : Grid d K) (v : Fin d → GridVariable d K) (bc : BC d K)
    (q : GridArray d K) : Prop :=
  pressureBCFromVelocity (List.ofFn v) = .ok bc ∧ (∀ q0, bc.imposeBC ⟨⟨g.shape, fun _ => 0⟩, fun _ => 1 / 2, g⟩ = .ok q0 → solve v q0 bc = .ok q) ∧
    q.shape = g.shape ∧ q.grid = g ∧ q.offset = fun _ => 1 / 2

namespace VelocityField
variable {g : Grid d K} {v : Fin d → GridVariable d K}

/-- the gradient subtracted by the projection -/
def grad (g : Grid d K) (v : Fin d → GridVariable d K) (q : Idx d → K) (a : Fin d) (i : Idx d) : K :=
  ((pvar g v q).above a i - q i) / g.step a

theorem above_congr {q q' : Idx d → K} (e : ∀ i, InR g.shape i → q' i = q i) (a : Fin d)
    {i : Idx d} (hi : InR g.shape i) : (pvar g v q').above a i = (pvar g v q).above a i := by
  rw [pvar_above, pvar_above]
  by_cases hp : (v a).bc.types a = (.periodic, .periodic)
  · rw [if_pos hp, if_pos hp, e _ (rollIdx_inR hi a 1)]
  · rw [if_neg hp, if_neg hp]
    by_cases hl : i a + 1 < g.shape a
    · rw [if_pos hl, if_pos hl, e _ (hi.update a (by have := hi a; omega) (by omega))]
    · rw [if_neg hl, if_neg hl, e _ hi]

theorem grad_wall (q : Idx d → K) (a : Fin d) {i : Idx d}
    (hp : (v a).bc.types a ≠ (.periodic, .periodic)) (hl : i a + 1 = g.shape a) : grad g v q a i = 0 := by
  unfold grad
  rw [pvar_above, if_neg hp, if_neg (by omega), sub_self, zero_div]

theorem projection_eq_walls (hd : d ≠ 0) (h : VelocityField g v) {solve : PressureSolver d K}
    {bc : BC d K} {q : GridArray d K} (hq : Returns solve g v bc q) :
    ∃ x, projection v solve = .ok (withData v g x) ∧
      ∀ a i, InR g.shape i → x a i = if (v a).bc.types a = (.dirichlet, .dirichlet) ∧ i a + 1 = g.shape a then
        ((v a).bc.constantValues a).2 else (v a).array.data i - grad g v q.data a i := by
  obtain ⟨hbc, hret, hs, hg, ho⟩ := hq
  rw [h.pressureBC hd] at hbc
  injection hbc with hbc
  subst hbc
  obtain ⟨⟨qs, qd⟩, qo, qg⟩ := q
  simp only at hs hg ho
  subst hs hg ho
  obtain ⟨q0, hq0, -⟩ := h.pbc_impose (fun _ => 0)
  obtain ⟨q', hq', he⟩ := h.pbc_impose qd
  obtain ⟨p, hp⟩ := Classical.axiom_of_choice (fun a => shift_above (h.pvar_centered q').1 a)
  have hf : forwardDifferences (pvar qg v q') = .ok _ := seqFin_ok _ _ fun a =>
    forwardDifference_of_shift (hp a).1 (hp a).2.1 (hp a).2.2.1 (hp a).2.2.2.1
  obtain ⟨y, hy⟩ := Classical.axiom_of_choice (fun a => h.impose a (fun i => (v a).array.data i -
    ((p a).data i - q' i) / qg.step a))
  refine ⟨y, ?_, fun a i hi => ?_⟩
  · unfold projection
    rw [show consistentGrid (List.ofFn fun a => (v a).array) = .ok qg from uniqueOr_eq_ok.2
      ⟨by simp [List.ofFn_eq_nil_iff, hd], by
        intro x hx
        obtain ⟨a, rfl⟩ := List.mem_ofFn.1 hx
        exact (h.2.1 a).1⟩, Except.bind_ok, h.pressureBC hd, Except.bind_ok, hq0, Except.bind_ok, hret _ hq0,
      Except.bind_ok, hq', Except.bind_ok, hf, Except.bind_ok]
    refine seqFin_ok _ _ fun a => ?_
    obtain ⟨vg, vs, vo⟩ := h.2.1 a
    have : (v a).array = ⟨⟨qg.shape, (v a).array.data⟩, (v a).array.offset, qg⟩ := by
      conv_rhs => rw [← vs, ← vg]
    rw [gmap2_ok (u := (v a).array) vs (by
        funext b
        rw [vo b]
        by_cases hb : b = a
        · subst hb; simp [pvar]; norm_num
        · simp [pvar, hb]) (by exact vg), Except.bind_ok]
    refine Eq.trans ?_ (hy a).1
    rw [this]
    rfl
  · rw [(hy a).2 i hi]
    have hA : (p a).data i = (pvar qg v qd).above a i := by
      rw [(hp a).2.2.2.2 i hi]; exact above_congr he a hi
    by_cases hc : (v a).bc.types a = (.dirichlet, .dirichlet) ∧ i a + 1 = qg.shape a
    · rw [if_pos hc, if_pos hc]
    · rw [if_neg hc, if_neg hc, hA, he i hi]; rfl

theorem projection_eq (hd : d ≠ 0) (h : VelocityField g v) (hw : WallsStored v) {solve : PressureSolver d K}
    {bc : BC d K} {q : GridArray d K} (hq : Returns solve g v bc q) :
    ∃ x, projection v solve = .ok (withData v g x) ∧
      ∀ a i, InR g.shape i → x a i = (v a).array.data i - grad g v q.data a i := by
  obtain ⟨x, hx, hxe⟩ := projection_eq_walls hd h hq
  refine ⟨x, hx, fun a i hi => ?_⟩
  rw [hxe a i hi]
  by_cases hc : (v a).bc.types a = (.dirichlet, .dirichlet) ∧ i a + 1 = g.shape a
  · rw [if_pos hc, grad_wall _ a (by rw [hc.1]; decide) hc.2, sub_zero,
      hw a i (by rw [(h.2.1 a).2.1]; exact hi) hc.1 (by rw [(h.2.1 a).2.1]; exact hc.2)]
  · rw [if_neg hc]

theorem grad_below (q : Idx d → K) (a : Fin d) (i : Idx d) (hi : InR g.shape i) :
    (if (v a).bc.types a = (.periodic, .periodic) then grad g v q a (rollIdx g.shape a (-1) i)
      else if 0 < i a then grad g v q a (Function.update i a (i a - 1)) else 0) =
      (q i - (pvar g v q).below a i) / g.step a := by
  unfold grad
  simp only [pvar_above, pvar_below]
  by_cases hp : (v a).bc.types a = (.periodic, .periodic)
  · simp only [hp, if_true]
    rw [rollIdx_add, show (-1 + 1 : ℤ) = 0 by norm_num, rollIdx_zero hi]
  · simp only [hp, if_false]
    by_cases h0 : 0 < i a
    · have := hi a
      rw [if_pos h0, if_pos h0, Function.update_self, if_pos (by omega)]
      simp
    · rw [if_neg h0, if_neg h0, sub_self, zero_div]

/-- Summation by parts on the staggered grid. -/
theorem by_parts (s : Fin d → ℕ) (per : Prop) [Decidable per] (a : Fin d) (x q : Idx d → K)
    (hx : ¬ per → ∀ i, InR s i → i a + 1 = s a → x i = 0) :
    ∑ i ∈ box s, x i * ((if per then q (rollIdx s a 1 i)
      else if i a + 1 < s a then q (Function.update i a (i a + 1)) else q i) - q i) =
    - ∑ i ∈ box s, q i * (x i - (if per then x (rollIdx s a (-1) i)
      else if 0 < i a then x (Function.update i a (i a - 1)) else 0)) := by
  by_cases hp : per
  · simp only [hp, if_true, mul_sub, Finset.sum_sub_distrib]
    rw [sum_mul_roll s a (-1) q x, neg_neg,
      Finset.sum_congr rfl (fun i _ => mul_comm (q (rollIdx s a 1 i)) (x i)),
      Finset.sum_congr rfl (fun i _ => mul_comm (q i) (x i))]
    ring
  · simp only [hp, if_false]
    have e1 : ∑ i ∈ box s, x i * ((if i a + 1 < s a then q (Function.update i a (i a + 1)) else q i) - q i) =
        ∑ i ∈ box s, (if i a + 1 < s a then x i * q (Function.update i a (i a + 1)) else 0) -
          ∑ i ∈ box s, x i * q i := by
      rw [← Finset.sum_sub_distrib]
      refine Finset.sum_congr rfl fun i hi => ?_
      have hi := mem_box.1 hi
      by_cases hl : i a + 1 < s a
      · simp only [hl, if_true]; ring
      · have := hi a
        rw [hx hp i hi (by omega)]; simp
    rw [e1, sum_faces s a (fun i => x i * q (Function.update i a (i a + 1))), ← Finset.sum_sub_distrib,
      ← Finset.sum_neg_distrib]
    refine Finset.sum_congr rfl fun i _ => ?_
    by_cases h0 : 0 < i a
    · simp [h0]; ring
    · simp [h0]; ring

end VelocityField

open VelocityField

/-- The solver is called once. -/
theorem projection_const (hd : d ≠ 0) {g : Grid d K} {v : Fin d → GridVariable d K} (h : VelocityField g v) {solve : PressureSolver d K}
    {bc : BC d K} {q : GridArray d K} (hq : Returns solve g v bc q) : projection v solve = projection v fun _ _ _ => .ok q := by
  have hbc := h.pressureBC hd
  rw [hq.1] at hbc
  obtain ⟨q0, hq0, -⟩ := h.pbc_impose (fun _ => 0)
  rw [← Except.ok.inj hbc] at hq0
  unfold projection
  rw [show consistentGrid (List.ofFn fun a => (v a).array) = .ok g from uniqueOr_eq_ok.2
      ⟨by simp [List.ofFn_eq_nil_iff, hd], by
        intro x hx
        obtain ⟨a, rfl⟩ := List.mem_ofFn.1 hx
        exact (h.2.1 a).1⟩, Except.bind_ok, Except.bind_ok, hq.1, Except.bind_ok, Except.bind_ok, hq0, Except.bind_ok,
        Except.bind_ok, hq.2.1 _ hq0]

/-- **C33** For every solver, exact or not, that returns a cell-centred array `q`: the projection succeeds; it changes neither
grid, offsets, shapes nor boundary conditions, keeps the prescribed wall values, and the divergence of the result is exactly
the residual of the Poisson equation, `divergence(projection(v)) = divergence(v) - laplacian(q)`, at every cell. -/
theorem C33_residual (hd : d ≠ 0) (g : Grid d K) (v : Fin d → GridVariable d K) (h : VelocityField g v)
    (hw : WallsStored v) (solve : PressureSolver d K) (bc : BC d K) (q : GridArray d K)
    (hq : Returns solve g v bc q) :
    ∃ w D D' L, projection v solve = .ok w ∧ VelocityField g w ∧ WallsStored w ∧ (∀ a, (w a).bc = (v a).bc) ∧
      divergence (List.ofFn v) = .ok D ∧ divergence (List.ofFn w) = .ok D' ∧ laplacian ⟨q, bc⟩ = .ok L ∧
      D.shape = g.shape ∧ D'.shape = g.shape ∧ L.shape = g.shape ∧
      ∀ i, InR g.shape i → D'.data i = D.data i - L.data i := by
  obtain ⟨x, hx, hxe⟩ := projection_eq hd h hw hq
  have hW := h.withData_field x
  obtain ⟨D, hD, hDe⟩ := h.divergence_eq hd
  obtain ⟨D', hD', hDe'⟩ := hW.divergence_eq hd
  obtain ⟨hbc, hret, hs, hg, ho⟩ := hq
  rw [h.pressureBC hd] at hbc
  injection hbc with hbc
  subst hbc
  obtain ⟨⟨qs, qd⟩, qo, qg⟩ := q
  simp only at hs hg ho
  subst hs hg ho
  obtain ⟨L, hL, hLs, hLe⟩ := laplacian_supported (pvar qg v qd) (h.pvar_centered qd).1
  refine ⟨_, _, _, L, hx, hW, ?_, fun _ => rfl, hD, hD', hL, rfl, rfl, hLs, fun i hi => ?_⟩
  · intro a i hi ht hl
    refine (hxe a i hi).trans ?_
    rw [grad_wall _ a (by exact fun e => by rw [show (v a).bc.types a = _ from ht] at e; cases e) hl, sub_zero]
    exact hw a i (by rw [(h.2.1 a).2.1]; exact hi) ht (by rw [(h.2.1 a).2.1]; exact hl)
  · dsimp only
    rw [hDe i hi, hDe' i hi, hLe i hi, ← Finset.sum_sub_distrib]
    refine Finset.sum_congr rfl fun a _ => ?_
    have hb : (withData v qg x a).below a i = (v a).below a i - (qd i - (pvar qg v qd).below a i) / qg.step a := by
      rw [← grad_below qd a i hi, hW.below_normal, h.below_normal]
      show (if (v a).bc.types a = (.periodic, .periodic) then x a (rollIdx qg.shape a (-1) i)
        else if 0 < i a then x a (Function.update i a (i a - 1)) else ((v a).bc.constantValues a).1) = _
      by_cases hp : (v a).bc.types a = (.periodic, .periodic)
      · simp only [hp, if_true]
        exact hxe a _ (rollIdx_inR hi a (-1))
      · simp only [hp, if_false]
        by_cases h0 : 0 < i a
        · simp only [h0, if_true]
          have := hi a
          exact hxe a _ (hi.update a (by omega) (by omega))
        · simp only [h0, if_false, sub_zero]
    rw [hb, show (withData v qg x a).array.data i = x a i from rfl, hxe a i hi]
    show (_ - _ - _) / qg.step a = _ - (_ + _ - 2 * qd i) / qg.step a ^ 2
    unfold grad
    ring

/-- **C33** (a caveat of the code).  If the values stored on the upper walls are not the prescribed ones (`projection` does not impose them
before solving), then the wall values are corrected after the solve, and the divergence of the result is off by exactly that correction:
`divergence(projection(v)) = divergence(v) - laplacian(q) - (stored - prescribed wall velocity) / h` in the cells next to the upper walls. -/
theorem C33_unimposed_walls (hd : d ≠ 0) (g : Grid d K) (v : Fin d → GridVariable d K) (h : VelocityField g v)
    (solve : PressureSolver d K) (bc : BC d K) (q : GridArray d K) (hq : Returns solve g v bc q) :
    ∃ w D D' L, projection v solve = .ok w ∧ VelocityField g w ∧ WallsStored w ∧ (∀ a, (w a).bc = (v a).bc) ∧
      divergence (List.ofFn v) = .ok D ∧ divergence (List.ofFn w) = .ok D' ∧ laplacian ⟨q, bc⟩ = .ok L ∧
      D.shape = g.shape ∧ D'.shape = g.shape ∧ L.shape = g.shape ∧
      ∀ i, InR g.shape i → D'.data i = D.data i - L.data i - ∑ a : Fin d,
        if (v a).bc.types a = (.dirichlet, .dirichlet) ∧ i a + 1 = g.shape a then
          ((v a).array.data i - ((v a).bc.constantValues a).2) / g.step a else 0 := by
  obtain ⟨x, hx, hxe⟩ := projection_eq_walls hd h hq
  have hW := h.withData_field x
  obtain ⟨D, hD, hDe⟩ := h.divergence_eq hd
  obtain ⟨D', hD', hDe'⟩ := hW.divergence_eq hd
  obtain ⟨hbc, hret, hs, hg, ho⟩ := hq
  rw [h.pressureBC hd] at hbc
  injection hbc with hbc
  subst hbc
  obtain ⟨⟨qs, qd⟩, qo, qg⟩ := q
  simp only at hs hg ho
  subst hs hg ho
  obtain ⟨L, hL, hLs, hLe⟩ := laplacian_supported (pvar qg v qd) (h.pvar_centered qd).1
  refine ⟨_, _, _, L, hx, hW, ?_, fun _ => rfl, hD, hD', hL, rfl, rfl, hLs, fun i hi => ?_⟩
  · intro a i hi ht hl
    refine (hxe a i hi).trans ?_
    rw [if_pos ⟨ht, hl⟩]
    rfl
  · dsimp only
    rw [hDe i hi, hDe' i hi, hLe i hi, ← Finset.sum_sub_distrib, ← Finset.sum_sub_distrib]
    refine Finset.sum_congr rfl fun a _ => ?_
    have hb : (withData v qg x a).below a i = (v a).below a i - (qd i - (pvar qg v qd).below a i) / qg.step a := by
      rw [← grad_below qd a i hi, hW.below_normal, h.below_normal]
      show (if (v a).bc.types a = (.periodic, .periodic) then x a (rollIdx qg.shape a (-1) i)
        else if 0 < i a then x a (Function.update i a (i a - 1)) else ((v a).bc.constantValues a).1) = _
      by_cases hp : (v a).bc.types a = (.periodic, .periodic)
      · simp only [hp, if_true]
        rw [hxe a _ (rollIdx_inR hi a (-1)), if_neg (by rintro ⟨e, -⟩; rw [hp] at e; cases e)]
      · simp only [hp, if_false]
        by_cases h0 : 0 < i a
        · simp only [h0, if_true]
          have := hi a
          rw [hxe a _ (hi.update a (by omega) (by omega)), if_neg (by
            rintro ⟨-, e⟩
            rw [Function.update_self] at e
            omega)]
        · simp only [h0, if_false, sub_zero]
    rw [hb, show (withData v qg x a).array.data i = x a i from rfl, hxe a i hi]
    show _ = _ - (_ + _ - 2 * qd i) / qg.step a ^ 2 - _
    by_cases hc : (v a).bc.types a = (.dirichlet, .dirichlet) ∧ i a + 1 = qg.shape a
    · rw [if_pos hc, if_pos hc]
      have hg := grad_wall qd a (i := i) (g := qg) (v := v) (by rw [hc.1]; decide) hc.2
      have hg2 : ((pvar qg v qd).above a i - qd i) / qg.step a ^ 2 = 0 := by
        unfold grad at hg
        rw [sq, ← div_div, hg, zero_div]
      linear_combination hg2
    · rw [if_neg hc, if_neg hc]
      unfold grad
      ring

/-- The returned pressure solves the Poisson equation: `laplacian(q) = divergence(v)` at every cell. -/
def SolvesPoisson (v : Fin d → GridVariable d K) (bc : BC d K) (q : GridArray d K) : Prop :=
  ∃ L D, laplacian ⟨q, bc⟩ = .ok L ∧ divergence (List.ofFn v) = .ok D ∧ ∀ i, InR q.shape i → L.data i = D.data i

/-- The field has zero divergence at every cell. -/
def DivergenceFree (g : Grid d K) (v : Fin d → GridVariable d K) : Prop :=
  ∃ D, divergence (List.ofFn v) = .ok D ∧ ∀ i, InR g.shape i → D.data i = 0

/-- **C33** With a solver that solves the Poisson equation the projected field is divergence free at every cell, for every
velocity field and every combination of periodic axes and walls. -/
theorem C33_divergence_free (hd : d ≠ 0) (g : Grid d K) (v : Fin d → GridVariable d K) (h : VelocityField g v)
    (hw : WallsStored v) (solve : PressureSolver d K) (bc : BC d K) (q : GridArray d K)
    (hq : Returns solve g v bc q) (hsol : SolvesPoisson v bc q) :
    ∃ w, projection v solve = .ok w ∧ VelocityField g w ∧ WallsStored w ∧ DivergenceFree g w := by
  obtain ⟨w, D, D', L, h1, h2, h3, -, h5, h6, h7, -, -, -, h8⟩ := C33_residual hd g v h hw solve bc q hq
  obtain ⟨L0, D0, e1, e2, e3⟩ := hsol
  rw [h7] at e1
  rw [h5] at e2
  injection e1 with e1
  injection e2 with e2
  subst e1 e2
  exact ⟨w, h1, h2, h3, D', h6, fun i hi => by rw [h8 i hi, e3 i (by rw [hq.2.2.1]; exact hi), sub_self]⟩

section Ordered
variable {F : Type} [Field F] [LinearOrder F] [IsStrictOrderedRing F] [HasNan F]

theorem VelocityField.grad_energy {g : Grid d F} {v : Fin d → GridVariable d F} (q : Idx d → F) :
    ∑ a, ∑ i ∈ box g.shape, grad g v q a i ^ 2 =
      - ∑ i ∈ box g.shape, q i * ∑ a, ((pvar g v q).above a i + (pvar g v q).below a i - 2 * q i) / g.step a ^ 2 := by
  simp only [Finset.mul_sum]
  rw [Finset.sum_comm (s := box g.shape), ← Finset.sum_neg_distrib]
  refine Finset.sum_congr rfl fun a _ => ?_
  have := by_parts g.shape ((v a).bc.types a = (.periodic, .periodic)) a (grad g v q a) q
    (fun hp i _ hl => grad_wall q a hp hl)
  simp only [← pvar_above] at this
  have e : ∑ i ∈ box g.shape, grad g v q a i ^ 2 =
      (∑ i ∈ box g.shape, grad g v q a i * ((pvar g v q).above a i - q i)) / g.step a := by
    rw [Finset.sum_div]
    exact Finset.sum_congr rfl fun i _ => by unfold grad; ring
  rw [e, this, ← Finset.sum_neg_distrib, ← Finset.sum_neg_distrib, Finset.sum_div]
  exact Finset.sum_congr rfl fun i hi => by rw [grad_below q a i (mem_box.1 hi)]; unfold grad; ring

/-- **C33** A field that is already divergence free is left unchanged by the projection with an exact solver. -/
theorem C33_fixes_divergence_free (hd : d ≠ 0) (g : Grid d F) (v : Fin d → GridVariable d F) (h : VelocityField g v)
    (hw : WallsStored v) (solve : PressureSolver d F) (bc : BC d F) (q : GridArray d F)
    (hq : Returns solve g v bc q) (hsol : SolvesPoisson v bc q) (hdiv : DivergenceFree g v) :
    ∃ w, projection v solve = .ok w ∧ ∀ a, (w a).bc = (v a).bc ∧ (w a).array.offset = (v a).array.offset ∧
      (w a).array.grid = (v a).array.grid ∧ (w a).array.shape = (v a).array.shape ∧
      ∀ i, InR g.shape i → (w a).array.data i = (v a).array.data i := by
  obtain ⟨x, hx, hxe⟩ := projection_eq hd h hw hq
  refine ⟨_, hx, fun a => ⟨rfl, rfl, (h.2.1 a).1.symm, (h.2.1 a).2.1.symm, fun i hi => (hxe a i hi).trans ?_⟩⟩
  obtain ⟨hbc, hret, hs, hg, ho⟩ := hq
  rw [h.pressureBC hd] at hbc
  injection hbc with hbc
  subst hbc
  obtain ⟨⟨qs, qd⟩, qo, qg⟩ := q
  simp only at hs hg ho
  subst hs hg ho
  obtain ⟨L, hL, hLs, hLe⟩ := laplacian_supported (pvar qg v qd) (h.pvar_centered qd).1
  obtain ⟨L0, D0, e1, e2, e3⟩ := hsol
  obtain ⟨D, hD, hD0⟩ := hdiv
  have e1' : laplacian (pvar qg v qd) = .ok L0 := e1
  rw [hL] at e1'
  rw [hD] at e2
  injection e1' with e1'
  injection e2 with e2
  subst e1' e2
  have hz : ∑ a, ∑ i ∈ box qg.shape, grad qg v qd a i ^ 2 = 0 := by
    rw [grad_energy, neg_eq_zero]
    refine Finset.sum_eq_zero fun j hj => ?_
    have := hLe j (mem_box.1 hj)
    rw [e3 j (mem_box.1 hj), hD0 j (mem_box.1 hj)] at this
    rw [show (∑ a, ((pvar qg v qd).above a j + (pvar qg v qd).below a j - 2 * qd j) / qg.step a ^ 2) = 0
      from this.symm, mul_zero]
  have h1 := (Finset.sum_eq_zero_iff_of_nonneg (fun a _ => Finset.sum_nonneg fun i _ => sq_nonneg _)).1 hz a
    (Finset.mem_univ _)
  have h2 := (Finset.sum_eq_zero_iff_of_nonneg (fun i _ => sq_nonneg _)).1 h1 i (mem_box.2 hi)
  rw [pow_eq_zero_iff two_ne_zero] at h2
  rw [h2, sub_zero]

/-- **C33** Projecting twice is projecting once (with solvers that are exact on the two fields). -/
theorem C33_idempotent (hd : d ≠ 0) (g : Grid d F) (v w : Fin d → GridVariable d F) (h : VelocityField g v)
    (hw : WallsStored v) (solve : PressureSolver d F) (bc bc' : BC d F) (q q' : GridArray d F)
    (hq : Returns solve g v bc q) (hsol : SolvesPoisson v bc q) (hp : projection v solve = .ok w)
    (hq' : Returns solve g w bc' q') (hsol' : SolvesPoisson w bc' q') :
    ∃ w', projection w solve = .ok w' ∧ ∀ a, (w' a).bc = (w a).bc ∧ (w' a).array.offset = (w a).array.offset ∧
      (w' a).array.grid = (w a).array.grid ∧ (w' a).array.shape = (w a).array.shape ∧
      ∀ i, InR g.shape i → (w' a).array.data i = (w a).array.data i := by
  obtain ⟨w0, e, h2, h3, h4⟩ := C33_divergence_free hd g v h hw solve bc q hq hsol
  rw [hp] at e
  injection e with e
  subst e
  exact C33_fixes_divergence_free hd g w h2 h3 solve bc' q' hq' hsol' h4

/-- **C33** The projection is orthogonal: when no wall is crossed by the flow (the normal wall velocities are 0), the kinetic
energy of the result plus that of the removed gradient is the kinetic energy before; in particular the projection never
increases the kinetic energy. -/
theorem C33_energy (hd : d ≠ 0) (g : Grid d F) (v : Fin d → GridVariable d F) (h : VelocityField g v)
    (hw : WallsStored v)
    (hclosed : ∀ a, (v a).bc.types a = (.periodic, .periodic) ∨ (v a).bc.bcValues a = (some 0, some 0))
    (solve : PressureSolver d F) (bc : BC d F) (q : GridArray d F)
    (hq : Returns solve g v bc q) (hsol : SolvesPoisson v bc q) :
    ∃ w G, projection v solve = .ok w ∧ forwardDifferences ⟨q, bc⟩ = .ok G ∧
      ∑ a, inner (v a).array.toNArr (v a).array.toNArr =
        ∑ a, inner (w a).array.toNArr (w a).array.toNArr + ∑ a, inner (G a).toNArr (G a).toNArr ∧
      ∑ a, inner (w a).array.toNArr (w a).array.toNArr ≤ ∑ a, inner (v a).array.toNArr (v a).array.toNArr := by
  obtain ⟨w0, e, hWF, hWS, D, hD, hD0⟩ := C33_divergence_free hd g v h hw solve bc q hq hsol
  obtain ⟨x, hx, hxe⟩ := projection_eq hd h hw hq
  rw [hx] at e
  injection e with e
  subst e
  obtain ⟨D', hD', hDe⟩ := hWF.divergence_eq hd
  rw [hD] at hD'
  injection hD' with hD'
  subst hD'
  obtain ⟨hbc, hret, hs, hg, ho⟩ := hq
  rw [h.pressureBC hd] at hbc
  injection hbc with hbc
  subst hbc
  obtain ⟨⟨qs, qd⟩, qo, qg⟩ := q
  simp only at hs hg ho
  subst hs hg ho
  obtain ⟨p, hp⟩ := Classical.axiom_of_choice (fun a => shift_above (h.pvar_centered qd).1 a)
  have hf : forwardDifferences (pvar qg v qd) = .ok _ := seqFin_ok _ _ fun a =>
    forwardDifference_of_shift (hp a).1 (hp a).2.1 (hp a).2.2.1 (hp a).2.2.2.1
  have key : ∑ a, ∑ i ∈ box qg.shape, (v a).array.data i * (v a).array.data i =
      ∑ a, ∑ i ∈ box qg.shape, x a i * x a i + ∑ a, ∑ i ∈ box qg.shape, grad qg v qd a i * grad qg v qd a i := by
    have ort : ∑ a, ∑ i ∈ box qg.shape, x a i * grad qg v qd a i = 0 := by
      have : ∀ a, ∑ i ∈ box qg.shape, x a i * grad qg v qd a i =
          - ∑ i ∈ box qg.shape, qd i * ((x a i - (withData v qg x a).below a i) / qg.step a) := by
        intro a
        have hwall : ¬ (v a).bc.types a = (.periodic, .periodic) → ∀ i, InR qg.shape i → i a + 1 = qg.shape a → x a i = 0 := by
          intro hp i hi hl
          rw [hxe a i hi, grad_wall qd a hp hl, sub_zero]
          have hdir : (v a).bc.types a = (.dirichlet, .dirichlet) := by
            rcases h.2.2 a with e | e
            · exact absurd (e a) hp
            · exact e.1
          rw [hw a i (by rw [(h.2.1 a).2.1]; exact hi) hdir (by rw [(h.2.1 a).2.1]; exact hl)]
          rcases hclosed a with e | e
          · exact absurd e hp
          · simp [BC.constantValues, e]
        have hbp := by_parts qg.shape ((v a).bc.types a = (.periodic, .periodic)) a (x a) qd hwall
        simp only [← pvar_above] at hbp
        have e : ∑ i ∈ box qg.shape, x a i * grad qg v qd a i =
            (∑ i ∈ box qg.shape, x a i * ((pvar qg v qd).above a i - qd i)) / qg.step a := by
          rw [Finset.sum_div]
          exact Finset.sum_congr rfl fun i _ => by unfold grad; ring
        rw [e, hbp, ← Finset.sum_neg_distrib, ← Finset.sum_neg_distrib, Finset.sum_div]
        refine Finset.sum_congr rfl fun i _ => ?_
        rw [hWF.below_normal]
        show _ = -(qd i * ((x a i - (if (v a).bc.types a = (.periodic, .periodic) then x a (rollIdx qg.shape a (-1) i)
          else if 0 < i a then x a (Function.update i a (i a - 1)) else ((v a).bc.constantValues a).1)) / qg.step a))
        by_cases hp : (v a).bc.types a = (.periodic, .periodic)
        · simp only [hp, if_true]; ring
        · have hcv : ((v a).bc.constantValues a).1 = 0 := by
            rcases hclosed a with e | e
            · exact absurd e hp
            · simp [BC.constantValues, e]
          simp only [hp, if_false, hcv]; ring
      rw [Finset.sum_congr rfl fun a _ => this a, Finset.sum_neg_distrib, neg_eq_zero, Finset.sum_comm]
      refine Finset.sum_eq_zero fun i hi => ?_
      rw [← Finset.mul_sum]
      have := hDe i (mem_box.1 hi)
      rw [show D' i = 0 from hD0 i (mem_box.1 hi)] at this
      rw [show (∑ a, (x a i - (withData v qg x a).below a i) / qg.step a) = 0 from this.symm, mul_zero]
    have h2 : ∀ a, ∑ i ∈ box qg.shape, (v a).array.data i * (v a).array.data i =
        ∑ i ∈ box qg.shape, x a i * x a i + 2 * ∑ i ∈ box qg.shape, x a i * grad qg v qd a i +
          ∑ i ∈ box qg.shape, grad qg v qd a i * grad qg v qd a i := by
      intro a
      rw [Finset.mul_sum, ← Finset.sum_add_distrib, ← Finset.sum_add_distrib]
      refine Finset.sum_congr rfl fun i hi => ?_
      rw [hxe a i (mem_box.1 hi)]
      ring
    simp only [h2, Finset.sum_add_distrib, ← Finset.mul_sum, ort]
    ring
  have hv : ∑ a, inner (v a).array.toNArr (v a).array.toNArr =
      ∑ a, ∑ i ∈ box qg.shape, (v a).array.data i * (v a).array.data i :=
    Finset.sum_congr rfl fun a _ => by unfold inner; rw [(h.2.1 a).2.1]
  have hG : ∀ a i, InR qg.shape i → ((p a).data i - qd i) / qg.step a = grad qg v qd a i := by
    intro a i hi
    rw [(hp a).2.2.2.2 i hi]; rfl
  refine ⟨_, _, hx, hf, ?_, ?_⟩
  · rw [hv, key]
    refine congrArg₂ _ rfl (Finset.sum_congr rfl fun a _ => ?_)
    exact Finset.sum_congr rfl fun i hi => by rw [← hG a i (mem_box.1 hi)]; rfl
  · rw [hv, key]
    refine le_add_of_nonneg_right (Finset.sum_nonneg fun a _ => Finset.sum_nonneg fun i _ => mul_self_nonneg _)

end Ordered

/-! ## The hypotheses are met by concrete data -/

namespace Fixtures

/-- a channel flow on `g34`: periodic along x, walls at the ends of y; no flow through the walls -/
def chan (a : Fin 2) : GridVariable 2 ℚ :=
  ⟨⟨⟨![3, 4], fun i => if a = 0 then (i 0 : ℚ) * (i 1 : ℚ) else if i 1 = 3 then 0 else (i 0 : ℚ)⟩,
    fun b => if b = a then 1 else 1 / 2, g34⟩,
    ⟨.homogeneous, fun b => if b = 0 then (.periodic, .periodic) else (.dirichlet, .dirichlet), fun _ => (some 0, some 0)⟩⟩

theorem chan_field : VelocityField g34 chan := by
  refine ⟨fun b => by fin_cases b <;> simp [g34], fun a => ⟨rfl, rfl, fun b => rfl⟩, fun b => ?_⟩
  fin_cases b
  · left; intro c; rfl
  · right; exact ⟨rfl, fun c => ⟨Or.inl rfl, Or.inl rfl⟩⟩

theorem chan_walls : WallsStored chan := by
  intro a i hi ht hl
  have : a = 1 := by
    fin_cases a
    · exact absurd ht (by decide)
    · rfl
  subst this
  have h3 : i 1 = 3 := by
    have : ((chan 1).array.shape 1 : ℤ) = 4 := rfl
    omega
  simp [chan, BC.constantValues, h3]

/-- A solver that returns the zero pressure: `C33_residual` applies, also to a solver that is not exact. -/
example : Returns (fun _ _ _ => .ok ⟨⟨g34.shape, fun _ => 0⟩, fun _ => 1 / 2, g34⟩) g34 chan (pbc chan)
    ⟨⟨g34.shape, fun _ => 0⟩, fun _ => 1 / 2, g34⟩ :=
  ⟨chan_field.pressureBC (by norm_num), fun _ _ => rfl, rfl, rfl, rfl⟩

/-- a periodic one-dimensional field with non-zero divergence, and the pressure that solves the Poisson equation -/
def line (a : Fin 1) : GridVariable 1 ℚ :=
  ⟨⟨⟨fun _ => 4, fun i => if i 0 = 0 then 1 else if i 0 = 2 then -1 else 0⟩, fun b => if b = a then 1 else 1 / 2, g4⟩, bcPer⟩

def lineQ : GridArray 1 ℚ := ⟨⟨fun _ => 4, fun i => if i 0 = 1 ∨ i 0 = 2 then 1 / 2 else 0⟩, fun _ => 1 / 2, g4⟩

theorem line_field : VelocityField g4 line :=
  ⟨fun b => by simp [g4], fun a => ⟨rfl, rfl, fun b => rfl⟩, fun b => Or.inl fun c => rfl⟩

theorem line_walls : WallsStored line := fun a i _ ht _ => absurd ht (show ¬ ((BCType.periodic, BCType.periodic) = (BCType.dirichlet, BCType.dirichlet)) by decide)

example : Returns (fun _ _ _ => .ok lineQ) g4 line (pbc line) lineQ ∧ SolvesPoisson line (pbc line) lineQ ∧
    ¬ DivergenceFree g4 line := by
  have hdv := line_field.divergence_eq (by norm_num)
  obtain ⟨D, hD, hDe⟩ := hdv
  obtain ⟨L, hL, hLs, hLe⟩ := laplacian_supported (pvar g4 line lineQ.data) (line_field.pvar_centered lineQ.data).1
  refine ⟨⟨line_field.pressureBC (by norm_num), fun _ _ => rfl, rfl, rfl, rfl⟩, ⟨L, _, hL, hD, fun i hi => ?_⟩, ?_⟩
  · have hi' : InR g4.shape i := hi
    refine (hLe i hi').trans ((?_ : _ = _).trans (hDe i hi').symm)
    have h0 := hi 0
    have h4 : ((lineQ.shape 0 : ℕ) : ℤ) = 4 := rfl
    rw [h4] at h0
    have : i 0 = 0 ∨ i 0 = 1 ∨ i 0 = 2 ∨ i 0 = 3 := by omega
    rw [Fin.sum_univ_one, Fin.sum_univ_one, pvar_above, pvar_below, line_field.below_normal]
    rcases this with e | e | e | e <;>
      simp [pvar, line, lineQ, bcPer, rollIdx, g4, Grid.step, e] <;> norm_num
  · rintro ⟨D', hD', h0⟩
    rw [hD] at hD'
    injection hD' with hD'
    have hz : InR g4.shape (fun _ : Fin 1 => (0 : ℤ)) := fun a => ⟨le_rfl, by simp [g4]⟩
    have := hDe _ hz
    have h1 : D (fun _ => 0) = 0 := by have := h0 _ hz; rw [← hD'] at this; exact this
    rw [h1, Fin.sum_univ_one, line_field.below_normal] at this
    simp [line, bcPer, rollIdx, g4, Grid.step] at this
    norm_num at this

end Fixtures

end JaxCfd
