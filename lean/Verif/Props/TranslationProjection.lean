import Verif.Props.TranslationAdvection
import Verif.Props.ImplicitNS

/-!
# C68: projections and time steps commute with translations of periodic velocity fields
-/

namespace JaxCfd
variable {d : ℕ} {t : Idx d}

/-- A velocity field translated by `t` cells. -/
def FieldTranslated (t : Idx d) (u v : Fin d → GridVariable d ℝ) : Prop := ∀ a, (u a).Translated t (v a)

/-- The function of periodic velocity fields on `g` commutes with the translation by `t` cells, including the exceptions it raises. -/
def CommutesWithTranslation (g : Grid d ℝ) (t : Idx d) (f : (Fin d → GridVariable d ℝ) → Except Err (Fin d → GridVariable d ℝ)) : Prop :=
  ∀ u u', PeriodicField g u → FieldTranslated t u u' → RelE (FieldTranslated t) (f u) (f u')

/-- The same for functions that return tendencies. -/
def TendencyCommutes (g : Grid d ℝ) (t : Idx d) (f : (Fin d → GridVariable d ℝ) → Except Err (Fin d → GridArray d ℝ)) : Prop :=
  ∀ u u', PeriodicField g u → FieldTranslated t u u' → RelE (fun r s => ∀ a, (r a).Translated t (s a)) (f u) (f u')

section
variable [HasNan ℝ]

theorem FieldTranslated.periodicField {g : Grid d ℝ} {u v : Fin d → GridVariable d ℝ} (h : FieldTranslated t u v) (hu : PeriodicField g u) : PeriodicField g v :=
  SameLayout.periodicField hu fun a => ⟨(h a).2.2.1, (h a).2.2.2.1, (h a).1, (h a).2.2.2.2.2.1⟩

open VelocityField in
/-- **C33** The projection does not depend on the solver: any two solvers that solve the pressure equation give the same projected field. -/
theorem C33_solver_independent (hd : d ≠ 0) (g : Grid d ℝ) (v : Fin d → GridVariable d ℝ) (h : VelocityField g v) (hw : WallsStored v)
    (solve solve' : PressureSolver d ℝ) (bc bc' : BC d ℝ) (q q' : GridArray d ℝ) (hq : Returns solve g v bc q) (hsol : SolvesPoisson v bc q)
    (hq' : Returns solve' g v bc' q') (hsol' : SolvesPoisson v bc' q') :
    ∃ w w', projection v solve = .ok w ∧ projection v solve' = .ok w' ∧ ∀ a, (w' a).bc = (w a).bc ∧ (w' a).array.offset = (w a).array.offset ∧
      (w' a).array.grid = (w a).array.grid ∧ (w' a).array.shape = (w a).array.shape ∧ (w a).array.shape = g.shape ∧
      ∀ i, InR g.shape i → (w' a).array.data i = (w a).array.data i := by
  obtain ⟨x, hx, hxe⟩ := projection_eq hd h hw hq
  obtain ⟨x', hx', hxe'⟩ := projection_eq hd h hw hq'
  refine ⟨_, _, hx, hx', fun a => ⟨rfl, rfl, rfl, rfl, rfl, fun i hi => (hxe' a i hi).trans ((hxe a i hi).trans ?_).symm⟩⟩
  obtain ⟨hbc, -, hs, hg, ho⟩ := hq
  obtain ⟨hbc', -, hs', hg', ho'⟩ := hq'
  rw [h.pressureBC hd] at hbc hbc'
  injection hbc with hbc
  injection hbc' with hbc'
  subst hbc hbc'
  obtain ⟨⟨qs, qd⟩, qo, qg0⟩ := q
  obtain ⟨⟨qs', qd'⟩, qo', qg⟩ := q'
  simp only at hs hg ho hs' hg' ho'
  subst hs hg ho hs' hg' ho'
  obtain ⟨L, hL, hLs, hLe⟩ := laplacian_supported (pvar qg v qd) (h.pvar_centered qd).1
  obtain ⟨L', hL', hLs', hLe'⟩ := laplacian_supported (pvar qg v qd') (h.pvar_centered qd').1
  obtain ⟨L0, D0, e1, e2, e3⟩ := hsol
  obtain ⟨L0', D0', e1', e2', e3'⟩ := hsol'
  have E1 : laplacian (pvar qg v qd) = .ok L0 := e1
  have E1' : laplacian (pvar qg v qd') = .ok L0' := e1'
  rw [hL] at E1
  rw [hL'] at E1'
  rw [e2] at e2'
  injection E1 with E1
  injection E1' with E1'
  injection e2' with e2'
  subst E1 E1' e2'
  have habove : ∀ a i, (pvar qg v fun i => qd i - qd' i).above a i = (pvar qg v qd).above a i - (pvar qg v qd').above a i := by
    intro a i
    rw [pvar_above, pvar_above, pvar_above]
    split_ifs <;> rfl
  have hbelow : ∀ a i, (pvar qg v fun i => qd i - qd' i).below a i = (pvar qg v qd).below a i - (pvar qg v qd').below a i := by
    intro a i
    rw [pvar_below, pvar_below, pvar_below]
    split_ifs <;> rfl
  have hgrad : ∀ a i, grad qg v (fun i => qd i - qd' i) a i = grad qg v qd a i - grad qg v qd' a i := by
    intro a i
    unfold grad
    rw [habove]
    ring
  have hz : ∑ a, ∑ i ∈ box qg.shape, grad qg v (fun i => qd i - qd' i) a i ^ 2 = 0 := by
    rw [grad_energy, neg_eq_zero]
    refine Finset.sum_eq_zero fun j hj => ?_
    have h1 := hLe j (mem_box.1 hj)
    have h2 := hLe' j (mem_box.1 hj)
    rw [e3 j (mem_box.1 hj)] at h1
    rw [e3' j (mem_box.1 hj)] at h2
    have e : (∑ a, ((pvar qg v fun i => qd i - qd' i).above a j + (pvar qg v fun i => qd i - qd' i).below a j - 2 * (qd j - qd' j)) / qg.step a ^ 2) = D0.data j - D0.data j := by
      conv_rhs => rw [h1]
      conv_rhs => 
        arg 2
        rw [← h1, h2]
      rw [← Finset.sum_sub_distrib]
      refine Finset.sum_congr rfl fun a _ => ?_
      rw [habove, hbelow]
      show _ = ((pvar qg v qd).above a j + (pvar qg v qd).below a j - 2 * qd j) / qg.step a ^ 2 - ((pvar qg v qd').above a j + (pvar qg v qd').below a j - 2 * qd' j) / qg.step a ^ 2
      ring
    rw [e, sub_self, mul_zero]
  have h1 := (Finset.sum_eq_zero_iff_of_nonneg (fun a _ => Finset.sum_nonneg fun i _ => sq_nonneg _)).1 hz a (Finset.mem_univ _)
  have h2 := (Finset.sum_eq_zero_iff_of_nonneg (fun i _ => sq_nonneg _)).1 h1 i (mem_box.2 hi)
  rw [pow_eq_zero_iff two_ne_zero, hgrad] at h2
  show (v a).array.data i - grad qg v qd a i = (v a).array.data i - grad qg v qd' a i
  linarith

/-- A pressure solver that commutes with translations. -/
def SolverCommutes (g : Grid d ℝ) (t : Idx d) (solve : PressureSolver d ℝ) : Prop :=
  ∀ u u' q q' bc, PeriodicField g u → FieldTranslated t u u' → q.Translated t q' → RelE (GridArray.Translated t) (solve u q bc) (solve u' q' bc)

omit [HasNan ℝ] in
theorem pressureBC_translated {u u' : Fin d → GridVariable d ℝ} (h : FieldTranslated t u u') : pressureBCFromVelocity (List.ofFn u') = pressureBCFromVelocity (List.ofFn u) := by
  unfold pressureBCFromVelocity consistentBC
  cases d with
  | zero => simp
  | succ n =>
    rw [List.ofFn_succ, List.ofFn_succ]
    dsimp only
    rw [← List.ofFn_succ, ← List.ofFn_succ]
    have : ∀ ax, uniqueOr .bc (fun a => isPeriodicBC a ax) (List.ofFn u') = uniqueOr .bc (fun a => isPeriodicBC a ax) (List.ofFn u) := fun ax =>
      uniqueOr_congr (forall₂_ofFn fun a => by unfold isPeriodicBC; rw [(h a).1])
    simp only [this]

/-- The part of the projection after the solve commutes with translations, for every translated pressure. -/
theorem projection_translated {g : Grid d ℝ} {u u' : Fin d → GridVariable d ℝ} (hu : PeriodicField g u) (h : FieldTranslated t u u') (solve solve' : PressureSolver d ℝ)
    (hs : ∀ q q' bc, pressureBCFromVelocity (List.ofFn u) = .ok bc → q.Translated t q' → RelE (GridArray.Translated t) (solve u q bc) (solve' u' q' bc)) :
    RelE (FieldTranslated t) (projection u solve) (projection u' solve') := by
  unfold projection
  have eg : consistentGrid (List.ofFn fun a => (u' a).array) = consistentGrid (List.ofFn fun a => (u a).array) := uniqueOr_congr (forall₂_ofFn fun a => (h a).grid)
  rw [eg, pressureBC_translated h]
  refine RelE.bind (R := fun g g' => g' = g ∧ consistentGrid (List.ofFn fun a => (u a).array) = .ok g) (RelE.same _ fun g hg => ⟨rfl, hg⟩) fun g1 g' hg => ?_
  obtain ⟨rfl, hg⟩ := hg
  refine RelE.bind (R := fun g g' => g' = g ∧ pressureBCFromVelocity (List.ofFn u) = .ok g) (RelE.same _ fun g hg => ⟨rfl, hg⟩) fun bc bc' hb => ?_
  obtain ⟨rfl, hb⟩ := hb
  obtain ⟨hne, -, -, -, hty⟩ := (C15_pressure_bc _ _).1 hb
  obtain ⟨b0⟩ : Nonempty (Fin d) := by
    rcases Nat.eq_zero_or_pos d with rfl | hd
    · simp at hne
    · exact ⟨⟨0, hd⟩⟩
  have hper : ∀ a, bc'.types a = (.periodic, .periodic) := fun a => (hty a (u b0) (List.mem_ofFn.2 ⟨b0, rfl⟩)).1 (by
    unfold PeriodicAlong
    rw [hu.2 b0]
    rfl)
  have hgu : (u b0).array.grid = g' := (uniqueOr_eq_ok.1 hg).2 _ (List.mem_ofFn.2 ⟨b0, rfl⟩)
  have hpos : ∀ a, 0 < g'.shape a := fun a => by have := (h b0).2.2.2.2.2.2.1 a; rw [(h b0).2.2.2.2.1, hgu] at this; exact this
  refine RelE.bind (GridArray.Translated.imposeBC (t := t) ⟨rfl, rfl, rfl, rfl, hpos, fun _ _ => rfl⟩ bc' hper) fun q0 q0' hq0 => ?_
  refine RelE.bind (hs _ _ _ hb hq0) fun q q' hq => RelE.bind (hq.imposeBC bc' hper) fun qv qv' hqv => ?_
  refine RelE.bind (RelE.seqFin (R := fun _ => GridArray.Translated t) fun a => C68_forward_difference hqv a) fun G G' hG => ?_
  refine RelE.seqFin (R := fun _ => GridVariable.Translated t) fun a => ?_
  rw [(h a).1]
  exact RelE.bind ((h a).2.2.gmap2 (hG a) _) fun w w' hw => hw.imposeBC _ (h a).2.1

end
end JaxCfd
