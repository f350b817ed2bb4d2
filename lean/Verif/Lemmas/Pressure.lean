import Verif.Model.Pressure
import Verif.Props.Wall
import Verif.Props.Impose
import Verif.Props.BCUtils

/-!
Closed forms for the pressure projection on staggered velocity fields.
-/

set_option linter.unusedSectionVars false

namespace JaxCfd
variable {d : ℕ} {K : Type} [Field K] [HasNan K] [DecidableEq K]

namespace VelocityField
variable {g : Grid d K} {v : Fin d → GridVariable d K}

theorem onGrid (h : VelocityField g v) (a : Fin d) (x : Idx d → K) :
    BC.OnGrid (v a).bc ⟨⟨g.shape, x⟩, (v a).array.offset, g⟩ := by
  intro b
  refine ⟨rfl, h.1 b, ?_⟩
  have ho := (h.2.1 a).2.2 b
  have np : ¬ (BCType.neumann = BCType.periodic) := by decide
  have dp : ¬ (BCType.dirichlet = BCType.periodic) := by decide
  rcases h.2.2 b with hp | ⟨hd, hc⟩
  · exact Or.inl (hp a)
  · by_cases hb : b = a
    · subst hb
      rw [if_pos rfl] at ho
      exact Or.inr (Or.inr ⟨hd, Or.inr ho⟩)
    · rw [if_neg hb] at ho
      refine Or.inr (Or.inl ⟨?_, ?_, ho⟩)
      · rcases (hc a).1 with e | e <;> rw [e] <;> decide
      · rcases (hc a).2 with e | e <;> rw [e] <;> decide

theorem supported (h : VelocityField g v) (a : Fin d) : (v a).Supported := by
  intro b
  obtain ⟨hg, hs, ho⟩ := h.2.1 a
  have ho := ho b
  refine ⟨by rw [hs, hg], by rw [hg]; exact h.1 b, ?_⟩
  rcases h.2.2 b with hp | ⟨hd, hc⟩
  · exact Or.inl (hp a)
  · by_cases hb : b = a
    · subst hb
      rw [if_pos rfl] at ho
      exact Or.inr (Or.inr ⟨hd, ho⟩)
    · rw [if_neg hb] at ho
      exact Or.inr (Or.inl ⟨(hc a).1, (hc a).2, ho⟩)

/-- The boundary condition of the pressure. -/
def pbc (v : Fin d → GridVariable d K) : BC d K :=
  homogeneousBC fun b => if (v b).bc.types b = (.periodic, .periodic) then (.periodic, .periodic) else (.neumann, .neumann)

theorem pressureBC (h : VelocityField g v) (hd : d ≠ 0) : pressureBCFromVelocity (List.ofFn v) = .ok (pbc v) := by
  have np : ¬ (BCType.neumann = BCType.periodic) := by decide
  have dp : ¬ (BCType.dirichlet = BCType.periodic) := by decide
  have key : ∀ a b, PeriodicAlong (v a) b ↔ (v b).bc.types b = (.periodic, .periodic) := by
    intro a b
    unfold PeriodicAlong
    rcases h.2.2 b with hp | ⟨hd, hc⟩
    · simp [hp]
    · rw [hd]
      refine ⟨fun e => ?_, fun e => by simp at e⟩
      rcases (hc a).1 with e' | e' <;> rw [e'] at e <;> cases e
  rw [C15_pressure_bc]
  refine ⟨by rw [Ne, List.ofFn_eq_nil_iff]; exact hd, ?_, rfl, fun _ => rfl, ?_⟩
  · intro b x hx y hy
    obtain ⟨a, rfl⟩ := List.mem_ofFn.1 hx
    obtain ⟨c, rfl⟩ := List.mem_ofFn.1 hy
    rw [key, key]; exact id
  · intro b x hx
    obtain ⟨a, rfl⟩ := List.mem_ofFn.1 hx
    rw [key]
    refine ⟨fun e => ?_, fun e => ?_⟩
    · simp [pbc, homogeneousBC, e]
    · simp [pbc, homogeneousBC, e]

/-- a pressure at the cell centres -/
def pvar (g : Grid d K) (v : Fin d → GridVariable d K) (q : Idx d → K) : GridVariable d K :=
  ⟨⟨⟨g.shape, q⟩, fun _ => 1 / 2, g⟩, pbc v⟩

theorem pvar_centered (h : VelocityField g v) (q : Idx d → K) : (pvar g v q).CenteredHomogeneous := by
  refine ⟨fun b => ⟨rfl, h.1 b, ?_⟩, fun b _ => ⟨rfl, rfl⟩⟩
  by_cases hp : (v b).bc.types b = (.periodic, .periodic)
  · left; simp [pvar, pbc, homogeneousBC, hp]
  · right; left
    refine ⟨Or.inr ?_, Or.inr ?_, rfl⟩ <;> simp [pvar, pbc, homogeneousBC, hp]

theorem pbc_types (v : Fin d → GridVariable d K) (b : Fin d) :
    (pbc v).types b = (.periodic, .periodic) ∨ (pbc v).types b = (.neumann, .neumann) := by
  unfold pbc homogeneousBC
  by_cases hp : (v b).bc.types b = (.periodic, .periodic)
  · left; simp [hp]
  · right; simp [hp]

theorem pbc_onGrid (h : VelocityField g v) (q : Idx d → K) :
    BC.OnGrid (pbc v) ⟨⟨g.shape, q⟩, fun _ => 1 / 2, g⟩ := by
  intro b
  refine ⟨rfl, h.1 b, ?_⟩
  rcases pbc_types v b with e | e
  · exact Or.inl e
  · refine Or.inr (Or.inl ⟨?_, ?_, rfl⟩) <;> rw [e] <;> decide

theorem pbc_impose (h : VelocityField g v) (q : Idx d → K) :
    ∃ q', (pbc v).imposeBC ⟨⟨g.shape, q⟩, fun _ => 1 / 2, g⟩ = .ok (pvar g v q') ∧
      ∀ i, InR g.shape i → q' i = q i := by
  obtain ⟨r, hr, he⟩ := C12_impose_bc_identity (pbc v) _ (h.pbc_onGrid q) (fun a => Or.inr rfl)
  obtain ⟨rb, ro, rg, rs, rd⟩ := he
  refine ⟨r.array.data, hr.trans (congrArg Except.ok ?_), fun i hi => rd i (by rw [rs]; exact hi)⟩
  obtain ⟨⟨⟨s, x⟩, o, g'⟩, bc⟩ := r
  simp only at rb ro rg rs
  subst rb ro rg rs
  rfl

theorem pvar_above (v : Fin d → GridVariable d K) (q : Idx d → K) (a : Fin d) (i : Idx d) :
    (pvar g v q).above a i = if (v a).bc.types a = (.periodic, .periodic) then q (rollIdx g.shape a 1 i)
      else if i a + 1 < g.shape a then q (Function.update i a (i a + 1)) else q i := by
  have np : ¬ (BCType.neumann = BCType.periodic) := by decide
  have nd : ¬ (BCType.neumann = BCType.dirichlet) := by decide
  unfold GridVariable.above
  by_cases hp : (v a).bc.types a = (.periodic, .periodic)
  · simp [pvar, pbc, homogeneousBC, hp]
  · simp [pvar, pbc, homogeneousBC, hp, BC.constantValues]

theorem pvar_below (v : Fin d → GridVariable d K) (q : Idx d → K) (a : Fin d) (i : Idx d) :
    (pvar g v q).below a i = if (v a).bc.types a = (.periodic, .periodic) then q (rollIdx g.shape a (-1) i)
      else if 0 < i a then q (Function.update i a (i a - 1)) else q i := by
  have np : ¬ (BCType.neumann = BCType.periodic) := by decide
  have nd : ¬ (BCType.neumann = BCType.dirichlet) := by decide
  unfold GridVariable.below
  by_cases hp : (v a).bc.types a = (.periodic, .periodic)
  · simp [pvar, pbc, homogeneousBC, hp]
  · simp [pvar, pbc, homogeneousBC, hp, BC.constantValues]

/-- The normal component seen below a cell. -/
theorem below_normal (h : VelocityField g v) (a : Fin d) (i : Idx d) :
    (v a).below a i = if (v a).bc.types a = (.periodic, .periodic) then (v a).array.data (rollIdx g.shape a (-1) i)
      else if 0 < i a then (v a).array.data (Function.update i a (i a - 1)) else ((v a).bc.constantValues a).1 := by
  obtain ⟨hg, hs, ho⟩ := h.2.1 a
  have ho := ho a
  rw [if_pos rfl] at ho
  have dp : ¬ (BCType.dirichlet = BCType.periodic) := by decide
  unfold GridVariable.below
  rcases h.2.2 a with hp | ⟨hd, hc⟩
  · simp [hp a, hs]
  · have : ¬ ((1 : ℚ) = 1 / 2) := by norm_num
    simp only [hd, dp, if_false, ho, this]
    simp

/-- The velocity with other data. -/
def withData (v : Fin d → GridVariable d K) (g : Grid d K) (x : Fin d → Idx d → K) (a : Fin d) : GridVariable d K :=
  ⟨⟨⟨g.shape, x a⟩, (v a).array.offset, g⟩, (v a).bc⟩

theorem withData_field (h : VelocityField g v) (x : Fin d → Idx d → K) : VelocityField g (withData v g x) :=
  ⟨h.1, fun a => ⟨rfl, rfl, (h.2.1 a).2.2⟩, h.2.2⟩

theorem eq_withData (h : VelocityField g v) : v = withData v g (fun a => (v a).array.data) := by
  funext a
  obtain ⟨hg, hs, -⟩ := h.2.1 a
  show v a = ⟨⟨⟨g.shape, _⟩, _, g⟩, _⟩
  rw [← hs, ← hg]

/-- The divergence of a staggered velocity lives at the cell centres. -/
theorem divergence_eq (h : VelocityField g v) (hd : d ≠ 0) :
    ∃ f, divergence (List.ofFn v) = .ok ⟨⟨g.shape, f⟩, fun _ => 1 / 2, g⟩ ∧ ∀ i, InR g.shape i →
      f i = ∑ a, ((v a).array.data i - (v a).below a i) / g.step a := by
  obtain ⟨m, hm⟩ := Classical.axiom_of_choice (fun a => shift_below (h.supported a) a)
  have hb := fun a => backwardDifference_of_shift (hm a).1 (hm a).2.1 (hm a).2.2.1 (hm a).2.2.2.1
  refine ⟨fun i => ∑ a, ((v a).array.data i - (m a).data i) / g.step a, ?_, fun i hi => ?_⟩
  · unfold divergence
    rw [show consistentGrid ((List.ofFn v).map (·.array)) = .ok g from uniqueOr_eq_ok.2
      ⟨by simp [List.ofFn_eq_nil_iff, hd], by
        intro x hx
        obtain ⟨y, hy, rfl⟩ := List.mem_map.1 hx
        obtain ⟨a, rfl⟩ := List.mem_ofFn.1 hy
        exact (h.2.1 a).1⟩, Except.bind_ok, dif_pos (by simp),
      seqFin_ok _ _ (fun a => by rw [List.getElem_ofFn]; exact hb a), Except.bind_ok, sumArrays_ofFn]
    refine ⟨hd, fun a => ⟨(h.2.1 a).2.1, ?_, (h.2.1 a).1⟩, ?_⟩
    · funext b
      have ho := (h.2.1 a).2.2
      by_cases hb : b = a
      · subst hb; simp [ho]; norm_num
      · simp [hb, ho]
    · funext i
      dsimp only
      exact Finset.sum_congr rfl fun a _ => by rw [(h.2.1 a).1]
  · exact Finset.sum_congr rfl fun a _ => by rw [(hm a).2.2.2.2 i (by rw [(h.2.1 a).2.1]; exact hi)]

/-- `impose_bc` on a velocity component writes the wall value on the upper wall normal to it. -/
theorem impose (h : VelocityField g v) (a : Fin d) (x : Idx d → K) :
    ∃ y, (v a).bc.imposeBC ⟨⟨g.shape, x⟩, (v a).array.offset, g⟩ =
        .ok ⟨⟨⟨g.shape, y⟩, (v a).array.offset, g⟩, (v a).bc⟩ ∧
      ∀ i, InR g.shape i → y i = if (v a).bc.types a = (.dirichlet, .dirichlet) ∧ i a + 1 = g.shape a then
        ((v a).bc.constantValues a).2 else x i := by
  obtain ⟨r, hr, rs, ro, rg, rd⟩ := BC.imposeBC_ok (v a).bc _ (h.onGrid a x)
  refine ⟨r.data, hr.trans ?_, fun i hi => ?_⟩
  · obtain ⟨⟨s, y⟩, o, g'⟩ := r
    simp only at rs ro rg
    subst rs ro rg
    rfl
  · rw [rd i hi]
    dsimp only
    have hw : ∀ b, BC.wallVal (v a).bc g.shape (v a).array.offset b (i b) =
        if b = a ∧ (v a).bc.types a = (.dirichlet, .dirichlet) ∧ i a + 1 = g.shape a then
          some ((v a).bc.constantValues a).2 else none := by
      intro b
      have ho := (h.2.1 a).2.2 b
      unfold BC.wallVal
      by_cases hb : b = a
      · subst hb
        rw [if_pos rfl] at ho
        rw [ho]
        rcases h.2.2 b with hp | ⟨hd, -⟩
        · simp [hp b]
        · simp only [hd, true_and]
          have h1 : ¬ ((1 : ℚ) = 0) := by norm_num
          simp only [h1, false_and, if_false]
          have : (i b = (g.shape b : ℤ) - 1) ↔ (i b + 1 = g.shape b) := by constructor <;> intro h <;> omega
          simp only [this]
      · rw [if_neg hb] at ho
        have h1 : ¬ ((1 / 2 : ℚ) = 0) := by norm_num
        have h2 : ¬ ((1 / 2 : ℚ) = 1) := by norm_num
        rw [ho]
        simp only [hb, h1, h2, false_and, and_false, if_false]
    by_cases hc : (v a).bc.types a = (.dirichlet, .dirichlet) ∧ i a + 1 = g.shape a
    · rw [if_pos hc]
      obtain ⟨l₁, l₂, hl, hlt⟩ := finRange_split a
      rw [hl]
      refine foldl_getD_last _ l₁ l₂ a _ _ ?_ ?_
      · rw [hw, if_pos ⟨rfl, hc⟩]
      · intro c hc'
        rw [hw, if_neg (fun e => by have := hlt c hc'; rw [e.1] at this; exact lt_irrefl _ this)]
    · rw [if_neg hc]
      refine foldl_getD_none _ _ _ fun b _ => ?_
      rw [hw, if_neg (fun e => hc e.2)]

end VelocityField

end JaxCfd
