import Verif.Lemmas.Wall
import Verif.Props.FD

/-!
# Property theorems: stencils next to walls (C22)

`GridVariable.Supported`, `GridVariable.above` and `GridVariable.below` (the values a stencil sees beyond a wall) are defined in
`Spec.lean`.
-/

set_option linter.unusedSectionVars false

namespace JaxCfd

variable {d : ℕ} {K : Type} [Field K] [HasNan K] [DecidableEq K]

theorem laplacian_supported (u : GridVariable d K) (hu : u.Supported) :
    ∃ r, laplacian u = .ok r ∧ r.shape = u.array.shape ∧ ∀ i, InR u.array.shape i →
      r.data i = ∑ a, (u.above a i + u.below a i - 2 * u.array.data i) / u.array.grid.step a ^ 2 := by
  obtain ⟨p, hp⟩ := Classical.axiom_of_choice (fun a => shift_above hu a)
  obtain ⟨m, hm⟩ := Classical.axiom_of_choice (fun a => shift_below hu a)
  refine ⟨_, laplacian_of_shift (fun a => (hp a).1) (fun a => (hm a).1) (fun a => (hp a).2.1)
    (fun a => (hp a).2.2.1) (fun a => (hp a).2.2.2.1)
    (fun a => (hm a).2.1) (fun a => (hm a).2.2.1) (fun a => (hm a).2.2.2.1), rfl, fun i hi => ?_⟩
  dsimp only
  exact Finset.sum_congr rfl fun a _ => by rw [(hp a).2.2.2.2 i hi, (hm a).2.2.2.2 i hi]

/-- **C22** On every supported variable (periodic axes, cell centres between Dirichlet / Neumann walls, upper faces between
Dirichlet walls) the difference operators succeed and are the textbook stencils applied to the neighbour values `above`
and `below` that respect the boundary conditions. -/
theorem C22_stencils (u : GridVariable d K) (hu : u.Supported) (ax : Fin d) :
    (∃ r, forwardDifference u ax = .ok r ∧ r.shape = u.array.shape ∧ ∀ i, InR u.array.shape i →
      r.data i = (u.above ax i - u.array.data i) / u.array.grid.step ax) ∧
    (∃ r, backwardDifference u ax = .ok r ∧ r.shape = u.array.shape ∧ ∀ i, InR u.array.shape i →
      r.data i = (u.array.data i - u.below ax i) / u.array.grid.step ax) ∧
    (∃ r, centralDifference u ax = .ok r ∧ r.shape = u.array.shape ∧ ∀ i, InR u.array.shape i →
      r.data i = (u.above ax i - u.below ax i) / (2 * u.array.grid.step ax)) ∧
    (∃ r, laplacian u = .ok r ∧ r.shape = u.array.shape ∧ ∀ i, InR u.array.shape i →
      r.data i = ∑ a, (u.above a i + u.below a i - 2 * u.array.data i) / u.array.grid.step a ^ 2) := by
  obtain ⟨p, hp⟩ := Classical.axiom_of_choice (fun a => shift_above hu a)
  obtain ⟨m, hm⟩ := Classical.axiom_of_choice (fun a => shift_below hu a)
  refine ⟨?_, ?_, ?_, ?_⟩
  · refine ⟨_, forwardDifference_of_shift (hp ax).1 (hp ax).2.1 (hp ax).2.2.1 (hp ax).2.2.2.1, rfl, fun i hi => ?_⟩
    simp only [(hp ax).2.2.2.2 i hi]
  · refine ⟨_, backwardDifference_of_shift (hm ax).1 (hm ax).2.1 (hm ax).2.2.1 (hm ax).2.2.2.1, rfl, fun i hi => ?_⟩
    simp only [(hm ax).2.2.2.2 i hi]
  · refine ⟨_, centralDifference_of_shift (hp ax).1 (hm ax).1 (hp ax).2.1 (hp ax).2.2.1 (hp ax).2.2.2.1
      (hm ax).2.1 (hm ax).2.2.1 (hm ax).2.2.2.1, rfl, fun i hi => ?_⟩
    simp only [(hp ax).2.2.2.2 i hi, (hm ax).2.2.2.2 i hi]
  · exact laplacian_supported u hu

/-- A sum over interior upper faces, re-indexed by the cell above the face. -/
theorem sum_faces (s : Fin d → ℕ) (ax : Fin d) (f : Idx d → K) :
    ∑ i ∈ box s, (if i ax + 1 < s ax then f i else 0) =
      ∑ i ∈ box s, (if 0 < i ax then f (Function.update i ax (i ax - 1)) else 0) := by
  rw [← sum_roll s ax (-1)]
  refine Finset.sum_congr rfl fun i hi => ?_
  have hi := mem_box.1 hi ax
  unfold rollIdx
  by_cases h : 0 < i ax
  · rw [if_pos h, Int.emod_eq_of_lt (by omega) (by omega)]
    rw [Function.update_self, if_pos (by omega)]
    rfl
  · rw [if_neg h, if_neg]
    rw [Function.update_self]
    have h0 : i ax = 0 := by omega
    rw [h0, zero_add, Int.emod_eq_add_self_emod, Int.emod_eq_of_lt (by omega) (by omega)]
    omega

/-- The variable lies at cell centres along every axis that has walls, and the walls are homogeneous. -/
def GridVariable.CenteredHomogeneous (u : GridVariable d K) : Prop :=
  u.Supported ∧ ∀ a, u.bc.types a ≠ (.periodic, .periodic) →
    u.array.offset a = 1 / 2 ∧ u.bc.bcValues a = (some 0, some 0)

/-- The (negative) Dirichlet form of one axis: squared differences across interior faces, plus `2 w u` at each Dirichlet
wall. -/
def axisForm (u : GridVariable d K) (a : Fin d) (w : Idx d → K) : K :=
  if u.bc.types a = (.periodic, .periodic) then
    ∑ i ∈ box u.array.shape, (w (rollIdx u.array.shape a 1 i) - w i) *
      (u.array.data (rollIdx u.array.shape a 1 i) - u.array.data i)
  else
    ∑ i ∈ box u.array.shape,
      ((if i a + 1 < u.array.shape a then (w (Function.update i a (i a + 1)) - w i) *
          (u.array.data (Function.update i a (i a + 1)) - u.array.data i) else 0) +
        (if (u.bc.types a).2 = .dirichlet ∧ ¬ i a + 1 < u.array.shape a then 2 * (w i * u.array.data i) else 0) +
        (if (u.bc.types a).1 = .dirichlet ∧ ¬ 0 < i a then 2 * (w i * u.array.data i) else 0))

theorem axisForm_eq (u : GridVariable d K) (hu : u.CenteredHomogeneous) (a : Fin d) (w : Idx d → K) :
    ∑ i ∈ box u.array.shape, w i * (u.above a i + u.below a i - 2 * u.array.data i) = - axisForm u a w := by
  obtain ⟨hsup, hhom⟩ := hu
  obtain ⟨hs, hN, hcase⟩ := hsup a
  unfold axisForm
  by_cases hper : u.bc.types a = (.periodic, .periodic)
  · rw [if_pos hper]
    simp only [GridVariable.above, GridVariable.below, hper, if_true]
    have e1 : ∀ i, w i * (u.array.data (rollIdx u.array.shape a 1 i) + u.array.data (rollIdx u.array.shape a (-1) i) -
        2 * u.array.data i) = w i * u.array.data (rollIdx u.array.shape a 1 i) +
          w i * u.array.data (rollIdx u.array.shape a (-1) i) - 2 * (w i * u.array.data i) := fun i => by ring
    have e2 : ∀ i, (w (rollIdx u.array.shape a 1 i) - w i) *
      (u.array.data (rollIdx u.array.shape a 1 i) - u.array.data i) =
        w (rollIdx u.array.shape a 1 i) * u.array.data (rollIdx u.array.shape a 1 i) -
        w (rollIdx u.array.shape a 1 i) * u.array.data i - w i * u.array.data (rollIdx u.array.shape a 1 i) +
        w i * u.array.data i := fun i => by ring
    simp only [e1, e2, Finset.sum_add_distrib, Finset.sum_sub_distrib, ← Finset.mul_sum]
    rw [sum_mul_roll u.array.shape a (-1), neg_neg,
      sum_roll u.array.shape a 1 (fun i => w i * u.array.data i)]
    ring
  · rw [if_neg hper]
    obtain ⟨hoff, hval⟩ := hhom a hper
    have hcv : u.bc.constantValues a = (0, 0) := by simp [BC.constantValues, hval]
    have hne : ¬ u.array.offset a = 1 := by rw [hoff]; norm_num
    have htypes : ((u.bc.types a).1 = .dirichlet ∨ (u.bc.types a).1 = .neumann) ∧
        ((u.bc.types a).2 = .dirichlet ∨ (u.bc.types a).2 = .neumann) := by
      rcases hcase with h | ⟨h1, h2, -⟩ | ⟨-, h⟩
      · exact absurd h hper
      · exact ⟨h1, h2⟩
      · exact absurd h hne
    have hp1 : (u.bc.types a).1 ≠ .periodic := by rcases htypes.1 with h | h <;> rw [h] <;> decide
    have hp2 : (u.bc.types a).2 ≠ .periodic := by rcases htypes.2 with h | h <;> rw [h] <;> decide
    have key : ∀ i, w i * (u.above a i + u.below a i - 2 * u.array.data i) =
        (if i a + 1 < u.array.shape a then w i * (u.array.data (Function.update i a (i a + 1)) - u.array.data i) else 0) -
        (if 0 < i a then w i * (u.array.data i - u.array.data (Function.update i a (i a - 1))) else 0) -
        (if (u.bc.types a).2 = .dirichlet ∧ ¬ i a + 1 < u.array.shape a then 2 * (w i * u.array.data i) else 0) -
        (if (u.bc.types a).1 = .dirichlet ∧ ¬ 0 < i a then 2 * (w i * u.array.data i) else 0) := by
      intro i
      simp only [GridVariable.above, GridVariable.below, hp1, hp2, if_false, hoff, if_true, hcv]
      by_cases h1 : i a + 1 < u.array.shape a <;> by_cases h2 : 0 < i a <;>
        by_cases h3 : (u.bc.types a).2 = .dirichlet <;> by_cases h4 : (u.bc.types a).1 = .dirichlet <;>
        simp only [h1, h2, h3, h4, if_true, if_false, not_true_eq_false, not_false_eq_true, and_false, and_true] <;> ring
    have hB : ∑ i ∈ box u.array.shape,
        (if 0 < i a then w i * (u.array.data i - u.array.data (Function.update i a (i a - 1))) else 0) =
        ∑ i ∈ box u.array.shape, (if i a + 1 < u.array.shape a then w (Function.update i a (i a + 1)) *
          (u.array.data (Function.update i a (i a + 1)) - u.array.data i) else 0) := by
      rw [sum_faces u.array.shape a (fun i => w (Function.update i a (i a + 1)) *
          (u.array.data (Function.update i a (i a + 1)) - u.array.data i))]
      refine Finset.sum_congr rfl fun i _ => ?_
      simp
    simp only [key, Finset.sum_sub_distrib, hB, Finset.sum_add_distrib]
    have hA : ∑ i ∈ box u.array.shape, (if i a + 1 < u.array.shape a then (w (Function.update i a (i a + 1)) - w i) *
          (u.array.data (Function.update i a (i a + 1)) - u.array.data i) else 0) =
        ∑ i ∈ box u.array.shape, (if i a + 1 < u.array.shape a then w (Function.update i a (i a + 1)) *
          (u.array.data (Function.update i a (i a + 1)) - u.array.data i) else 0) -
        ∑ i ∈ box u.array.shape, (if i a + 1 < u.array.shape a then w i *
          (u.array.data (Function.update i a (i a + 1)) - u.array.data i) else 0) := by
      rw [← Finset.sum_sub_distrib]
      refine Finset.sum_congr rfl fun i _ => ?_
      by_cases h : i a + 1 < u.array.shape a
      · simp only [h, if_true]; ring
      · simp only [h, if_false]; ring
    rw [hA]
    ring

theorem inner_laplacian (u : GridVariable d K) (hu : u.CenteredHomogeneous) (w : Idx d → K) (l : GridArray d K)
    (h : laplacian u = .ok l) :
    ∑ i ∈ box u.array.shape, w i * l.data i = - ∑ a, axisForm u a w / u.array.grid.step a ^ 2 := by
  obtain ⟨r, hr, -, hd⟩ := (laplacian_supported u hu.1)
  rw [hr] at h
  injection h with h; subst h
  rw [← Finset.sum_neg_distrib, Finset.sum_congr rfl (fun i hi => by rw [hd i (mem_box.1 hi), Finset.mul_sum]),
    Finset.sum_comm]
  refine Finset.sum_congr rfl fun a _ => ?_
  rw [← neg_div, ← axisForm_eq u hu a w, Finset.sum_div]
  exact Finset.sum_congr rfl fun i _ => by ring

/-- **C22** Homogeneous Neumann (and periodic) axes: the laplacian sums to zero over the grid (nothing leaves through the
walls). -/
theorem C22_neumann_sum_zero (u : GridVariable d K) (hu : u.CenteredHomogeneous)
    (hneu : ∀ a, u.bc.types a = (.periodic, .periodic) ∨ u.bc.types a = (.neumann, .neumann))
    (l : GridArray d K) (h : laplacian u = .ok l) : l.toNArr.sum = 0 := by
  have hs : l.shape = u.array.shape := by
    obtain ⟨r, hr, hs, -⟩ := (laplacian_supported u hu.1)
    rw [hr] at h; injection h with h; subst h; exact hs
  have := inner_laplacian u hu (fun _ => 1) l h
  simp only [one_mul] at this
  rw [NArr.sum, hs, this, neg_eq_zero]
  refine Finset.sum_eq_zero fun a _ => ?_
  have nd : ¬ (BCType.neumann = BCType.dirichlet) := by decide
  unfold axisForm
  rcases hneu a with h | h <;> simp [h]

/-- **C22** Homogeneous Neumann (and periodic) axes: the laplacian of a constant is zero. -/
theorem C22_neumann_constants (u : GridVariable d K) (hu : u.CenteredHomogeneous)
    (hneu : ∀ a, u.bc.types a = (.periodic, .periodic) ∨ u.bc.types a = (.neumann, .neumann)) (c : K)
    (hc : ∀ i, InR u.array.shape i → u.array.data i = c)
    (l : GridArray d K) (h : laplacian u = .ok l) : ∀ i, InR u.array.shape i → l.data i = 0 := by
  obtain ⟨r, hr, -, hd⟩ := (laplacian_supported u hu.1)
  rw [hr] at h
  injection h with h; subst h
  intro i hi
  rw [hd i hi]
  refine Finset.sum_eq_zero fun a _ => ?_
  have hia := hi a
  have np : ¬ (BCType.neumann = BCType.periodic) := by decide
  have nd : ¬ (BCType.neumann = BCType.dirichlet) := by decide
  have hup : u.above a i = c := by
    rcases hneu a with h | h
    · simp only [GridVariable.above, h, if_true]
      exact hc _ (rollIdx_inR hi _ _)
    · obtain ⟨hoff, hval⟩ := hu.2 a (by rw [h]; simp)
      have hcv : u.bc.constantValues a = (0, 0) := by simp [BC.constantValues, hval]
      simp only [GridVariable.above, h, np, nd, if_false, hoff, if_true, hcv]
      split
      · exact hc _ (hi.update a (by omega) (by omega))
      · rw [hc i hi, mul_zero, add_zero]
  have hdn : u.below a i = c := by
    rcases hneu a with h | h
    · simp only [GridVariable.below, h, if_true]
      exact hc _ (rollIdx_inR hi _ _)
    · obtain ⟨hoff, hval⟩ := hu.2 a (by rw [h]; simp)
      have hcv : u.bc.constantValues a = (0, 0) := by simp [BC.constantValues, hval]
      simp only [GridVariable.below, h, np, nd, if_false, hoff, if_true, hcv]
      split
      · exact hc _ (hi.update a (by omega) (by omega))
      · rw [hc i hi, mul_zero, sub_zero]
  rw [hup, hdn, hc i hi]
  ring

/-- **C22** With homogeneous conditions of any kind (periodic, Dirichlet, Neumann or mixed, cell centred) the laplacian is
symmetric. -/
theorem C22_laplacian_symmetric (u w : GridVariable d K) (hu : u.CenteredHomogeneous) (hw : w.CenteredHomogeneous)
    (ht : w.bc.types = u.bc.types) (hg : w.array.grid = u.array.grid) (lu lw : GridArray d K)
    (h1 : laplacian u = .ok lu) (h2 : laplacian w = .ok lw) :
    inner w.array.toNArr lu.toNArr = inner u.array.toNArr lw.toNArr := by
  have hs : w.array.shape = u.array.shape := by
    funext a; rw [(hu.1 a).1, (hw.1 a).1, hg]
  unfold inner
  rw [hs, inner_laplacian u hu _ _ h1]
  have := inner_laplacian w hw u.array.data _ h2
  rw [hs] at this
  rw [this, hg]
  congr 1
  refine Finset.sum_congr rfl fun a _ => ?_
  congr 1
  unfold axisForm
  rw [ht, hs]
  split
  · exact Finset.sum_congr rfl fun i _ => by ring
  · refine Finset.sum_congr rfl fun i _ => ?_
    congr 1
    · congr 1
      · split
        · ring
        · rfl
      · split
        · ring
        · rfl
    · split
      · ring
      · rfl

section
variable {F : Type} [Field F] [LinearOrder F] [IsStrictOrderedRing F] [HasNan F]

theorem axisForm_nonneg (u : GridVariable d F) (a : Fin d) : 0 ≤ axisForm u a u.array.data := by
  unfold axisForm
  split
  · exact Finset.sum_nonneg fun i _ => mul_self_nonneg _
  · refine Finset.sum_nonneg fun i _ => add_nonneg (add_nonneg ?_ ?_) ?_
    all_goals split
    all_goals first | exact le_rfl | exact mul_self_nonneg _ | exact mul_nonneg zero_le_two (mul_self_nonneg _)

/-- **C22** With homogeneous conditions of any kind the laplacian is dissipative, `sum(u * L u) ≤ 0`; and as soon as one wall
is Dirichlet, equality holds only for `u = 0`. -/
theorem C22_dirichlet_definite (u : GridVariable d F) (hu : u.CenteredHomogeneous) (l : GridArray d F)
    (h : laplacian u = .ok l) :
    inner u.array.toNArr l.toNArr ≤ 0 ∧
    (∀ a, u.array.grid.step a ≠ 0 → ((u.bc.types a).1 = .dirichlet ∨ (u.bc.types a).2 = .dirichlet) →
      (inner u.array.toNArr l.toNArr = 0 ↔ ∀ i, InR u.array.shape i → u.array.data i = 0)) := by
  have hin := inner_laplacian u hu u.array.data l h
  have hnn : ∀ a, 0 ≤ axisForm u a u.array.data / u.array.grid.step a ^ 2 :=
    fun a => div_nonneg (axisForm_nonneg u a) (sq_nonneg _)
  refine ⟨?_, fun a hstep hdir => ⟨fun h0 => ?_, fun h0 => ?_⟩⟩
  · unfold inner; rw [hin, neg_nonpos]; exact Finset.sum_nonneg fun a _ => hnn a
  · unfold inner at h0
    rw [hin, neg_eq_zero] at h0
    have ha := (Finset.sum_eq_zero_iff_of_nonneg (fun a _ => hnn a)).1 h0 a (Finset.mem_univ a)
    rw [div_eq_zero_iff] at ha
    have ha : axisForm u a u.array.data = 0 := by
      rcases ha with ha | ha
      · exact ha
      · exact absurd (pow_eq_zero_iff (two_ne_zero)|>.1 ha) hstep
    have hper : ¬ u.bc.types a = (.periodic, .periodic) := by
      intro hp; rw [hp] at hdir; rcases hdir with h | h <;> cases h
    unfold axisForm at ha
    rw [if_neg hper] at ha
    have t1 : ∀ i : Idx d, 0 ≤ (if i a + 1 < u.array.shape a then
        (u.array.data (Function.update i a (i a + 1)) - u.array.data i) *
          (u.array.data (Function.update i a (i a + 1)) - u.array.data i) else 0) := by
      intro i; split
      · exact mul_self_nonneg _
      · exact le_rfl
    have t2 : ∀ (P : Prop) [Decidable P] (i : Idx d), 0 ≤ (if P then 2 * (u.array.data i * u.array.data i) else 0) := by
      intro P _ i; split
      · exact mul_nonneg zero_le_two (mul_self_nonneg _)
      · exact le_rfl
    have hz := (Finset.sum_eq_zero_iff_of_nonneg (fun i _ => add_nonneg (add_nonneg (t1 i) (t2 _ i)) (t2 _ i))).1 ha
    have hpart : ∀ i, InR u.array.shape i →
        (i a + 1 < u.array.shape a → u.array.data (Function.update i a (i a + 1)) = u.array.data i) ∧
        ((u.bc.types a).2 = .dirichlet → ¬ i a + 1 < u.array.shape a → u.array.data i = 0) ∧
        ((u.bc.types a).1 = .dirichlet → ¬ 0 < i a → u.array.data i = 0) := by
      intro i hi
      have hzi := hz i (mem_box.2 hi)
      have hz3 := (add_eq_zero_iff_of_nonneg (add_nonneg (t1 i) (t2 _ i)) (t2 _ i)).1 hzi
      have hz2 := (add_eq_zero_iff_of_nonneg (t1 i) (t2 _ i)).1 hz3.1
      refine ⟨fun hlt => ?_, fun hd hlt => ?_, fun hd hlt => ?_⟩
      · have := hz2.1
        rw [if_pos hlt] at this
        exact sub_eq_zero.1 (mul_self_eq_zero.1 this)
      · have := hz2.2
        rw [if_pos ⟨hd, hlt⟩] at this
        simpa using this
      · have := hz3.2
        rw [if_pos ⟨hd, hlt⟩] at this
        simpa using this
    rcases hdir with hd | hd
    · have : ∀ (n : ℕ) (i : Idx d), InR u.array.shape i → i a = n → u.array.data i = 0 := by
        intro n
        induction n with
        | zero => intro i hi hn; exact (hpart i hi).2.2 hd (by omega)
        | succ n ih =>
          intro i hi hn
          have hb := hi a
          have hi2 : InR u.array.shape (Function.update i a (n : ℤ)) := hi.update a (by omega) (by omega)
          have h1 := (hpart _ hi2).1 (by simp; omega)
          simp only [Function.update_self, Function.update_idem] at h1
          have e : (n : ℤ) + 1 = i a := by omega
          rw [e, update_get] at h1
          rw [h1]
          exact ih _ hi2 (by simp)
      intro i hi
      have hb := hi a
      exact this (i a).toNat i hi (by omega)
    · have : ∀ (n : ℕ) (i : Idx d), InR u.array.shape i → (u.array.shape a : ℤ) - 1 - i a = n → u.array.data i = 0 := by
        intro n
        induction n with
        | zero => intro i hi hn; exact (hpart i hi).2.1 hd (by omega)
        | succ n ih =>
          intro i hi hn
          have hb := hi a
          have hi2 : InR u.array.shape (Function.update i a (i a + 1)) := hi.update a (by omega) (by omega)
          have h1 := (hpart i hi).1 (by omega)
          rw [← h1]
          exact ih _ hi2 (by simp; omega)
      intro i hi
      have hb := hi a
      exact this ((u.array.shape a : ℤ) - 1 - i a).toNat i hi (by omega)
  · unfold inner
    exact Finset.sum_eq_zero fun i hi => by rw [h0 i (mem_box.1 hi), zero_mul]
end

/-- **C22** A closed box: if along its own axis every velocity component is periodic, or lives on the upper faces between two
Dirichlet walls of value 0 with the stored wall value being 0 (what `impose_bc` establishes, C12), then the divergence sums
to zero: no mass is created. -/
theorem C22_closed_box_divergence (v : Fin d → GridVariable d K) (hv : ∀ a, (v a).Supported)
    (hbox : ∀ a, (v a).bc.types a = (.periodic, .periodic) ∨
      ((v a).array.offset a = 1 ∧ (v a).bc.types a = (.dirichlet, .dirichlet) ∧
        (v a).bc.bcValues a = (some 0, some 0) ∧
        ∀ i, InR (v a).array.shape i → i a + 1 = (v a).array.shape a → (v a).array.data i = 0))
    (r : GridArray d K) (h : divergence (List.ofFn v) = .ok r) : r.toNArr.sum = 0 := by
  obtain ⟨b, hb⟩ := Classical.axiom_of_choice (fun a => (C22_stencils (v a) (hv a) a).2.1)
  obtain ⟨-, h1, h2⟩ := divergence_of_backward (fun a => (hb a).1) h
  simp only [NArr.sum, h2]
  rw [Finset.sum_comm]
  refine Finset.sum_eq_zero fun a _ => ?_
  have hsa : r.shape = (v a).array.shape := by rw [← (h1 a).1, (hb a).2.1]
  rw [hsa, Finset.sum_congr rfl (fun i hi => (hb a).2.2 i (mem_box.1 hi)), ← Finset.sum_div]
  rw [div_eq_zero_iff]; left
  rcases hbox a with hp | ⟨hoff, ht, hval, hwall⟩
  · simp only [GridVariable.below, hp, if_true]
    rw [Finset.sum_sub_distrib, sum_roll, sub_self]
  · have hcv : (v a).bc.constantValues a = (0, 0) := by simp [BC.constantValues, hval]
    have np : ¬ (BCType.dirichlet = BCType.periodic) := by decide
    have hne : ¬ ((1 : ℚ) = 1 / 2) := by norm_num
    simp only [GridVariable.below, ht, np, if_false, hoff, hne, hcv]
    rw [Finset.sum_sub_distrib, sub_eq_zero, ← sum_faces (v a).array.shape a (v a).array.data]
    refine Finset.sum_congr rfl fun i hi => ?_
    have hia := mem_box.1 hi a
    by_cases hlt : i a + 1 < (v a).array.shape a
    · rw [if_pos hlt]
    · rw [if_neg hlt]; exact hwall i (mem_box.1 hi) (by omega)

/-! ## The hypotheses are met by concrete data -/

namespace Fixtures
def cNeu : GridVariable 1 ℚ := ⟨uCenter, ⟨.homogeneous, fun _ => (.neumann, .neumann), fun _ => (some 0, some 0)⟩⟩
def cDir : GridVariable 1 ℚ := ⟨uCenter, ⟨.homogeneous, fun _ => (.dirichlet, .neumann), fun _ => (some 0, some 0)⟩⟩
/-- a velocity component on faces that vanishes on the wall -/
def cFace : GridVariable 1 ℚ :=
  ⟨⟨⟨fun _ => 4, fun i => 3 - (i 0 : ℚ)⟩, fun _ => 1, g4⟩,
    ⟨.homogeneous, fun _ => (.dirichlet, .dirichlet), fun _ => (some 0, some 0)⟩⟩

example : cNeu.CenteredHomogeneous ∧ cDir.CenteredHomogeneous := by
  refine ⟨⟨fun a => ⟨rfl, by simp [cNeu, uCenter, g4], ?_⟩, fun a _ => ⟨rfl, rfl⟩⟩,
    ⟨fun a => ⟨rfl, by simp [cDir, uCenter, g4], ?_⟩, fun a _ => ⟨rfl, rfl⟩⟩⟩
  · exact Or.inr (Or.inl ⟨Or.inr rfl, Or.inr rfl, rfl⟩)
  · exact Or.inr (Or.inl ⟨Or.inl rfl, Or.inr rfl, rfl⟩)

theorem cFace_supported : cFace.Supported :=
  fun a => ⟨rfl, by simp [cFace, g4], Or.inr (Or.inr ⟨rfl, rfl⟩)⟩

example : ∀ i, InR cFace.array.shape i → i 0 + 1 = cFace.array.shape 0 → cFace.array.data i = 0 := by
  intro i _ h
  have h3 : i 0 = 3 := by simp [cFace] at h; omega
  simp [cFace, h3]

-- the divergence of the closed-box velocity succeeds and is not identically zero
example : ∃ r, divergence [cFace] = .ok r ∧ r.data ![0] = 6 := by
  obtain ⟨r, hr, hs, hd⟩ := (C22_stencils cFace cFace_supported 0).2.1
  have hoff := (C05_difference_offsets cFace 0 (by simp [cFace, g4]) (by norm_num [cFace, g4])).2.1 r hr
  obtain ⟨r', hr', hd'⟩ : ∃ r', divergence [cFace] = .ok r' ∧ r'.data = r.data := by
    unfold divergence
    rw [show consistentGrid ([cFace].map (·.array)) = .ok cFace.array.grid from
      uniqueOr_eq_ok.2 ⟨by simp, by simp⟩, Except.bind_ok, dif_pos (by simp)]
    have : seqFin (fun a : Fin 1 => backwardDifference ([cFace][a.1]'(by simp)) a) = .ok fun _ => r :=
      seqFin_ok _ _ fun a => by
        have : a = 0 := Subsingleton.elim _ _
        subst this; exact hr
    rw [this, Except.bind_ok]
    refine ⟨⟨⟨r.shape, r.data⟩, r.offset, r.grid⟩, sumArrays_eq_ok.2 ⟨by simp, by simp, by simp⟩, rfl⟩
  refine ⟨r', hr', ?_⟩
  rw [hd', hd _ (by intro a; fin_cases a; simp [cFace])]
  have np : ¬ (BCType.dirichlet = BCType.periodic) := by decide
  norm_num [GridVariable.below, cFace, BC.constantValues, g4, Grid.step, np]
end Fixtures

end JaxCfd
