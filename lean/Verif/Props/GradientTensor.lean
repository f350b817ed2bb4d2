import Verif.Props.Interp

/-!
# C20: `gradient_tensor` (`base/finite_differences.py`)
-/

namespace JaxCfd
variable {d : ℕ} {K : Type} [Field K] [LinearOrder K] [IsStrictOrderedRing K] [HasNan K]

theorem gradientAxis_zero {v : GridVariable d K} (hv : v.Periodic) (a : Fin d) (h : v.array.offset a = 0) :
    gradientAxis v a = .ok (fwdP v a) := by
  unfold gradientAxis
  rw [if_pos h, forwardDifference_periodic hv]

theorem gradientAxis_one {v : GridVariable d K} (hv : v.Periodic) (a : Fin d) (h : v.array.offset a = 1) :
    gradientAxis v a = .ok (bwdP v a) := by
  unfold gradientAxis
  rw [if_neg (by rw [h]; norm_num), if_pos h, backwardDifference_periodic hv]

theorem gradientAxis_half {v : GridVariable d K} (hv : v.Periodic) (a : Fin d) (h : v.array.offset a = 1 / 2) :
    ∃ c, linear v v.array.grid.cellCenter = .ok c ∧ c.Periodic ∧ c.array.grid = v.array.grid ∧ c.array.shape = v.array.shape ∧
      gradientAxis v a = .ok (cenP c a) := by
  obtain ⟨f, hf, -⟩ := linear_periodic (fun _ _ => True) (fun _ _ _ _ _ => trivial) hv v.array.grid.cellCenter trivial
  have hp : GridVariable.Periodic (⟨⟨⟨v.array.shape, f⟩, v.array.grid.cellCenter, v.array.grid⟩, v.bc⟩ : GridVariable d K) := ⟨hv.1, hv.2⟩
  refine ⟨_, hf, hp, rfl, rfl, ?_⟩
  unfold gradientAxis
  rw [if_neg (by rw [h]; norm_num), if_neg (by rw [h]; norm_num), if_pos h, hf]
  exact centralDifference_periodic hp a

/-- **C20** `gradient_tensor` of a periodic variable with offsets in `{0, 1/2, 1}` succeeds; along an axis with
offset 0 it is the forward difference, with offset 1 the backward difference, with offset 1/2 the central
difference of the variable interpolated to the cell centres. -/
theorem C20_gradient_tensor (v : GridVariable d K) (hv : v.Periodic)
    (ho : ∀ a, v.array.offset a = 0 ∨ v.array.offset a = 1 / 2 ∨ v.array.offset a = 1) :
    ∃ (G : Fin d → GridArray d K) (c : GridVariable d K), gradientTensor v = .ok G ∧ linear v v.array.grid.cellCenter = .ok c ∧ ∀ a : Fin d,
      (G a).grid = v.array.grid ∧ (G a).shape = v.array.shape ∧
      (v.array.offset a = 0 → (G a).offset = Function.update v.array.offset a (1 / 2) ∧ ∀ i : Idx d, (G a).data i =
        (v.array.data (rollIdx v.array.grid.shape a 1 i) - v.array.data i) / v.array.grid.step a) ∧
      (v.array.offset a = 1 → (G a).offset = Function.update v.array.offset a (1 / 2) ∧ ∀ i : Idx d, (G a).data i =
        (v.array.data i - v.array.data (rollIdx v.array.grid.shape a (-1) i)) / v.array.grid.step a) ∧
      (v.array.offset a = 1 / 2 → (G a).offset = (fun _ => 1 / 2) ∧ ∀ i : Idx d, (G a).data i =
        (c.array.data (rollIdx v.array.grid.shape a 1 i) - c.array.data (rollIdx v.array.grid.shape a (-1) i)) / (2 * v.array.grid.step a)) := by
  obtain ⟨f, hf, -⟩ := linear_periodic (fun _ _ => True) (fun _ _ _ _ _ => trivial) hv v.array.grid.cellCenter trivial
  have hs : v.array.grid.shape = v.array.shape := funext fun a => ((hv.2 a).1).symm
  set c : GridVariable d K := ⟨⟨⟨v.array.shape, f⟩, v.array.grid.cellCenter, v.array.grid⟩, v.bc⟩ with hc
  refine ⟨fun a => if v.array.offset a = 0 then fwdP v a else if v.array.offset a = 1 then bwdP v a else cenP c a, c, ?_, hf, ?_⟩
  · refine seqFin_ok _ _ fun a => ?_
    rcases ho a with h | h | h
    · rw [gradientAxis_zero hv a h, if_pos h]
    · obtain ⟨c', h1, -, -, -, h2⟩ := gradientAxis_half hv a h
      rw [hf] at h1
      injection h1 with h1
      rw [h2, if_neg (by rw [h]; norm_num), if_neg (by rw [h]; norm_num), ← h1]
    · rw [gradientAxis_one hv a h, if_neg (by rw [h]; norm_num), if_pos h]
  · intro a
    dsimp only
    rw [hs]
    refine ⟨?_, ?_, ?_, ?_, ?_⟩
    · split_ifs <;> rfl
    · split_ifs <;> rfl
    · intro h
      rw [if_pos h]
      refine ⟨?_, fun i => rfl⟩
      show Function.update v.array.offset a (v.array.offset a + 1 / 2) = _
      rw [h]; norm_num
    · intro h
      rw [if_neg (by rw [h]; norm_num), if_pos h]
      refine ⟨?_, fun i => rfl⟩
      show Function.update v.array.offset a (v.array.offset a - 1 / 2) = _
      rw [h]; norm_num
    · intro h
      rw [if_neg (by rw [h]; norm_num), if_neg (by rw [h]; norm_num)]
      exact ⟨rfl, fun i => rfl⟩

/-- **C20** For a velocity component stored on the upper faces normal to axis `b` every entry of the gradient is
at the cell centres, and the transverse entries are central differences of the average of the two faces. -/
theorem C20_gradient_tensor_face (v : GridVariable d K) (hv : v.Periodic) (b : Fin d)
    (ho : v.array.offset = Function.update (fun _ => 1 / 2) b 1) :
    ∃ G : Fin d → GridArray d K, gradientTensor v = .ok G ∧ ∀ a : Fin d, (G a).offset = (fun _ => 1 / 2) ∧
      (a = b → ∀ i : Idx d, InR v.array.shape i → (G a).data i = (v.array.data i - v.array.data (rollIdx v.array.grid.shape b (-1) i)) / v.array.grid.step b) ∧
      (a ≠ b → ∀ i : Idx d, InR v.array.shape i → (G a).data i =
        ((v.array.data (rollIdx v.array.grid.shape b (-1) (rollIdx v.array.grid.shape a 1 i)) + v.array.data (rollIdx v.array.grid.shape a 1 i)) / 2 -
         (v.array.data (rollIdx v.array.grid.shape b (-1) (rollIdx v.array.grid.shape a (-1) i)) + v.array.data (rollIdx v.array.grid.shape a (-1) i)) / 2) /
          (2 * v.array.grid.step a)) := by
  have hb : v.array.offset b = 1 := by rw [ho]; simp
  have hab : ∀ a, a ≠ b → v.array.offset a = 1 / 2 := fun a h => by rw [ho]; simp [h]
  have hs : v.array.grid.shape = v.array.shape := funext fun a => ((hv.2 a).1).symm
  obtain ⟨G, c, hG, hc, H⟩ := C20_gradient_tensor v hv (fun a => by
    by_cases h : a = b
    · subst h; exact Or.inr (Or.inr hb)
    · exact Or.inr (Or.inl (hab a h)))
  have hcc : v.array.grid.cellCenter = Function.update v.array.offset b (1 / 2) := by
    funext a
    by_cases h : a = b
    · subst h; simp [Grid.cellCenter]
    · simp [Grid.cellCenter, h, hab a h]
  rw [hcc, linear_one_axis hv b (1 / 2)] at hc
  injection hc with hc
  have hfl : ⌊(1 / 2 - 1 : ℚ)⌋ = -1 := by norm_num
  have hce : ⌈(1 / 2 - 1 : ℚ)⌉ = 0 := by norm_num
  have hcd : ∀ i : Idx d, InR v.array.shape i → c.array.data i =
      (1 / 2 : K) * v.array.data (rollIdx v.array.shape b (-1) i) + (1 / 2 : K) * v.array.data i := by
    intro i hi
    rw [← hc]
    show lerp K v.array.shape b (1 / 2 - v.array.offset b) v.array.data i = _
    rw [hb]
    unfold lerp floorWeight
    rw [if_neg (by norm_num), hfl, if_neg (by norm_num), hce, rollIdx_zero hi]
    norm_num
  refine ⟨G, hG, fun a => ?_⟩
  obtain ⟨-, -, -, h1, h2⟩ := H a
  by_cases h : a = b
  · subst h
    obtain ⟨o1, d1⟩ := h1 hb
    refine ⟨?_, fun _ i _ => d1 i, fun hne => absurd rfl hne⟩
    rw [o1, ho]
    simp
  · obtain ⟨o2, d2⟩ := h2 (hab a h)
    refine ⟨o2, fun he => absurd he h, fun _ i hi => ?_⟩
    rw [d2 i, hs, hcd _ (rollIdx_inR hi _ _), hcd _ (rollIdx_inR hi _ _)]
    congr 1
    ring

/-- **C20** An offset other than 0, 1/2 or 1 along some axis is refused. -/
theorem C20_gradient_tensor_rejects (v : GridVariable d K) (hv : v.Periodic) (a : Fin d)
    (h : v.array.offset a ≠ 0 ∧ v.array.offset a ≠ 1 / 2 ∧ v.array.offset a ≠ 1) : gradientTensor v = .error .value := by
  have bad : ∀ a, v.array.offset a ≠ 0 ∧ v.array.offset a ≠ 1 / 2 ∧ v.array.offset a ≠ 1 → gradientAxis v a = .error .value := by
    intro a h
    unfold gradientAxis
    rw [if_neg h.1, if_neg h.2.2, if_neg h.2.1]
  have good : ∀ a, gradientAxis v a = .error .value ∨ ∃ x, gradientAxis v a = .ok x := by
    intro a
    by_cases h0 : v.array.offset a = 0
    · exact Or.inr ⟨_, gradientAxis_zero hv a h0⟩
    by_cases h1 : v.array.offset a = 1
    · exact Or.inr ⟨_, gradientAxis_one hv a h1⟩
    by_cases h2 : v.array.offset a = 1 / 2
    · obtain ⟨c, -, -, -, -, h3⟩ := gradientAxis_half hv a h2
      exact Or.inr ⟨_, h3⟩
    · exact Or.inl (bad a ⟨h0, h2, h1⟩)
  rcases seqFin_isError (fun a => gradientAxis v a) with ⟨g, hg⟩ | ⟨b, e, hb, -, he⟩
  · have := (seqFin_eq_ok _ _).1 hg a
    rw [bad a h] at this
    cases this
  · rcases good b with h' | ⟨x, h'⟩
    · rw [h'] at hb
      injection hb with hb
      unfold gradientTensor
      rw [he, ← hb]
    · rw [h'] at hb
      cases hb

/-- Despite its docstring the gradient is not at the cell centres for data at the corners of the cells: each
entry only moves along its own axis. -/
theorem C20_gradient_tensor_corner (v : GridVariable 2 K) (hv : v.Periodic) (ho : v.array.offset = fun _ => 1) :
    ∃ G : Fin 2 → GridArray 2 K, gradientTensor v = .ok G ∧ (G 0).offset = ![1 / 2, 1] ∧ (G 1).offset = ![1, 1 / 2] := by
  obtain ⟨G, c, hG, -, H⟩ := C20_gradient_tensor v hv (fun a => Or.inr (Or.inr (by rw [ho])))
  refine ⟨G, hG, ?_, ?_⟩
  · rw [((H 0).2.2.2.1 (by rw [ho])).1, ho]
    funext a
    fin_cases a <;> rfl
  · rw [((H 1).2.2.2.1 (by rw [ho])).1, ho]
    funext a
    fin_cases a <;> rfl

namespace Fixtures
-- face data: both theorems apply to the components of `pv34`
example : ∀ b : Fin 2, (pv34 b).Periodic ∧ (pv34 b).array.offset = Function.update (fun _ => 1 / 2) b 1 := by
  intro b
  refine ⟨pv34_periodic b, ?_⟩
  funext a
  by_cases h : a = b
  · subst h; simp [pv34]
  · simp [pv34, h]
end Fixtures

end JaxCfd
