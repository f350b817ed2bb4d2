import Verif.Lemmas.Permute
import Verif.Props.TranslationAdvection

/-!
# C72: relabelling the axes — the discrete operators

No axis is special: the operators applied to a periodic field with its axes relabelled give the relabelled result.
-/

namespace JaxCfd
variable {d : ℕ} {K : Type} {σ : Equiv.Perm (Fin d)}

section fd
variable [Field K] [HasNan K] [DecidableEq K] {u v : GridVariable d K}

/-- **C72** Forward differences along an axis and along its new label. -/
theorem C72_forward_difference (h : u.Relabelled σ v) (a : Fin d) : RelS (GridArray.Relabelled σ) (forwardDifference u (σ a)) (forwardDifference v a) := by
  obtain ⟨hu, hv⟩ := h.periodic
  rw [forwardDifference_periodic hu, forwardDifference_periodic hv]
  refine RelS.ok ⟨fun b => ?_, h.grid, h.2.2.2.2.1, h.shape, h.2.2.2.2.2.2.1, fun i hi => ?_⟩
  · show Function.update v.array.offset a _ b = Function.update u.array.offset (σ a) _ (σ b)
    rw [update_relabelled h.offset, h.offset]
  · have hi' : InR v.array.shape i := hi
    dsimp only [fwdP]
    rw [h.data i hi', h.data _ (rollIdx_inR hi' _ _), original_roll h.shape, h.grid, Grid.permute_step]

/-- **C72** Backward differences. -/
theorem C72_backward_difference (h : u.Relabelled σ v) (a : Fin d) : RelS (GridArray.Relabelled σ) (backwardDifference u (σ a)) (backwardDifference v a) := by
  obtain ⟨hu, hv⟩ := h.periodic
  rw [backwardDifference_periodic hu, backwardDifference_periodic hv]
  refine RelS.ok ⟨fun b => ?_, h.grid, h.2.2.2.2.1, h.shape, h.2.2.2.2.2.2.1, fun i hi => ?_⟩
  · show Function.update v.array.offset a _ b = Function.update u.array.offset (σ a) _ (σ b)
    rw [update_relabelled h.offset, h.offset]
  · have hi' : InR v.array.shape i := hi
    dsimp only [bwdP]
    rw [h.data i hi', h.data _ (rollIdx_inR hi' _ _), original_roll h.shape, h.grid, Grid.permute_step]

/-- **C72** Central differences. -/
theorem C72_central_difference (h : u.Relabelled σ v) (a : Fin d) : RelS (GridArray.Relabelled σ) (centralDifference u (σ a)) (centralDifference v a) := by
  obtain ⟨hu, hv⟩ := h.periodic
  rw [centralDifference_periodic hu, centralDifference_periodic hv]
  refine RelS.ok ⟨h.offset, h.grid, h.2.2.2.2.1, h.shape, h.2.2.2.2.2.2.1, fun i hi => ?_⟩
  have hi' : InR v.array.shape i := hi
  dsimp only [cenP]
  rw [h.data _ (rollIdx_inR hi' _ _), h.data _ (rollIdx_inR hi' _ _), original_roll h.shape, original_roll h.shape, h.grid, Grid.permute_step]

/-- **C72** The laplacian. -/
theorem C72_laplacian (h : u.Relabelled σ v) : RelS (GridArray.Relabelled σ) (laplacian u) (laplacian v) := by
  obtain ⟨hu, hv⟩ := h.periodic
  rw [laplacian_periodic hu, laplacian_periodic hv]
  refine RelS.ok ⟨h.offset, h.grid, h.2.2.2.2.1, h.shape, h.2.2.2.2.2.2.1, fun i hi => ?_⟩
  have hi' : InR v.array.shape i := hi
  dsimp only [lapP]
  refine Eq.trans ?_ (Equiv.sum_comp σ _)
  refine Finset.sum_congr rfl fun a _ => ?_
  rw [h.data i hi', h.data _ (rollIdx_inR hi' _ _), h.data _ (rollIdx_inR hi' _ _), original_roll h.shape, original_roll h.shape, h.grid, Grid.permute_step]

/-- **C72** Explicit diffusion. -/
theorem C72_diffuse (h : u.Relabelled σ v) (nu : K) : RelS (GridArray.Relabelled σ) (diffuse u nu) (diffuse v nu) :=
  RelS.bind (C72_laplacian h) fun _ _ h1 => RelS.ok (h1.gmap _)

/-- **C72** The divergence of a velocity field. -/
theorem C72_divergence {u v : Fin d → GridVariable d K} (h : VelocityRelabelled σ u v) : RelS (GridArray.Relabelled σ) (divergence (List.ofFn u)) (divergence (List.ofFn v)) := by
  have hu : ∀ a, (u a).Periodic := fun a => by
    have := (h (σ.symm a)).periodic.1
    rwa [Equiv.apply_symm_apply] at this
  have hv : ∀ a, (v a).Periodic := fun a => (h a).periodic.2
  intro r hr
  obtain ⟨hd, hl, hdat⟩ := (divergence_periodic hu).1 hr
  have a0 : Fin d := ⟨0, by omega⟩
  have hsh : ∀ a, (v a).array.shape = fun b => r.shape (σ b) := fun a => funext fun b => by rw [(h a).shape, (hl _).1]
  have hgr : ∀ a, (v a).array.grid = r.grid.permute σ := fun a => by rw [(h a).grid, (hl _).2.2]
  refine ⟨⟨⟨fun b => r.shape (σ b), fun i => ∑ a, ((v a).array.data i - (v a).array.data (rollIdx (v a).array.shape a (-1) i)) / (v a).array.grid.step a⟩, fun b => r.offset (σ b),
    r.grid.permute σ⟩, (divergence_periodic hv).2 ⟨hd, fun a => ⟨hsh a, ?_, hgr a⟩, rfl⟩, fun _ => rfl, rfl, ?_, fun _ => rfl, ?_, fun i hi => ?_⟩
  · funext b
    rw [update_relabelled (h a).offset, (h a).offset, (hl _).2.1]
  · rw [← (hl a0).1, ← (hl a0).2.2]
    exact funext fun b => (hu a0).2 b |>.1
  · intro b
    show 0 < r.shape b
    rw [← (hl a0).1, ((hu a0).2 b).1]
    exact ((hu a0).2 b).2
  · dsimp only
    rw [hdat]
    dsimp only
    refine Eq.trans ?_ (Equiv.sum_comp σ _)
    refine Finset.sum_congr rfl fun a _ => ?_
    have hi' : InR (v a).array.shape i := by rw [hsh]; exact hi
    rw [(h a).data i hi', (h a).data _ (rollIdx_inR hi' _ _), original_roll (h a).shape, (h a).grid, Grid.permute_step]

end fd

section interp
variable [HasNan ℝ] {u v : GridVariable d ℝ}

omit [HasNan ℝ] in
theorem lerp_comm (s : Fin d → ℕ) (δ : Fin d → ℚ) (f : Idx d → ℝ) (a b : Fin d) : lerp ℝ s a (δ a) (lerp ℝ s b (δ b) f) = lerp ℝ s b (δ b) (lerp ℝ s a (δ a) f) := by
  by_cases hab : a = b
  · rw [hab]
  funext i
  have e : ∀ k l : ℤ, rollIdx s b l (rollIdx s a k i) = rollIdx s a k (rollIdx s b l i) := fun k l => rollIdx_comm s b a l k i
  unfold lerp
  simp only [e]
  split_ifs <;> ring

omit [HasNan ℝ] in
theorem lerpAll_relabelled {s s' : Fin d → ℕ} (hs : ∀ a, s' a = s (σ a)) {δ δ' : Fin d → ℚ} (hδ : ∀ a, δ' a = δ (σ a)) {f f' : Idx d → ℝ}
    (hf : ∀ i, InR s' i → f' i = f (original σ i)) (i : Idx d) (hi : InR s' i) : lerpAll s' δ' f' i = lerpAll s δ f (original σ i) := by
  have hp : lerpAll s δ f = (List.finRange d).foldl (fun f a => lerp ℝ s (σ a) (δ (σ a)) f) f := by
    unfold lerpAll
    have := List.foldl_map (f := fun a : Fin d => σ a) (g := fun f a => lerp ℝ s a (δ a) f) (l := List.finRange d) (init := f)
    rw [← this]
    have : RightCommutative fun (f : Idx d → ℝ) (a : Fin d) => lerp ℝ s a (δ a) f := ⟨fun f a b => (lerp_comm s δ f a b).symm⟩
    refine List.Perm.foldl_eq ?_ f
    refine (List.perm_ext_iff_of_nodup (List.nodup_finRange d) ((List.nodup_finRange d).map σ.injective)).2 fun a => ?_
    simp only [List.mem_finRange, true_iff, List.mem_map, true_and]
    exact ⟨σ.symm a, by simp⟩
  rw [hp]
  clear hp
  unfold lerpAll
  generalize List.finRange d = l
  induction l generalizing f f' i with
  | nil => exact hf i hi
  | cons a l ih =>
    rw [List.foldl_cons, List.foldl_cons]
    refine ih (fun j hj => ?_) i hi
    unfold lerp
    rw [hδ a, hf j hj, hf _ (rollIdx_inR hj _ _), hf _ (rollIdx_inR hj _ _), original_roll hs, original_roll hs]

/-- **C72** Linear interpolation. -/
theorem C72_linear (h : u.Relabelled σ v) {o o' : Fin d → ℚ} (ho : ∀ a, o' a = o (σ a)) : RelS (GridVariable.Relabelled σ) (linear u o) (linear v o') := by
  obtain ⟨hu, hv⟩ := h.periodic
  rw [linear_fold hu, linear_fold hv]
  refine RelS.ok ⟨h.1, h.2.1, ho, h.grid, h.2.2.2.2.1, h.shape, h.2.2.2.2.2.2.1, fun i hi => ?_⟩
  exact lerpAll_relabelled h.shape (fun a => by rw [ho, h.offset]) h.data i hi

end interp
end JaxCfd
