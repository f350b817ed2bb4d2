import Verif.Lemmas.Taylor
import Verif.Lemmas.Subgrid

/-!
# C73: accuracy of the stencils on smooth periodic functions
-/

namespace JaxCfd
variable {d : ℕ}

theorem SmoothAlong.slice {n : ℕ} {a : Fin d} {M : ℝ} {f : (Fin d → ℝ) → ℝ} (h : SmoothAlong n a M f) (x : Fin d → ℝ) :
    ContDiff ℝ n (fun t => f (Function.update x a t)) ∧ ∀ t, |iteratedDeriv n (fun t => f (Function.update x a t)) t| ≤ M := by
  refine ⟨h.1 x, fun t => ?_⟩
  have := h.2 (Function.update x a t)
  unfold partialDeriv at this
  rwa [Function.update_self, show (fun s => f (Function.update (Function.update x a t) a s)) = fun s => f (Function.update x a s) by
    funext s; rw [Function.update_idem]] at this

theorem partialDeriv_update (n : ℕ) (a : Fin d) (f : (Fin d → ℝ) → ℝ) (x : Fin d → ℝ) (t : ℝ) :
    partialDeriv n a f (Function.update x a t) = iteratedDeriv n (fun t => f (Function.update x a t)) t := by
  unfold partialDeriv
  rw [Function.update_self, show (fun s => f (Function.update (Function.update x a t) a s)) = fun s => f (Function.update x a s) by
    funext s; rw [Function.update_idem]]

section
variable [HasNan ℝ] {u : GridVariable d ℝ} {f : (Fin d → ℝ) → ℝ}

omit [HasNan ℝ] in
theorem shape_eq_of_periodic (hu : u.Periodic) : u.array.shape = u.array.grid.shape := funext fun a => (hu.2 a).1

omit [HasNan ℝ] in
/-- The sample `k` cells away. -/
theorem Samples_roll (hu : u.Periodic) (hg : u.array.grid.Valid) (hf : PeriodicOn u.array.grid f) (hs : u.array.Samples f) (a : Fin d) (k : ℤ) {i : Idx d} (hi : InR u.array.shape i) :
    u.array.data (rollIdx u.array.shape a k i) =
      f (Function.update (u.array.grid.position u.array.offset i) a (u.array.grid.position u.array.offset i a + k * u.array.grid.step a)) := by
  rw [hs _ (rollIdx_inR hi a k), sample_roll hg hf (shape_eq_of_periodic hu)]

omit [HasNan ℝ] in
theorem Samples_self (hs : u.array.Samples f) (a : Fin d) {i : Idx d} (hi : InR u.array.shape i) :
    u.array.data i = f (Function.update (u.array.grid.position u.array.offset i) a (u.array.grid.position u.array.offset i a)) := by
  rw [hs _ hi, Function.update_eq_self]

/-- **C73** The forward difference of samples of a smooth function approximates the derivative at the offset it is labelled with, to second order. -/
theorem C73_forward_difference (hu : u.Periodic) (hg : u.array.grid.Valid) (hf : PeriodicOn u.array.grid f) (hs : u.array.Samples f) (a : Fin d) (M : ℝ) (hM : SmoothAlong 3 a M f) :
    ∃ r, forwardDifference u a = .ok r ∧ r.grid = u.array.grid ∧ r.shape = u.array.shape ∧ r.offset = Function.update u.array.offset a (u.array.offset a + 1 / 2) ∧
      r.Approximates (partialDeriv 1 a f) (M * u.array.grid.step a ^ 2 / 24) := by
  refine ⟨_, forwardDifference_periodic hu a, rfl, rfl, rfl, fun i hi => ?_⟩
  have hi' : InR u.array.shape i := hi
  show |(u.array.data (rollIdx u.array.shape a 1 i) - u.array.data i) / u.array.grid.step a - partialDeriv 1 a f (u.array.grid.position _ i)| ≤ _
  rw [position_update, partialDeriv_update, Samples_roll hu hg hf hs a 1 hi', Samples_self hs a hi']
  have := half_bound (hM.slice (u.array.grid.position u.array.offset i)).1 (hM.slice (u.array.grid.position u.array.offset i)).2
    (u.array.grid.position u.array.offset i a + 1 / 2 * u.array.grid.step a) (hg.step_pos a)
  convert this using 4
  · congr 3
    · push_cast; ring
    · congr 1; ring
  · push_cast; ring

/-- **C73** The backward difference. -/
theorem C73_backward_difference (hu : u.Periodic) (hg : u.array.grid.Valid) (hf : PeriodicOn u.array.grid f) (hs : u.array.Samples f) (a : Fin d) (M : ℝ) (hM : SmoothAlong 3 a M f) :
    ∃ r, backwardDifference u a = .ok r ∧ r.grid = u.array.grid ∧ r.shape = u.array.shape ∧ r.offset = Function.update u.array.offset a (u.array.offset a - 1 / 2) ∧
      r.Approximates (partialDeriv 1 a f) (M * u.array.grid.step a ^ 2 / 24) := by
  refine ⟨_, backwardDifference_periodic hu a, rfl, rfl, rfl, fun i hi => ?_⟩
  have hi' : InR u.array.shape i := hi
  show |(u.array.data i - u.array.data (rollIdx u.array.shape a (-1) i)) / u.array.grid.step a - partialDeriv 1 a f (u.array.grid.position _ i)| ≤ _
  rw [position_update, partialDeriv_update, Samples_roll hu hg hf hs a (-1) hi', Samples_self hs a hi']
  have := half_bound (hM.slice (u.array.grid.position u.array.offset i)).1 (hM.slice (u.array.grid.position u.array.offset i)).2
    (u.array.grid.position u.array.offset i a - 1 / 2 * u.array.grid.step a) (hg.step_pos a)
  convert this using 4
  · congr 3
    · congr 1; ring
    · push_cast; ring
  · push_cast; ring

/-- **C73** The central difference. -/
theorem C73_central_difference (hu : u.Periodic) (hg : u.array.grid.Valid) (hf : PeriodicOn u.array.grid f) (hs : u.array.Samples f) (a : Fin d) (M : ℝ) (hM : SmoothAlong 3 a M f) :
    ∃ r, centralDifference u a = .ok r ∧ r.grid = u.array.grid ∧ r.shape = u.array.shape ∧ r.offset = u.array.offset ∧
      r.Approximates (partialDeriv 1 a f) (M * u.array.grid.step a ^ 2 / 6) := by
  refine ⟨_, centralDifference_periodic hu a, rfl, rfl, rfl, fun i hi => ?_⟩
  have hi' : InR u.array.shape i := hi
  show |(u.array.data (rollIdx u.array.shape a 1 i) - u.array.data (rollIdx u.array.shape a (-1) i)) / (2 * u.array.grid.step a) - partialDeriv 1 a f (u.array.grid.position u.array.offset i)| ≤ _
  rw [Samples_roll hu hg hf hs a 1 hi', Samples_roll hu hg hf hs a (-1) hi']
  have := central_bound (hM.slice (u.array.grid.position u.array.offset i)).1 (hM.slice (u.array.grid.position u.array.offset i)).2
    (u.array.grid.position u.array.offset i a) (hg.step_pos a)
  simp only [Int.cast_one, Int.cast_neg, one_mul, neg_mul, ← sub_eq_add_neg]
  exact this

/-- **C73** The Laplacian of samples of a smooth function approximates the sum of the second derivatives to second order. -/
theorem C73_laplacian (hu : u.Periodic) (hg : u.array.grid.Valid) (hf : PeriodicOn u.array.grid f) (hs : u.array.Samples f) (M : Fin d → ℝ) (hM : ∀ a, SmoothAlong 4 a (M a) f) :
    ∃ r, laplacian u = .ok r ∧ r.grid = u.array.grid ∧ r.shape = u.array.shape ∧ r.offset = u.array.offset ∧
      r.Approximates (fun x => ∑ a, partialDeriv 2 a f x) (∑ a, M a * u.array.grid.step a ^ 2 / 12) := by
  refine ⟨_, laplacian_periodic hu, rfl, rfl, rfl, fun i hi => ?_⟩
  have hi' : InR u.array.shape i := hi
  show |(∑ a : Fin d, _ : ℝ) - ∑ a, partialDeriv 2 a f (u.array.grid.position u.array.offset i)| ≤ _
  rw [← Finset.sum_sub_distrib]
  refine (Finset.abs_sum_le_sum_abs _ _).trans (Finset.sum_le_sum fun a _ => ?_)
  rw [Samples_roll hu hg hf hs a 1 hi', Samples_roll hu hg hf hs a (-1) hi', Samples_self hs a hi']
  have := second_bound ((hM a).slice (u.array.grid.position u.array.offset i)).1 ((hM a).slice (u.array.grid.position u.array.offset i)).2
    (u.array.grid.position u.array.offset i a) (hg.step_pos a)
  simp only [Int.cast_one, Int.cast_neg, one_mul, neg_mul, ← sub_eq_add_neg]
  simpa only [partialDeriv] using this

end
end JaxCfd
