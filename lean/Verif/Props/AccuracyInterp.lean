import Verif.Props.Accuracy

/-!
# C73: accuracy of linear interpolation
-/

namespace JaxCfd
variable {d : ℕ} [HasNan ℝ]

omit [HasNan ℝ] in
/-- Linear interpolation along one axis of approximate samples. -/
theorem lerp_approximates {g : Grid d ℝ} (hg : g.Valid) {f : (Fin d → ℝ) → ℝ} (hf : PeriodicOn g f) (a : Fin d) {M ε : ℝ} (hM : SmoothAlong 2 a M f) (o : Fin d → ℚ) (δ : ℚ) (F : Idx d → ℝ)
    (hF : ∀ i : Idx d, InR g.shape i → |F i - f (g.position o i)| ≤ ε) (i : Idx d) (hi : InR g.shape i) :
    |lerp ℝ g.shape a δ F i - f (g.position (Function.update o a (o a + δ)) i)| ≤ ε + M * g.step a ^ 2 / 8 := by
  have hM0 : 0 ≤ M := (abs_nonneg _).trans (hM.2 (g.position o i))
  have hpos : 0 ≤ M * g.step a ^ 2 / 8 := by positivity
  have hroll : ∀ k : ℤ, |F (rollIdx g.shape a k i) - f (Function.update (g.position o i) a (g.position o i a + k * g.step a))| ≤ ε := fun k => by
    rw [← sample_roll hg hf rfl o a k i]
    exact hF _ (rollIdx_inR hi a k)
  rw [position_update, show ((o a + δ : ℚ) : ℝ) - (o a : ℝ) = (δ : ℝ) by push_cast; ring]
  unfold lerp
  split_ifs with h0 h1
  · rw [h0]
    simp only [Rat.cast_zero, zero_mul, add_zero, Function.update_eq_self]
    exact (hF i hi).trans (by linarith)
  · have := hroll ⌊δ⌋
    have e : ((⌊δ⌋ : ℤ) : ℝ) = (δ : ℝ) := by exact_mod_cast congrArg (fun q : ℚ => (q : ℝ)) h1
    rw [e] at this
    exact this.trans (by linarith)
  · have hc : ⌈δ⌉ = ⌊δ⌋ + 1 := by
      rw [Int.ceil_eq_iff]
      push_cast
      have h2 := Int.floor_le δ
      have h3 := Int.lt_floor_add_one δ
      refine ⟨?_, h3.le⟩
      rcases h2.lt_or_eq with h | h
      · linarith
      · exact absurd h h1
    have hw : ((1 - floorWeight δ : ℚ) : ℝ) = (δ : ℝ) - (⌊δ⌋ : ℤ) := by
      unfold floorWeight
      rw [hc]
      push_cast
      ring
    have hw' : (floorWeight δ : ℝ) = 1 - ((δ : ℝ) - (⌊δ⌋ : ℤ)) := by rw [← hw]; push_cast; ring
    rw [hw, hw']
    set w : ℝ := (δ : ℝ) - (⌊δ⌋ : ℤ) with hwd
    have w0 : 0 ≤ w := by
      have : ((⌊δ⌋ : ℤ) : ℝ) ≤ (δ : ℝ) := by exact_mod_cast Int.floor_le δ
      linarith
    have w1 : w ≤ 1 := by
      have : (δ : ℝ) < (⌊δ⌋ : ℤ) + 1 := by exact_mod_cast Int.lt_floor_add_one δ
      linarith
    have hl := lerp_bound (hM.slice (g.position o i)).1 (hM.slice (g.position o i)).2 (g.position o i a + (⌊δ⌋ : ℤ) * g.step a) (g.step a) w0 w1
    have hf1 := hroll ⌊δ⌋
    have hf2 := hroll ⌈δ⌉
    rw [hc] at hf2 ⊢
    push_cast at hf2
    rw [show g.position o i a + ((⌊δ⌋ : ℤ) + 1) * g.step a = g.position o i a + (⌊δ⌋ : ℤ) * g.step a + g.step a by ring] at hf2
    rw [show g.position o i a + (⌊δ⌋ : ℤ) * g.step a + w * g.step a = g.position o i a + (δ : ℝ) * g.step a by rw [hwd]; ring] at hl
    set A := f (Function.update (g.position o i) a (g.position o i a + (⌊δ⌋ : ℤ) * g.step a))
    set B := f (Function.update (g.position o i) a (g.position o i a + (⌊δ⌋ : ℤ) * g.step a + g.step a))
    have e : (1 - w) * F (rollIdx g.shape a ⌊δ⌋ i) + w * F (rollIdx g.shape a (⌊δ⌋ + 1) i) - f (Function.update (g.position o i) a (g.position o i a + (δ : ℝ) * g.step a)) =
        (1 - w) * (F (rollIdx g.shape a ⌊δ⌋ i) - A) + w * (F (rollIdx g.shape a (⌊δ⌋ + 1) i) - B) +
          ((1 - w) * A + w * B - f (Function.update (g.position o i) a (g.position o i a + (δ : ℝ) * g.step a))) := by ring
    rw [e]
    refine (abs_add_le _ _).trans (add_le_add ((abs_add_le _ _).trans ?_) hl)
    rw [abs_mul, abs_mul, abs_of_nonneg w0, abs_of_nonneg (by linarith : 0 ≤ 1 - w)]
    nlinarith [mul_le_mul_of_nonneg_left hf1 (by linarith : 0 ≤ 1 - w), mul_le_mul_of_nonneg_left hf2 w0]

omit [HasNan ℝ] in
/-- Several axes one after the other. -/
theorem lerps_approximate {g : Grid d ℝ} (hg : g.Valid) {f : (Fin d → ℝ) → ℝ} (hf : PeriodicOn g f) {M : Fin d → ℝ} (hM : ∀ a, SmoothAlong 2 a (M a) f) (o : Fin d → ℚ) :
    ∀ (l : List (Fin d)), l.Nodup → ∀ (o₀ : Fin d → ℚ) (ε : ℝ) (F : Idx d → ℝ), (∀ i : Idx d, InR g.shape i → |F i - f (g.position o₀ i)| ≤ ε) → ∀ i : Idx d, InR g.shape i →
      |l.foldl (fun F a => lerp ℝ g.shape a (o a - o₀ a) F) F i - f (g.position (fun a => if a ∈ l then o a else o₀ a) i)| ≤ ε + (l.map fun a => M a * g.step a ^ 2 / 8).sum := by
  intro l
  induction l with
  | nil => intro _ o₀ ε F hF i hi; simpa using hF i hi
  | cons a l ih =>
    intro hn o₀ ε F hF i hi
    have hal : a ∉ l := (List.nodup_cons.1 hn).1
    have h1 := lerp_approximates hg hf a (hM a) o₀ (o a - o₀ a) F hF
    rw [add_sub_cancel] at h1
    have h2 := ih (List.nodup_cons.1 hn).2 (Function.update o₀ a (o a)) _ _ h1 i hi
    have e1 : l.foldl (fun F b => lerp ℝ g.shape b (o b - Function.update o₀ a (o a) b) F) (lerp ℝ g.shape a (o a - o₀ a) F) =
        (a :: l).foldl (fun F b => lerp ℝ g.shape b (o b - o₀ b) F) F := by
      rw [List.foldl_cons]
      refine List.foldl_ext _ _ _ fun F b hb => ?_
      rw [Function.update_of_ne (fun h : b = a => hal (h ▸ hb))]
    have e2 : (fun b => if b ∈ l then o b else Function.update o₀ a (o a) b) = fun b => if b ∈ a :: l then o b else o₀ b := by
      funext b
      by_cases hb : b ∈ l
      · rw [if_pos hb, if_pos (List.mem_cons_of_mem _ hb)]
      · rcases eq_or_ne b a with rfl | hba
        · rw [if_neg hb, if_pos List.mem_cons_self, Function.update_self]
        · rw [if_neg hb, if_neg (by simp [hb, hba]), Function.update_of_ne hba]
    rw [e1, e2] at h2
    refine h2.trans (le_of_eq ?_)
    rw [List.map_cons, List.sum_cons]
    ring

/-- **C73** Linear interpolation of samples of a smooth function to any other offset is second order accurate; approximate samples (error at most `ε`) give an error at most `ε` larger. -/
theorem C73_linear {u : GridVariable d ℝ} {f : (Fin d → ℝ) → ℝ} (hu : u.Periodic) (hg : u.array.grid.Valid) (hf : PeriodicOn u.array.grid f) (ε : ℝ) (hs : u.array.Approximates f ε)
    (M : Fin d → ℝ) (hM : ∀ a, SmoothAlong 2 a (M a) f) (o : Fin d → ℚ) :
    ∃ r, linear u o = .ok r ∧ r.array.grid = u.array.grid ∧ r.array.shape = u.array.shape ∧ r.array.offset = o ∧ r.array.Approximates f (ε + ∑ a, M a * u.array.grid.step a ^ 2 / 8) := by
  refine ⟨_, linear_fold hu o, rfl, rfl, rfl, fun i hi => ?_⟩
  have hi' : InR u.array.grid.shape i := by rw [← shape_eq_of_periodic hu]; exact hi
  have := lerps_approximate hg hf hM o (List.finRange d) (List.nodup_finRange d) u.array.offset ε u.array.data
    (fun i hi => hs i (by rw [shape_eq_of_periodic hu]; exact hi)) i hi'
  simp only [List.mem_finRange, if_true] at this
  have es : ((List.finRange d).map fun a => M a * u.array.grid.step a ^ 2 / 8).sum = ∑ a, M a * u.array.grid.step a ^ 2 / 8 := by
    rw [← List.ofFn_eq_map, List.sum_ofFn]
  rw [es] at this
  show |lerpAll u.array.shape (fun a => o a - u.array.offset a) u.array.data i - _| ≤ _
  rw [shape_eq_of_periodic hu]
  exact this

end JaxCfd
