import Verif.Props.PointInterpolation
import Verif.Lemmas.Subgrid

/-!
# C66: agreement of `point_interpolation` with `interpolation.linear`
-/

namespace JaxCfd
variable {d : ℕ}

theorem lerp_eq (s : Fin d → ℕ) (a : Fin d) (δ : ℚ) (g : Idx d → ℝ) (i : Idx d) (hi : InR s i) :
    lerp ℝ s a δ g i = (1 - Int.fract (δ : ℝ)) * g (rollIdx s a ⌊(δ : ℝ)⌋ i) + Int.fract (δ : ℝ) * g (rollIdx s a (⌊(δ : ℝ)⌋ + 1) i) := by
  have hfl : ⌊(δ : ℝ)⌋ = ⌊δ⌋ := Rat.floor_cast δ
  have hfr : Int.fract (δ : ℝ) = ((Int.fract δ : ℚ) : ℝ) := by
    unfold Int.fract
    rw [hfl]
    push_cast
    rfl
  rw [hfl, hfr]
  unfold lerp
  by_cases hz : Int.fract δ = 0
  · have hint : ((⌊δ⌋ : ℤ) : ℚ) = δ := by
      have := Int.floor_add_fract δ
      linarith
    rw [hz]
    push_cast
    split_ifs with h0
    · subst h0
      rw [Int.floor_zero, rollIdx_zero hi]
      ring
    · ring
  · have hint : ((⌊δ⌋ : ℤ) : ℚ) ≠ δ := by
      intro h
      apply hz
      have := Int.floor_add_fract δ
      linarith
    have h0 : δ ≠ 0 := by
      rintro rfl
      simp at hz
    have hc : ⌈δ⌉ = ⌊δ⌋ + 1 := by
      have h1 := Int.fract_nonneg δ
      have h2 := Int.fract_lt_one δ
      have h3 := Int.floor_add_fract δ
      have h4 : 0 < Int.fract δ := lt_of_le_of_ne h1 (Ne.symm hz)
      exact Int.ceil_eq_iff.2 ⟨by push_cast; linarith, by push_cast; linarith⟩
    rw [if_neg h0, if_neg hint, hc]
    have hw : floorWeight δ = 1 - Int.fract δ := by
      unfold floorWeight Int.fract
      rw [hc]
      push_cast
      ring
    rw [hw]
    push_cast
    ring

theorem lerp_weight (s : Fin d → ℕ) (a : Fin d) (δ : ℚ) (g : Idx d → ℝ) (i : Idx d) (hi : InR s i) :
    lerp ℝ s a δ g i = ∑ k ∈ Finset.Ico (0 : ℤ) (s a), axisWeight 1 .wrap (s a) (i a + δ) k * g (Function.update i a k) := by
  classical
  have hn : (0 : ℤ) < s a := lt_of_le_of_lt (hi a).1 (hi a).2
  rw [lerp_eq s a δ g i hi]
  have e1 : ⌊(i a : ℝ) + δ⌋ = i a + ⌊(δ : ℝ)⌋ := Int.floor_intCast_add _ _
  have e2 : Int.fract ((i a : ℝ) + δ) = Int.fract (δ : ℝ) := Int.fract_intCast_add _ _
  unfold axisWeight
  simp only [if_neg one_ne_zero, e1, e2, add_mul, Finset.sum_add_distrib, mul_assoc, ← Finset.mul_sum, ite_mul, one_mul, zero_mul]
  unfold ExtendMode.fix
  dsimp only
  rw [Finset.sum_ite_eq, Finset.sum_ite_eq, if_pos (Finset.mem_Ico.2 ⟨Int.emod_nonneg _ hn.ne', Int.emod_lt_of_pos _ hn⟩),
    if_pos (Finset.mem_Ico.2 ⟨Int.emod_nonneg _ hn.ne', Int.emod_lt_of_pos _ hn⟩)]
  unfold rollIdx
  rw [add_assoc]

open Classical in
theorem lerp_list (s : Fin d → ℕ) (δ : Fin d → ℚ) (f : Idx d → ℝ) (l : List (Fin d)) (hl : l.Nodup) (i : Idx d) (hi : InR s i) :
    l.foldl (fun f a => lerp ℝ s a (δ a) f) f i =
      ∑ j ∈ box s, f j * ∏ a, (if a ∈ l then axisWeight 1 .wrap (s a) (i a + δ a) (j a) else if i a = j a then 1 else 0) := by
  induction l using List.reverseRecOn generalizing i with
  | nil =>
      rw [List.foldl_nil]
      have : ∀ j : Idx d, (∏ a, if a ∈ ([] : List (Fin d)) then axisWeight 1 .wrap (s a) (i a + δ a) (j a) else if i a = j a then (1 : ℝ) else 0) = if j = i then 1 else 0 := by
        intro j
        simp only [List.not_mem_nil, if_false]
        split_ifs with he
        · rw [he]
          simp
        · obtain ⟨a, ha⟩ : ∃ a, j a ≠ i a := by
            by_contra hc
            push Not at hc
            exact he (funext hc)
          exact Finset.prod_eq_zero (Finset.mem_univ a) (if_neg fun h => ha h.symm)
      simp only [this, mul_ite, mul_one, mul_zero]
      rw [Finset.sum_ite_eq', if_pos (mem_box.2 hi)]
  | append_singleton l a ih =>
      have hnd := List.nodup_append.1 hl
      have ha : a ∉ l := fun h => hnd.2.2 a h a (by simp) rfl
      rw [List.foldl_append, List.foldl_cons, List.foldl_nil, lerp_weight s a (δ a) _ i hi]
      have hin : ∀ k ∈ Finset.Ico (0 : ℤ) (s a), InR s (Function.update i a k) := by
        intro k hk b
        rw [Finset.mem_Ico] at hk
        rcases eq_or_ne b a with rfl | hb
        · rw [Function.update_self]
          exact hk
        · rw [Function.update_of_ne hb]
          exact hi b
      rw [Finset.sum_congr rfl fun k hk => by rw [ih hnd.1 _ (hin k hk)]]
      simp only [Finset.mul_sum]
      rw [Finset.sum_comm]
      refine Finset.sum_congr rfl fun j hj => ?_
      have hja := inr_of_mem_box hj a
      have hsplit : ∀ k : ℤ, (∏ b, if b ∈ l then axisWeight 1 .wrap (s b) (Function.update i a k b + δ b) (j b) else if Function.update i a k b = j b then (1 : ℝ) else 0) =
          (if k = j a then 1 else 0) * ∏ b ∈ Finset.univ.erase a, (if b ∈ l then axisWeight 1 .wrap (s b) (i b + δ b) (j b) else if i b = j b then (1 : ℝ) else 0) := by
        intro k
        rw [← Finset.mul_prod_erase _ _ (Finset.mem_univ a), if_neg ha, Function.update_self]
        congr 1
        refine Finset.prod_congr rfl fun b hb => ?_
        rw [Function.update_of_ne (Finset.ne_of_mem_erase hb)]
      have hsplit' : (∏ b, if b ∈ l ++ [a] then axisWeight 1 .wrap (s b) (i b + δ b) (j b) else if i b = j b then (1 : ℝ) else 0) =
          axisWeight 1 .wrap (s a) (i a + δ a) (j a) * ∏ b ∈ Finset.univ.erase a, (if b ∈ l then axisWeight 1 .wrap (s b) (i b + δ b) (j b) else if i b = j b then (1 : ℝ) else 0) := by
        rw [← Finset.mul_prod_erase _ _ (Finset.mem_univ a), if_pos (by simp)]
        congr 1
        refine Finset.prod_congr rfl fun b hb => ?_
        have : b ∈ l ++ [a] ↔ b ∈ l := by simp [Finset.ne_of_mem_erase hb]
        simp only [this]
      rw [hsplit']
      simp only [hsplit]
      have e : ∀ k : ℤ, axisWeight 1 .wrap (s a) (i a + δ a) k * (f j * ((if k = j a then 1 else 0) * ∏ b ∈ Finset.univ.erase a, (if b ∈ l then axisWeight 1 .wrap (s b) (i b + δ b) (j b) else if i b = j b then (1 : ℝ) else 0))) =
          if k = j a then axisWeight 1 .wrap (s a) (i a + δ a) k * (f j * ∏ b ∈ Finset.univ.erase a, (if b ∈ l then axisWeight 1 .wrap (s b) (i b + δ b) (j b) else if i b = j b then (1 : ℝ) else 0)) else 0 := by
        intro k
        split_ifs <;> ring
      simp only [e]
      rw [Finset.sum_ite_eq', if_pos (Finset.mem_Ico.2 hja)]
      ring

/-- **C66.** The two interpolations agree: for a periodic variable, `point_interpolation` with order 1 and mode `wrap` at the position of entry `i` of the
array with offset `o` is entry `i` of `linear(c, o)`. -/
theorem C66_matches_linear [HasNan ℝ] (c : GridVariable d ℝ) (hc : c.Periodic) (h : ValidCall c.array 1 "wrap" .wrap) (o : Fin d → ℚ) (cval : ℝ) (i : Idx d) (hi : InR c.array.shape i) :
    ∃ r, linear c o = .ok r ∧ r.array.offset = o ∧ r.array.grid = c.array.grid ∧
      pointInterpolation (place r.array fun a => (i a : ℝ)) c.array 1 "wrap" cval = .ok (r.array.data i) := by
  refine ⟨_, linear_fold hc o, rfl, rfl, ?_⟩
  dsimp only
  have hp : place (⟨⟨c.array.shape, lerpAll c.array.shape (fun a => o a - c.array.offset a) c.array.data⟩, o, c.array.grid⟩ : GridArray d ℝ) (fun a => (i a : ℝ)) =
      place c.array fun a => (i a : ℝ) + ((o a - c.array.offset a : ℚ) : ℝ) := by
    funext a
    unfold place
    push_cast
    ring
  rw [hp, h.eq]
  congr 1
  have hone : ∑ j ∈ box c.array.shape, ∏ a, axisWeight 1 .wrap (c.array.shape a) ((i a : ℝ) + ((o a - c.array.offset a : ℚ) : ℝ)) (j a) = 1 := by
    rw [sum_box_prod fun a => axisWeight 1 .wrap (c.array.shape a) ((i a : ℝ) + ((o a - c.array.offset a : ℚ) : ℝ))]
    exact Finset.prod_eq_one fun a _ => (axisWeight_sum (h.usable a) _).2 (by decide)
  simp only [sub_mul, Finset.sum_sub_distrib, ← Finset.mul_sum]
  rw [hone, mul_one, add_sub_cancel]
  unfold lerpAll
  rw [lerp_list _ _ _ _ (List.nodup_finRange d) i hi]
  refine Finset.sum_congr rfl fun j _ => ?_
  simp

/-- Non-vacuity: a periodic cell-centred variable on 3 cells meets the hypotheses. -/
example : ∃ c : GridVariable 1 ℝ, c.Periodic ∧ ValidCall c.array 1 "wrap" .wrap :=
  ⟨⟨⟨⟨fun _ => 3, fun i => (i 0 : ℝ) ^ 2⟩, fun _ => 1 / 2, ⟨fun _ => 3, fun _ => (0, 1)⟩⟩, ⟨.homogeneous, fun _ => (.periodic, .periodic), fun _ => (some 0, some 0)⟩⟩,
    ⟨fun _ => rfl, fun _ => ⟨rfl, by norm_num⟩⟩,
    ⟨by norm_num, fun a => ⟨by norm_num, by norm_num⟩, .inr rfl, rfl, fun a => ⟨by norm_num, fun h => nomatch h⟩⟩⟩

end JaxCfd
