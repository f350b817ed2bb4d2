import Verif.Lemmas.Polynomial
import Verif.Props.Patches
import Verif.Model.SpatialDerivative

namespace JaxCfd
variable {d : ℕ}

theorem lInR_append_one {s : List ℕ} {l : List ℤ} (h : LInR s l) : LInR (s ++ [1]) (l ++ [0]) := by
  induction s generalizing l with
  | nil => cases l with
    | nil => exact ⟨by norm_num, trivial⟩
    | cons i l => exact h.elim
  | cons n s ih => cases l with
    | nil => exact h.elim
    | cons i l => exact ⟨h.1, ih h.2⟩

/-- The flattened roll is the roll along the axes if nothing is rolled, or in one dimension. -/
theorem jnpRollFlat_per (x : Chan d ℝ) (hx : ∀ a, 0 < x.shape a) (hc : x.chan = 1) (r : Fin d → ℤ) (hr : (∀ a, r a = 0) ∨ d = 1) (j : Idx d) :
    (jnpRollFlat x r).per j 0 = x.per (fun a => j a - r a) 0 := by
  have hin : InR x.shape fun a => j a % (x.shape a : ℤ) := fun a =>
    ⟨Int.emod_nonneg _ (by have := hx a; omega), Int.emod_lt_of_pos _ (by exact_mod_cast hx a)⟩
  unfold Chan.per jnpRollFlat
  dsimp only
  rw [hc]
  rcases hr with hr | rfl
  · have hs : (List.ofFn r).sum = 0 := by rw [List.sum_ofFn]; exact Finset.sum_eq_zero fun a _ => hr a
    rw [hs, sub_zero]
    have hl := lInR_append_one (lInR_ofFn hin)
    have hb := ravelIdx_bounds hl
    have : ravelIdx (List.ofFn x.shape ++ [1]) (List.ofFn (fun a => j a % (x.shape a : ℤ)) ++ [0]) % ((List.ofFn x.shape ++ [1]).prod : ℕ) =
      ravelIdx (List.ofFn x.shape ++ [1]) (List.ofFn (fun a => j a % (x.shape a : ℤ)) ++ [0]) := Int.emod_eq_of_lt hb.1 hb.2
    rw [this, unravel_ravel hl]
    have e1 : (List.ofFn (fun a => j a % (x.shape a : ℤ)) ++ [0]).getD d 0 = 0 := by
      rw [List.getD_append_right _ _ _ _ (by simp)]; simp
    rw [e1]
    congr 1
    funext a
    rw [List.getD_append _ _ _ _ (by simp), ofFn_getD, hr a, sub_zero]
  · have e : ∀ t : ℤ, unravelIdx ([x.shape 0] ++ [1]) t = [t % (x.shape 0 : ℤ), 0] := by
      intro t
      simp [unravelIdx]
    have e2 : List.ofFn x.shape = [x.shape 0] := by simp
    rw [e2, e]
    have e3 : ∀ a : Fin 1, a = 0 := fun a => Subsingleton.elim _ _
    have e4 : ([x.shape 0] ++ [1]).prod = x.shape 0 := by simp
    rw [e4]
    have e5 : (List.ofFn r).sum = r 0 := by simp
    have e6 : ravelIdx ([x.shape 0] ++ [1]) (List.ofFn (fun a => j a % (x.shape a : ℤ)) ++ [0]) = j 0 % (x.shape 0 : ℤ) := by
      simp [ravelIdx]
    rw [e5, e6]
    have e7 : (fun a : Fin 1 => ([((j 0 % (x.shape 0 : ℤ) - r 0) % (x.shape 0 : ℤ)) % (x.shape 0 : ℤ), 0] : List ℤ).getD a 0) = fun a => (j a - r a) % (x.shape a : ℤ) := by
      funext a
      rw [e3 a]
      simp [Int.sub_emod]
    rw [e7]
    rfl

theorem stencilPoints_length (st : Fin d → List ℝ) : (stencilPoints st).length = ∏ a, (st a).length := by
  unfold stencilPoints
  rw [List.length_map, cartesian_length, List.map_ofFn, List.prod_ofFn]
  rfl

theorem stencilPoints_getElem (st : Fin d → List ℝ) (k : Fin d → ℕ) (hk : ∀ a, (st a).length = k a) (m : ℕ) (hm : m < (stencilPoints st).length) :
    (stencilPoints st)[m] = fun a => (st a).getD (tileIdx k m a).toNat 0 := by
  funext a
  have hm' : m < (cartesian (List.ofFn st)).length := by unfold stencilPoints at hm; simpa using hm
  have e0 : (stencilPoints st)[m] = fun a : Fin d => ((cartesian (List.ofFn st))[m]).getD a 0 := by
    have : (stencilPoints st)[m] = ((cartesian (List.ofFn st)).map fun (l : List ℝ) (a : Fin d) => l.getD a 0)[m]'(by simpa using hm') := rfl
    rw [this, List.getElem_map]
  rw [e0]
  dsimp only
  have e : (cartesian (List.ofFn st))[m] = (cartesian (List.ofFn st)).getD m [] := by rw [List.getD_eq_getElem]
  rw [e, cartesian_getD 0 _ m (by rw [← cartesian_length]; exact hm')]
  have e2 : (List.ofFn st).map List.length = List.ofFn k := by
    rw [List.map_ofFn]; congr 1; funext a; exact hk a
  rw [e2, zipWith_ofFn_getD 0 st _ (by rw [unravelIdx_length, List.length_ofFn]) a]
  rfl

theorem applyChan_apply {pc : PolyConstraint} {x z : Chan d ℝ} (h : pc.applyChan x = .ok z) :
    z.shape = x.shape ∧ z.chan = pc.bias.length ∧ ∀ i : Idx d, ∃ c : List ℝ, pc.apply ((List.range x.chan).map fun k : ℕ => x.data i k) = .ok c ∧
      c.length = pc.bias.length ∧ ∀ m : ℕ, m < pc.bias.length → z.data i m = c.getD m 0 := by
  unfold PolyConstraint.applyChan at h
  split_ifs at h with h1
  injection h with h
  subst h
  push Not at h1
  refine ⟨rfl, rfl, fun i => ⟨(List.range pc.bias.length).map fun j : ℕ => pc.bias.getD j 0 +
    ((List.zipWith (fun t (r : List ℝ) => t * r.getD j 0) ((List.range x.chan).map fun k : ℕ => x.data i k) pc.nullspace).sum), ?_, by simp, ?_⟩⟩
  · unfold PolyConstraint.apply
    rw [if_neg (by simp [h1])]
  · intro m hm
    dsimp only
    rw [List.getD_eq_getElem (List.map _ _) _ (by simpa using hm), List.getElem_map, List.getElem_range, Int.toNat_natCast]

theorem applyCoefficients_weighted {c p z : Chan d ℝ} (h : applyCoefficients c p = .ok z) (i : Idx d) (cl : List ℝ) (hl : cl.length = p.chan)
    (hcl : ∀ m : ℕ, m < p.chan → c.data i m = cl.getD m 0) :
    z.data i 0 = weighted ((List.range p.chan).map fun m : ℕ => p.data i m) cl := by
  unfold applyCoefficients at h
  split_ifs at h with h1
  injection h with h
  subst h
  dsimp only
  change _ = dotL _ _
  rw [dotL_eq_sum _ _ (by simp [hl])]
  simp only [List.length_map, List.length_range]
  apply Finset.sum_congr rfl
  intro m hm
  rw [Finset.mem_range] at hm
  rw [hcl m hm, List.getD_eq_getElem (List.map _ _) _ (by simpa using hm), List.getElem_map, List.getElem_range]
  ring

end JaxCfd
