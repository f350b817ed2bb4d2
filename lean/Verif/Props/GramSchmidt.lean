import Verif.Model.GramSchmidt
import Verif.Lemmas.Boundaries
import Mathlib.LinearAlgebra.LinearIndependent.Lemmas
import Mathlib.LinearAlgebra.Matrix.NonsingularInverse
import Mathlib.Data.List.GetD
import Mathlib.LinearAlgebra.Matrix.Block

/-! # C44: Gram-Schmidt QR decomposition -/

namespace JaxCfd
open Matrix
variable {n m : ℕ}

theorem qColumns_append (l : List (Fin n → ℝ)) (c : Fin n → ℝ) : qColumns (l ++ [c]) = qColumns l ++ [orthogonalize c (qColumns l)] := by
  simp [qColumns]

theorem qColumns_length (l : List (Fin n → ℝ)) : (qColumns l).length = l.length := by
  induction l using List.reverseRecOn with
  | nil => rfl
  | append_singleton l c ih => rw [qColumns_append]; simp [ih]

theorem qColumns_take (l : List (Fin n → ℝ)) (k : ℕ) (hk : k ≤ l.length) : (qColumns l).take k = qColumns (l.take k) := by
  induction l using List.reverseRecOn with
  | nil => simp [qColumns]
  | append_singleton l c ih =>
    rcases Nat.lt_or_ge l.length k with h | h
    · have : k = (l ++ [c]).length := by simp at hk ⊢; omega
      rw [List.take_of_length_le (by rw [qColumns_length, this]), List.take_of_length_le (by omega)]
    · rw [qColumns_append, List.take_append_of_le_length (by rw [qColumns_length]; exact h),
        List.take_append_of_le_length h, ih h]

theorem qColumns_getD (l : List (Fin n → ℝ)) (k : ℕ) (hk : k < l.length) :
    (qColumns l).getD k 0 = orthogonalize (l.getD k 0) ((qColumns l).take k) := by
  have h1 : (qColumns l).getD k 0 = ((qColumns l).take (k + 1)).getD k 0 := by
    rw [List.getD_eq_getElem _ _ (by rw [qColumns_length]; exact hk), List.getD_eq_getElem _ _ (by rw [List.length_take, qColumns_length]; omega)]
    simp
  rw [h1, qColumns_take l (k + 1) (by omega), qColumns_take l k (by omega), List.take_succ_eq_append_getElem hk, qColumns_append,
    List.getD_append_right _ _ _ _ (by rw [qColumns_length, List.length_take]; omega)]
  rw [qColumns_length, List.length_take, min_eq_left (by omega), Nat.sub_self, List.getD_cons_zero, List.getD_eq_getElem _ _ hk]

/-- The residual of modified Gram-Schmidt against an orthonormal list. -/
theorem mgs_fold (qs : List (Fin n → ℝ)) (v : Fin n → ℝ) (horth : qs.Pairwise fun a b => a ⬝ᵥ b = 0) (hone : ∀ q ∈ qs, q ⬝ᵥ q = 1) :
    qs.foldl (fun c x => c - (c ⬝ᵥ x) • x) v = v - (qs.map fun q => (v ⬝ᵥ q) • q).sum ∧
    ∀ q ∈ qs, qs.foldl (fun c x => c - (c ⬝ᵥ x) • x) v ⬝ᵥ q = 0 := by
  induction qs generalizing v with
  | nil => simp
  | cons x xs ih =>
    obtain ⟨hx, hxs⟩ := List.pairwise_cons.1 horth
    obtain ⟨e, z⟩ := ih (v - (v ⬝ᵥ x) • x) hxs (fun q hq => hone q (by simp [hq]))
    have hdot : ∀ q ∈ xs, (v - (v ⬝ᵥ x) • x) ⬝ᵥ q = v ⬝ᵥ q := by
      intro q hq
      rw [sub_dotProduct, smul_dotProduct, hx q hq, smul_zero, sub_zero]
    have hmap : xs.map (fun q => ((v - (v ⬝ᵥ x) • x) ⬝ᵥ q) • q) = xs.map fun q => (v ⬝ᵥ q) • q := by
      apply List.map_congr_left
      intro q hq
      rw [hdot q hq]
    rw [List.foldl_cons]
    constructor
    · rw [e, hmap, List.map_cons, List.sum_cons, sub_sub]
    · intro q hq
      rcases List.mem_cons.1 hq with rfl | hq
      · rw [e, hmap, sub_dotProduct, sub_dotProduct, smul_dotProduct, hone q (by simp)]
        have : (xs.map fun p => (v ⬝ᵥ p) • p).sum ⬝ᵥ q = 0 := by
          have : ∀ l : List (Fin n → ℝ), (∀ p ∈ l, q ⬝ᵥ p = 0) → (l.map fun p => (v ⬝ᵥ p) • p).sum ⬝ᵥ q = 0 := by
            intro l
            induction l with
            | nil => simp
            | cons p l ih' =>
              intro h
              rw [List.map_cons, List.sum_cons, add_dotProduct, smul_dotProduct, dotProduct_comm p q, h p (by simp), smul_zero,
                ih' (fun p hp => h p (by simp [hp])), zero_add]
          exact this xs hx
        rw [this]; simp
      · exact z q hq

/-- What the loop establishes: orthonormal columns whose partial spans are those of the input. -/
theorem qColumns_spec (l : List (Fin n → ℝ)) (hl : ∀ k, k < l.length → l.getD k 0 ∉ Submodule.span ℝ {v | v ∈ l.take k}) :
    (qColumns l).Pairwise (fun a b => a ⬝ᵥ b = 0) ∧ (∀ q ∈ qColumns l, q ⬝ᵥ q = 1) ∧
    (∀ q ∈ qColumns l, q ∈ Submodule.span ℝ {v | v ∈ l}) ∧
    ∀ k, k < l.length → l.getD k 0 = (((qColumns l).take (k + 1)).map fun q => (l.getD k 0 ⬝ᵥ q) • q).sum ∧
      0 < l.getD k 0 ⬝ᵥ (qColumns l).getD k 0 := by
  induction l using List.reverseRecOn with
  | nil => simp [qColumns]
  | append_singleton l c ih =>
    obtain ⟨i1, i2, i3, i4⟩ := ih (fun k hk => by
      have := hl k (by simp; omega)
      rwa [List.getD_append _ _ _ _ hk, List.take_append_of_le_length (by omega)] at this)
    obtain ⟨e, z⟩ := mgs_fold (qColumns l) c i1 i2
    set w := (qColumns l).foldl (fun c x => c - (c ⬝ᵥ x) • x) c with hw
    have hsum : ((qColumns l).map fun q => (c ⬝ᵥ q) • q).sum ∈ Submodule.span ℝ {v | v ∈ l} := by
      apply list_sum_mem
      intro x hx
      obtain ⟨q, hq, rfl⟩ := List.mem_map.1 hx
      exact Submodule.smul_mem _ _ (i3 q hq)
    have hw0 : w ≠ 0 := by
      intro h0
      have := hl l.length (by simp)
      rw [List.getD_append_right _ _ _ _ le_rfl, Nat.sub_self, List.getD_cons_zero, List.take_left'  rfl] at this
      apply this
      rw [h0] at e
      rw [← sub_eq_zero.1 e.symm] at hsum
      exact hsum
    have hww : 0 < w ⬝ᵥ w := lt_of_le_of_ne (Finset.sum_nonneg fun i _ => mul_self_nonneg _) (fun h => hw0 (dotProduct_self_eq_zero.1 h.symm))
    have hn : 0 < vnorm w := Real.sqrt_pos.2 hww
    have hnn : vnorm w * vnorm w = w ⬝ᵥ w := Real.mul_self_sqrt hww.le
    set q := orthogonalize c (qColumns l) with hq
    have hqw : q = (vnorm w)⁻¹ • w := rfl
    have hqq : q ⬝ᵥ q = 1 := by
      rw [hqw, smul_dotProduct, dotProduct_smul, ← hnn]
      simp only [smul_eq_mul]
      field_simp
    have hqz : ∀ p ∈ qColumns l, q ⬝ᵥ p = 0 := by
      intro p hp
      rw [hqw, smul_dotProduct, z p hp, smul_zero]
    have hwq : w = vnorm w • q := by
      rw [hqw, smul_smul, mul_inv_cancel₀ hn.ne', one_smul]
    have hzero : ∀ ps : List (Fin n → ℝ), (∀ p ∈ ps, q ⬝ᵥ p = 0) → (ps.map fun p => (c ⬝ᵥ p) • p).sum ⬝ᵥ q = 0 := by
      intro ps
      induction ps with
      | nil => simp
      | cons p ps ih' =>
        intro h
        rw [List.map_cons, List.sum_cons, add_dotProduct, smul_dotProduct, dotProduct_comm p q, h p (by simp), smul_zero,
          ih' (fun p hp => h p (by simp [hp])), zero_add]
    have hcq : c ⬝ᵥ q = vnorm w := by
      have : c = w + ((qColumns l).map fun q => (c ⬝ᵥ q) • q).sum := by rw [e]; abel
      have h' := congrArg (fun v => v ⬝ᵥ q) this
      beta_reduce at h'
      rw [add_dotProduct, hzero _ hqz, add_zero] at h'
      rw [h']
      conv_lhs => rw [hwq]
      rw [smul_dotProduct, hqq, smul_eq_mul, mul_one]
    have hmono : Submodule.span ℝ {v | v ∈ l} ≤ Submodule.span ℝ {v | v ∈ l ++ [c]} :=
      Submodule.span_mono (fun v hv => by simp at hv ⊢; exact Or.inl hv)
    rw [qColumns_append]
    refine ⟨?_, ?_, ?_, ?_⟩
    · rw [List.pairwise_append]
      refine ⟨i1, by simp, ?_⟩
      intro a ha b hb
      simp only [List.mem_singleton] at hb
      subst hb
      rw [dotProduct_comm]
      exact hqz a ha
    · intro p hp
      rcases List.mem_append.1 hp with hp | hp
      · exact i2 p hp
      · simp only [List.mem_singleton] at hp; subst hp; exact hqq
    · intro p hp
      rcases List.mem_append.1 hp with hp | hp
      · exact hmono (i3 p hp)
      · simp only [List.mem_singleton] at hp
        subst hp
        rw [← hq, hqw]
        apply Submodule.smul_mem
        rw [e]
        exact Submodule.sub_mem _ (Submodule.subset_span (by simp)) (hmono hsum)
    · intro k hk
      have hlen := qColumns_length l
      rcases Nat.lt_or_ge k l.length with h | h
      · rw [List.getD_append _ _ _ _ h, List.take_append_of_le_length (by omega), List.getD_append _ _ _ _ (by omega)]
        exact i4 k h
      · have hkl : k = l.length := by simp at hk; omega
        subst hkl
        rw [List.getD_append_right _ _ _ _ le_rfl, Nat.sub_self, List.getD_cons_zero, List.take_of_length_le (by simp [hlen]),
          List.getD_append_right _ _ _ _ (by omega), hlen, Nat.sub_self, List.getD_cons_zero, ← hq, hcq]
        refine ⟨?_, hn⟩
        rw [List.map_append, List.sum_append, List.map_singleton, List.sum_singleton, hcq, ← hwq, e]
        abel

theorem ofFn_getD_vec (A : Fin m → Fin n → ℝ) (k : Fin m) : (List.ofFn A).getD k 0 = A k := by
  rw [List.getD_eq_getElem _ _ (by simp)]; simp

theorem indep_notMem (A : Fin m → Fin n → ℝ) (hA : LinearIndependent ℝ A) (k : ℕ) (hk : k < (List.ofFn A).length) :
    (List.ofFn A).getD k 0 ∉ Submodule.span ℝ {v | v ∈ (List.ofFn A).take k} := by
  have hkm : k < m := by simpa using hk
  have h := hA.notMem_span_image (s := {j : Fin m | (j : ℕ) < k}) (x := ⟨k, hkm⟩) (by simp)
  have e := ofFn_getD_vec A ⟨k, hkm⟩
  rw [show (List.ofFn A).getD k 0 = A ⟨k, hkm⟩ from e]
  intro hc
  apply h
  refine Submodule.span_mono ?_ hc
  intro v hv
  obtain ⟨j, hj, rfl⟩ := List.getElem_of_mem hv
  rw [List.length_take] at hj
  refine ⟨⟨j, by omega⟩, ?_, ?_⟩
  · show j < k
    omega
  · simp

/-- **C44** For a matrix with linearly independent columns the result is a QR decomposition: the columns of `q` are orthonormal, `r`
is upper triangular with a positive diagonal, and their product is the matrix. -/
theorem C44_qr (a : Matrix (Fin n) (Fin m) ℝ) (hm : m ≠ 0) (hA : LinearIndependent ℝ aᵀ) :
    ∃ q r, gramSchmidtQR a = .ok (q, r) ∧ qᵀ * q = 1 ∧ (∀ i j, j < i → r i j = 0) ∧ (∀ i, 0 < r i i) ∧ q * r = a := by
  unfold gramSchmidtQR
  rw [if_neg hm]
  set l := List.ofFn fun k => aᵀ k with hl
  have hlen : l.length = m := by simp [hl]
  obtain ⟨s1, s2, s3, s4⟩ := qColumns_spec l (fun k hk => indep_notMem (fun k => aᵀ k) hA k hk)
  have hqlen : (qColumns l).length = m := by rw [qColumns_length, hlen]
  have hget : ∀ k : Fin m, l.getD k 0 = aᵀ k := fun k => ofFn_getD_vec _ k
  have hmem : ∀ k : Fin m, (qColumns l).getD k 0 ∈ qColumns l := by
    intro k
    rw [List.getD_eq_getElem _ _ (by omega)]
    exact List.getElem_mem _
  have horth : ∀ i j : Fin m, (qColumns l).getD i 0 ⬝ᵥ (qColumns l).getD j 0 = if i = j then 1 else 0 := by
    intro i j
    rcases lt_trichotomy i j with h | h | h
    · rw [if_neg h.ne, List.getD_eq_getElem _ _ (by omega), List.getD_eq_getElem _ _ (by omega)]
      exact List.pairwise_iff_getElem.1 s1 i j _ _ h
    · subst h
      rw [if_pos rfl]
      exact s2 _ (hmem i)
    · rw [if_neg h.ne', dotProduct_comm, List.getD_eq_getElem _ _ (by omega), List.getD_eq_getElem _ _ (by omega)]
      exact List.pairwise_iff_getElem.1 s1 j i _ _ h
  have hpos : ∀ k : Fin m, 0 < aᵀ k ⬝ᵥ (qColumns l).getD k 0 := by
    intro k
    have := (s4 k (by omega)).2
    rwa [hget] at this
  have hd : (Matrix.diagonal fun k : Fin m => Real.sign (Matrix.of (fun k i : Fin m => if k ≤ i then aᵀ i ⬝ᵥ (qColumns l).getD k 0 else 0) k k) :
      Matrix (Fin m) (Fin m) ℝ) = 1 := by
    rw [← Matrix.diagonal_one]
    congr 1
    funext k
    simp only [Matrix.of_apply, le_refl, if_true]
    exact Real.sign_of_pos (hpos k)
  dsimp only
  rw [hd, Matrix.mul_one, Matrix.one_mul]
  refine ⟨_, _, rfl, ?_, ?_, ?_, ?_⟩
  · ext i j
    rw [Matrix.mul_apply, Matrix.one_apply]
    exact horth i j
  · intro i j hij
    exact if_neg (not_le.2 hij)
  · intro i
    rw [Matrix.of_apply, if_pos le_rfl]
    exact hpos i
  · ext i j
    rw [Matrix.mul_apply]
    have h4 := (s4 j (by omega)).1
    rw [hget] at h4
    have h5 : a i j = (((qColumns l).take (j + 1)).map fun q => (aᵀ j ⬝ᵥ q) • q).sum i := by
      rw [← h4]; rfl
    have h6 : ∀ ps : List (Fin n → ℝ), (ps.map fun q => (aᵀ j ⬝ᵥ q) • q).sum i = (ps.map fun q => (aᵀ j ⬝ᵥ q) * q i).sum := by
      intro ps
      induction ps with
      | nil => simp
      | cons p ps ih => simp [ih]
    have h7 : (qColumns l).take (j + 1) = (List.range (j + 1)).map fun k => (qColumns l).getD k 0 := by
      apply List.ext_getElem
      · simp [hqlen]
      · intro t h1 h2
        simp at h1
        simp only [List.getElem_take, List.getElem_map, List.getElem_range]
        rw [List.getD_eq_getElem _ _ (by omega)]
    rw [h5, h6, h7, List.map_map]
    have h8 : ∀ f : ℕ → ℝ, ((List.range (j + 1)).map f).sum = ∑ k ∈ Finset.range (j + 1), f k := by
      intro f
      generalize (j : ℕ) + 1 = N
      induction N with
      | zero => rfl
      | succ N ih => rw [List.range_succ, List.map_append, List.sum_append, ih, Finset.sum_range_succ]; simp
    rw [h8]
    simp only [Matrix.of_apply, mul_ite, mul_zero]
    rw [← Finset.sum_filter]
    refine Finset.sum_bij' (fun k _ => (k : ℕ)) (fun k hk => ⟨k, by have := Finset.mem_range.1 hk; omega⟩) ?_ ?_ ?_ ?_ ?_
    · intro k hk
      have := (Finset.mem_filter.1 hk).2
      have h9 : (k : ℕ) ≤ j := this
      simp; omega
    · intro k hk
      have := Finset.mem_range.1 hk
      simp only [Finset.mem_filter, Finset.mem_univ, true_and]
      show k ≤ (j : ℕ)
      omega
    · intro k _; rfl
    · intro k _; rfl
    · intro k _
      simp only [Function.comp_apply]
      rw [mul_comm]

theorem triangular_mul_diag {A B : Matrix (Fin m) (Fin m) ℝ} (hA : ∀ i j, j < i → A i j = 0) (hB : ∀ i j, j < i → B i j = 0) (i : Fin m) :
    (A * B) i i = A i i * B i i := by
  rw [Matrix.mul_apply, Finset.sum_eq_single i]
  · intro k _ hk
    rcases lt_or_gt_of_ne hk with h | h
    · rw [hA i k h, zero_mul]
    · rw [hB k i h, mul_zero]
  · simp

/-- **C44** It is the only such decomposition: any factorisation with orthonormal columns and an upper triangular factor with positive
diagonal is the one returned. -/
theorem C44_qr_unique (a q q' : Matrix (Fin n) (Fin m) ℝ) (r r' : Matrix (Fin m) (Fin m) ℝ) (hm : m ≠ 0) (hA : LinearIndependent ℝ aᵀ)
    (h : gramSchmidtQR a = .ok (q, r)) (hq : q'ᵀ * q' = 1) (ht : ∀ i j, j < i → r' i j = 0) (hd : ∀ i, 0 < r' i i) (ha : q' * r' = a) :
    q' = q ∧ r' = r := by
  obtain ⟨q₁, r₁, e, hq₁, ht₁, hd₁, ha₁⟩ := C44_qr a hm hA
  rw [h] at e
  injection e with e
  injection e with e1 e2
  subst e1 e2
  have bt : r.BlockTriangular id := fun i j hij => ht₁ i j hij
  have bt' : r'.BlockTriangular id := fun i j hij => ht i j hij
  have hdet : IsUnit r.det := by
    rw [Matrix.det_of_upperTriangular bt]
    exact (Finset.prod_pos fun i _ => hd₁ i).ne'.isUnit
  haveI : Invertible r := r.invertibleOfIsUnitDet hdet
  have hinv : r⁻¹.BlockTriangular id := Matrix.blockTriangular_inv_of_blockTriangular bt
  set M := r' * r⁻¹ with hM
  have hMr : M * r = r' := by rw [hM, Matrix.mul_assoc, Matrix.nonsing_inv_mul _ hdet, Matrix.mul_one]
  have hq' : q = q' * M := by
    rw [hM, ← Matrix.mul_assoc, ha, ← ha₁, Matrix.mul_assoc, Matrix.mul_nonsing_inv _ hdet, Matrix.mul_one]
  have hMM : Mᵀ * M = 1 := by
    clear_value M
    rw [← hq₁, hq', Matrix.transpose_mul, Matrix.mul_assoc, ← Matrix.mul_assoc q'ᵀ, hq, Matrix.one_mul]
  have btM : M.BlockTriangular id := bt'.mul hinv
  have hMi : M⁻¹ = Mᵀ := Matrix.inv_eq_left_inv hMM
  haveI : Invertible M := M.invertibleOfIsUnitDet (Matrix.isUnit_det_of_left_inverse hMM)
  have btMi : M⁻¹.BlockTriangular id := Matrix.blockTriangular_inv_of_blockTriangular btM
  have hoff : ∀ i j, i ≠ j → M i j = 0 := by
    intro i j hij
    rcases lt_or_gt_of_ne hij with h | h
    · have := btMi (show id i < id j from h)
      rw [hMi] at this
      exact this
    · exact btM (show id j < id i from h)
  have hdiag : ∀ i, M i i = 1 := by
    intro i
    have h1 : M i i * M i i = 1 := by
      have := congrFun (congrFun hMM i) i
      rw [Matrix.mul_apply, Matrix.one_apply_eq, Finset.sum_eq_single i] at this
      · exact this
      · intro k _ hk
        rw [hoff k i hk, mul_zero]
      · simp
    have h2 : M i i * r i i = r' i i := by
      rw [← triangular_mul_diag (fun i j h => hoff i j h.ne') ht₁, hMr]
    have h3 : 0 < M i i := by
      by_contra hc
      have := hd i
      rw [← h2] at this
      nlinarith [hd₁ i, mul_nonneg (neg_nonneg.2 (not_lt.1 hc)) (hd₁ i).le]
    nlinarith
  have hM1 : M = 1 := by
    ext i j
    rw [Matrix.one_apply]
    split_ifs with h
    · subst h; exact hdiag i
    · exact hoff i j h
  rw [hM1] at hq' hMr
  rw [Matrix.mul_one] at hq'
  rw [Matrix.one_mul] at hMr
  exact ⟨hq'.symm, hMr.symm⟩

/-- **C44** A matrix without columns is rejected. -/
theorem C44_no_columns (a : Matrix (Fin n) (Fin 0) ℝ) : ∃ e, gramSchmidtQR a = .error e := ⟨_, if_pos rfl⟩

/-! ### Non-vacuity: a tall matrix with independent columns -/

example : LinearIndependent ℝ (!![1, 2; 0, 1; 3, 1] : Matrix (Fin 3) (Fin 2) ℝ)ᵀ := by
  have e : (!![1, 2; 0, 1; 3, 1] : Matrix (Fin 3) (Fin 2) ℝ)ᵀ = ![![1, 0, 3], ![2, 1, 1]] := by
    ext i j; fin_cases i <;> fin_cases j <;> rfl
  have h : LinearIndependent ℝ (![![1, 0, 3], ![2, 1, 1]] : Fin 2 → Fin 3 → ℝ) := by
    rw [LinearIndependent.pair_iff' (by intro h; have := congrFun h 0; simp at this)]
    intro c h
    have h1 := congrFun h 1
    simp at h1
  rw [e]
  exact h

end JaxCfd
