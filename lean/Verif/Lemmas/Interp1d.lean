import Verif.Model.Interp1d
import Verif.Lemmas.Reshape
import Verif.Lemmas.ArrayUtils
import Mathlib.Algebra.Order.Field.Basic
import Mathlib.Tactic.FieldSimp

/-! Lemmas about `interp1d`. -/

namespace JaxCfd
variable {K : Type} [Field K] [LinearOrder K] [IsStrictOrderedRing K]
set_option linter.unusedSectionVars false

theorem foldl_min_eq (l : List K) (a : K) (h : ∀ b ∈ l, a ≤ b) : l.foldl min a = a := by
  induction l with
  | nil => rfl
  | cons b l ih =>
    rw [List.foldl_cons, min_eq_left (h b (by simp))]
    exact ih (fun c hc => h c (by simp [hc]))

theorem foldl_max_eq (l : List K) (a m : K) (hm : m ∈ a :: l) (h : ∀ b ∈ a :: l, b ≤ m) : l.foldl max a = m := by
  induction l generalizing a with
  | nil => simp at hm; simp [hm]
  | cons b l ih =>
    rw [List.foldl_cons]
    apply ih
    · rcases List.mem_cons.1 hm with rfl | hm
      · have := h b (by simp)
        rw [max_eq_left this]; simp
      · rcases List.mem_cons.1 hm with rfl | hm
        · have := h a (by simp)
          rw [max_eq_right this]; simp
        · simp [hm]
    · intro c hc
      rcases List.mem_cons.1 hc with rfl | hc
      · exact max_le (h a (by simp)) (h b (by simp))
      · exact h c (by simp [hc])

theorem sorted_get_le {x : List K} (hx : x.Pairwise (· ≤ ·)) {i j : ℕ} (hij : i ≤ j) (hj : j < x.length) : x.getD i 0 ≤ x.getD j 0 := by
  rw [List.getD_eq_getElem _ _ (by omega), List.getD_eq_getElem _ _ hj]
  rcases hij.lt_or_eq with h | h
  · exact List.pairwise_iff_getElem.1 hx i j (by omega) hj h
  · subst h; exact le_rfl

theorem listMin_sorted {x : List K} (hx : x.Pairwise (· ≤ ·)) : listMin x = x.getD 0 0 := by
  cases x with
  | nil => rfl
  | cons a l =>
    simp only [listMin, List.getD_cons_zero]
    exact foldl_min_eq l a (fun b hb => (List.pairwise_cons.1 hx).1 b hb)

theorem listMax_sorted {x : List K} (hx : x.Pairwise (· ≤ ·)) (hn : x ≠ []) : listMax x = x.getD (x.length - 1) 0 := by
  cases x with
  | nil => exact absurd rfl hn
  | cons a l =>
    simp only [listMax]
    apply foldl_max_eq
    · rw [List.getD_eq_getElem _ _ (by simp)]
      exact List.getElem_mem _
    · intro b hb
      obtain ⟨i, hi, rfl⟩ := List.getElem_of_mem hb
      have := sorted_get_le hx (i := i) (j := (a :: l).length - 1) (by omega) (by simp)
      rwa [List.getD_eq_getElem _ _ hi] at this

theorem countP_sorted {x : List K} (hx : x.Pairwise (· ≤ ·)) (v : K) (k : ℕ) (hk : k ≤ x.length)
    (h1 : ∀ i, i < k → x.getD i 0 ≤ v) (h2 : k < x.length → v < x.getD k 0) : x.countP (fun a => decide (a ≤ v)) = k := by
  conv_lhs => rw [← List.take_append_drop k x]
  rw [List.countP_append]
  have e1 : (x.take k).countP (fun a => decide (a ≤ v)) = k := by
    rw [List.countP_eq_length.2, List.length_take, min_eq_left hk]
    intro a ha
    obtain ⟨i, hi, rfl⟩ := List.getElem_of_mem ha
    rw [List.length_take] at hi
    have := h1 i (by omega)
    rw [List.getD_eq_getElem _ _ (by omega)] at this
    simpa using this
  have e2 : (x.drop k).countP (fun a => decide (a ≤ v)) = 0 := by
    rw [List.countP_eq_zero]
    intro a ha
    obtain ⟨i, hi, rfl⟩ := List.getElem_of_mem ha
    rw [List.length_drop] at hi
    have h := h2 (by omega)
    have h' := sorted_get_le hx (i := k) (j := k + i) (by omega) (by omega)
    rw [List.getD_eq_getElem x 0 (n := k + i) (by omega)] at h'
    simp only [List.getElem_drop, decide_eq_true_eq, not_le]
    exact lt_of_lt_of_le h h'
  rw [e1, e2, Nat.add_zero]

/-- inside `[x k, x (k+1))` -/
theorem interpVal_mid {x : List K} (hx : x.Pairwise (· ≤ ·)) (fill : FillMode K) (v : K) (y : ℕ → K) (k : ℕ) (hk : k + 1 < x.length)
    (h1 : x.getD k 0 ≤ v) (h2 : v < x.getD (k + 1) 0) :
    interpVal x fill v y = y k + (v - x.getD k 0) * ((y (k + 1) - y k) / (x.getD (k + 1) 0 - x.getD k 0)) := by
  have hc : clipTo x v = v := by
    unfold clipTo
    rw [listMin_sorted hx, listMax_sorted hx (by rintro rfl; simp at hk)]
    have a1 := sorted_get_le hx (i := 0) (j := k) (by omega) (by omega)
    have a2 := sorted_get_le hx (i := k + 1) (j := x.length - 1) (by omega) (by omega)
    rw [max_eq_left (a1.trans h1), min_eq_left (h2.le.trans a2)]
  have hcount : x.countP (fun a => decide (a ≤ v)) = k + 1 :=
    countP_sorted hx v (k + 1) (by omega) (fun i hi => (sorted_get_le hx (by omega) (by omega)).trans h1) (fun _ => h2)
  have ha : aboveIdx x v = k + 1 := by
    unfold aboveIdx
    rw [hc, hcount]; omega
  have hb : belowIdx x v = k := by unfold belowIdx; rw [ha]; rfl
  unfold interpVal
  rw [ha, hb, hc]
  cases fill with
  | extrapolate => rfl
  | constant => rfl
  | scalar c =>
    dsimp only
    rw [if_neg]
    rintro (h | h)
    · linarith
    · linarith

/-- at or beyond the last node -/
theorem interpVal_top {x : List K} (hx : x.Pairwise (· ≤ ·)) (fill : FillMode K) (v : K) (y : ℕ → K) (m : ℕ) (hm : x.length = m + 2)
    (h1 : x.getD (m + 1) 0 ≤ v) (h2 : x.getD m 0 < x.getD (m + 1) 0) :
    interpVal x fill v y = match fill with
      | .extrapolate => y m + (v - x.getD m 0) * ((y (m + 1) - y m) / (x.getD (m + 1) 0 - x.getD m 0))
      | .constant => y (m + 1)
      | .scalar c => if v = x.getD (m + 1) 0 then y (m + 1) else c := by
  have hlast : x.length - 1 = m + 1 := by omega
  have hc : clipTo x v = x.getD (m + 1) 0 := by
    unfold clipTo
    rw [listMin_sorted hx, listMax_sorted hx (by rintro rfl; simp at hm), hlast]
    have a1 := sorted_get_le hx (i := 0) (j := m + 1) (by omega) (by omega)
    rw [max_eq_left (a1.trans h1), min_eq_right h1]
  have hcount : x.countP (fun a => decide (a ≤ x.getD (m + 1) 0)) = m + 2 :=
    countP_sorted hx _ (m + 2) (by omega) (fun i hi => (sorted_get_le hx (by omega) (by omega))) (fun h => by omega)
  have ha : aboveIdx x v = m + 1 := by
    unfold aboveIdx
    rw [hc, hcount]; omega
  have hb : belowIdx x v = m := by unfold belowIdx; rw [ha]; rfl
  have hne : x.getD (m + 1) 0 - x.getD m 0 ≠ 0 := (sub_pos.2 h2).ne'
  unfold interpVal
  rw [ha, hb, hc]
  cases fill with
  | extrapolate => rfl
  | constant =>
    dsimp only
    rw [mul_div_cancel₀ _ hne]; ring
  | scalar c =>
    dsimp only
    by_cases hv : v = x.getD (m + 1) 0
    · rw [if_pos hv, if_neg (by rw [hv]; push Not; exact ⟨by linarith, le_rfl⟩), hv, mul_div_cancel₀ _ hne]; ring
    · have : x.getD (m + 1) 0 < v := lt_of_le_of_ne h1 (Ne.symm hv)
      rw [if_neg hv, if_pos (Or.inr (by linarith))]

/-- before the first node -/
theorem interpVal_bot {x : List K} (hx : x.Pairwise (· ≤ ·)) (fill : FillMode K) (v : K) (y : ℕ → K) (hn : 2 ≤ x.length)
    (h1 : v < x.getD 0 0) (h2 : x.getD 0 0 < x.getD 1 0) :
    interpVal x fill v y = match fill with
      | .extrapolate => y 0 + (v - x.getD 0 0) * ((y 1 - y 0) / (x.getD 1 0 - x.getD 0 0))
      | .constant => y 0
      | .scalar c => c := by
  have hc : clipTo x v = x.getD 0 0 := by
    unfold clipTo
    rw [listMin_sorted hx, listMax_sorted hx (by rintro rfl; simp at hn)]
    have a1 := sorted_get_le hx (i := 0) (j := x.length - 1) (by omega) (by omega)
    rw [max_eq_right h1.le, min_eq_left a1]
  have hcount : x.countP (fun a => decide (a ≤ x.getD 0 0)) = 1 :=
    countP_sorted hx _ 1 (by omega) (fun i hi => (sorted_get_le hx (by omega) (by omega))) (fun h => h2)
  have ha : aboveIdx x v = 1 := by
    unfold aboveIdx
    rw [hc, hcount]; omega
  have hb : belowIdx x v = 0 := by unfold belowIdx; rw [ha]
  unfold interpVal
  rw [ha, hb, hc]
  cases fill with
  | extrapolate => rfl
  | constant => simp
  | scalar c =>
    dsimp only
    rw [if_pos (Or.inl (by linarith))]

theorem ravelIdx_append {A B : List ℕ} {p q : List ℤ} (h : p.length = A.length) :
    ravelIdx (A ++ B) (p ++ q) = ravelIdx A p * (B.prod : ℕ) + ravelIdx B q := by
  induction A generalizing p with
  | nil =>
    cases p with
    | nil => simp [ravelIdx]
    | cons a p => simp at h
  | cons a A ih =>
    cases p with
    | nil => simp at h
    | cons b p =>
      simp only [List.cons_append, ravelIdx]
      rw [ih (by simpa using h), List.prod_append, Nat.cast_mul]
      ring

theorem LInR.append {A B : List ℕ} {p q : List ℤ} (h1 : LInR A p) (h2 : LInR B q) : LInR (A ++ B) (p ++ q) := by
  induction A generalizing p with
  | nil =>
    cases p with
    | nil => exact h2
    | cons a p => exact h1.elim
  | cons a A ih =>
    cases p with
    | nil => exact h1.elim
    | cons b p => exact ⟨h1.1, ih h1.2⟩

theorem set_eq_take_drop {α : Type} (l : List α) (k : ℕ) (a : α) (hk : k < l.length) : l.set k a = l.take k ++ [a] ++ l.drop (k + 1) := by
  rw [List.set_eq_take_append_cons_drop, if_pos hk]
  simp

/-- `interpFunc` succeeds; its entry at `p ++ j ++ q` interpolates at the entry `j` of `x_new`, along the line `(p, ·, q)` of `y`. -/
theorem interpFunc_ok (x : List K) (y : LArr K) (ax : ℕ) (hax : ax < y.shape.length) (fill : FillMode K) (xnew : LArr K) :
    ∃ z, interpFunc x y ax fill xnew = .ok z ∧ z.shape = y.shape.take ax ++ xnew.shape ++ y.shape.drop (ax + 1) ∧
      ∀ p j q : List ℤ, LInR (y.shape.take ax) p → LInR xnew.shape j → LInR (y.shape.drop (ax + 1)) q →
        z.data (p ++ j ++ q) = interpVal x fill (xnew.data j) fun k => y.data (p ++ [(k : ℤ)] ++ q) := by
  unfold interpFunc LArr.reshape
  dsimp only
  have hs : y.shape.set ax xnew.shape.prod = y.shape.take ax ++ [xnew.shape.prod] ++ y.shape.drop (ax + 1) :=
    set_eq_take_drop _ _ _ hax
  have hlt : (y.shape.take ax).length = ax := by rw [List.length_take]; omega
  have ht : (y.shape.set ax xnew.shape.prod).take ax = y.shape.take ax := by
    rw [List.take_set_of_le le_rfl]
  have hd : (y.shape.set ax xnew.shape.prod).drop (ax + 1) = y.shape.drop (ax + 1) := by
    rw [List.drop_set_of_lt (by omega)]
  rw [ht, hd, if_neg (by rw [hs]; simp)]
  refine ⟨_, rfl, rfl, ?_⟩
  intro p j q hp hj hq
  dsimp only
  have hpl : p.length = ax := by rw [hp.length, hlt]
  have e : ravelIdx (y.shape.take ax ++ xnew.shape ++ y.shape.drop (ax + 1)) (p ++ j ++ q) =
      ravelIdx (y.shape.take ax ++ [xnew.shape.prod] ++ y.shape.drop (ax + 1)) (p ++ [ravelIdx xnew.shape j] ++ q) := by
    rw [ravelIdx_append (by simp [hp.length, hj.length]), ravelIdx_append hp.length,
      ravelIdx_append (A := y.shape.take ax ++ [xnew.shape.prod]) (by simp [hp.length]), ravelIdx_append hp.length]
    simp [ravelIdx]
  have hr := ravelIdx_bounds hj
  have hin : LInR (y.shape.take ax ++ [xnew.shape.prod] ++ y.shape.drop (ax + 1)) (p ++ [ravelIdx xnew.shape j] ++ q) :=
    (hp.append (B := [xnew.shape.prod]) (q := [ravelIdx xnew.shape j]) ⟨hr, trivial⟩).append hq
  rw [e, hs, unravel_ravel hin]
  have g : (p ++ [ravelIdx xnew.shape j] ++ q).getD ax 0 = ravelIdx xnew.shape j := by
    rw [List.append_assoc, List.getD_append_right _ _ _ _ (by omega), hpl]
    simp
  rw [g, unravel_ravel hj]
  congr 1
  funext k
  congr 1
  rw [List.append_assoc, List.set_append_right _ _ (by omega), hpl]
  simp

end JaxCfd
