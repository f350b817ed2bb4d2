import Verif.Model.LaplacianMatrix
import Mathlib.Tactic.Ring
import Mathlib.Tactic.Linarith
import Mathlib.Tactic.SplitIfs

/-!
Entries and rows of the one-dimensional laplacian matrices.
-/

set_option linter.unusedSectionVars false
set_option linter.unusedSimpArgs false

namespace JaxCfd
variable {K : Type} [Field K]

/-- a tridiagonal row -/
theorem sum_three (m : ℕ) (i : ℤ) (h0 : 0 ≤ i) (h1 : i < m) (A B C : K) (x : ℤ → K) :
    ∑ j ∈ Finset.Ico (0 : ℤ) m, ((if j = i then A else 0) + (if j = i + 1 then B else 0) +
      (if j = i - 1 then C else 0)) * x j =
    A * x i + (if i + 1 < m then B * x (i + 1) else 0) + (if 0 < i then C * x (i - 1) else 0) := by
  simp only [add_mul, Finset.sum_add_distrib, ite_mul, zero_mul, Finset.sum_ite_eq', Finset.mem_Ico]
  have e1 : (0 ≤ i ∧ i < (m : ℤ)) := ⟨h0, h1⟩
  have e2 : (0 ≤ i + 1 ∧ i + 1 < (m : ℤ)) ↔ i + 1 < m := by omega
  have e3 : (0 ≤ i - 1 ∧ i - 1 < (m : ℤ)) ↔ 0 < i := by omega
  simp only [e1, e2, e3, if_true, and_self]

/-- The entries of the circulant matrix. -/
theorem circulant_entry (n : ℕ) (hn : 2 ≤ n) (h : K) (i j : ℤ) (hi0 : 0 ≤ i) (hi1 : i < n) (hj0 : 0 ≤ j) (hj1 : j < n) :
    laplacianColumn n h ((i - j) % (n : ℤ)) =
      if j = i then -2 / h ^ 2
      else if j = i + 1 ∨ j = i - 1 ∨ (i = 0 ∧ j = n - 1) ∨ (j = 0 ∧ i = n - 1) then 1 / h ^ 2 else 0 := by
  have hm : (i - j) % (n : ℤ) = if j ≤ i then i - j else i - j + n := by
    split_ifs with hle
    · exact Int.emod_eq_of_lt (by omega) (by omega)
    · rw [← Int.add_emod_right]; exact Int.emod_eq_of_lt (by omega) (by omega)
  rw [hm]
  unfold laplacianColumn
  by_cases hle : j ≤ i
  · simp only [hle, if_true]
    by_cases h1 : j = i
    · have e1 : ¬ (i - j = (n : ℤ) - 1) := by omega
      have e2 : ¬ (i - j = 1) := by omega
      have e3 : i - j = 0 := by omega
      rw [if_neg e1, if_neg e2, if_pos e3, if_pos h1]
    · rw [if_neg h1]
      by_cases h2 : i - j = (n : ℤ) - 1
      · rw [if_pos h2, if_pos (by omega)]
      · rw [if_neg h2]
        by_cases h3 : i - j = 1
        · rw [if_pos h3, if_pos (by omega)]
        · rw [if_neg h3, if_neg (by omega), if_neg (by omega)]
  · simp only [hle, if_false]
    rw [if_neg (show ¬ j = i by omega)]
    by_cases h2 : i - j + n = (n : ℤ) - 1
    · rw [if_pos h2, if_pos (by omega)]
    · rw [if_neg h2]
      by_cases h3 : i - j + n = 1
      · rw [if_pos h3, if_pos (by omega)]
      · rw [if_neg h3, if_neg (by omega), if_neg (by omega)]

/-- the periodic row -/
theorem circulant_row (n : ℕ) (hn : 3 ≤ n) (h : K) (i : ℤ) (hi0 : 0 ≤ i) (hi1 : i < n) (x : ℤ → K) :
    ∑ j ∈ Finset.Ico (0 : ℤ) n, laplacianColumn n h ((i - j) % (n : ℤ)) * x j =
      (x ((i + 1) % (n : ℤ)) + x ((i - 1) % (n : ℤ)) - 2 * x i) / h ^ 2 := by
  have hp : (i + 1) % (n : ℤ) = if i + 1 = n then 0 else i + 1 := by
    split_ifs with e
    · rw [e, Int.emod_self]
    · exact Int.emod_eq_of_lt (by omega) (by omega)
  have hq : (i - 1) % (n : ℤ) = if i = 0 then (n : ℤ) - 1 else i - 1 := by
    split_ifs with e
    · subst e; rw [← Int.add_emod_right]; rw [Int.emod_eq_of_lt (by omega) (by omega)]; ring
    · exact Int.emod_eq_of_lt (by omega) (by omega)
  have key : ∀ j ∈ Finset.Ico (0 : ℤ) n, laplacianColumn n h ((i - j) % (n : ℤ)) * x j =
      (if j = i then -2 / h ^ 2 * x j else 0) + (if j = (i + 1) % (n : ℤ) then 1 / h ^ 2 * x j else 0) +
        (if j = (i - 1) % (n : ℤ) then 1 / h ^ 2 * x j else 0) := by
    intro j hj
    rw [Finset.mem_Ico] at hj
    rw [circulant_entry n (by omega) h i j hi0 hi1 hj.1 hj.2, hp, hq]
    by_cases h1 : j = i
    · subst h1
      rw [if_pos rfl, if_pos rfl, if_neg, if_neg, add_zero, add_zero]
      · split_ifs <;> omega
      · split_ifs <;> omega
    · rw [if_neg h1, if_neg h1]
      by_cases h2 : j = if i + 1 = n then 0 else i + 1
      · have h3 : ¬ (j = if i = 0 then (n : ℤ) - 1 else i - 1) := by
          split_ifs at h2 <;> split_ifs <;> omega
        rw [if_pos h2, if_neg h3, if_pos (by split_ifs at h2 <;> omega)]
        ring
      · by_cases h3 : j = if i = 0 then (n : ℤ) - 1 else i - 1
        · rw [if_neg h2, if_pos h3, if_pos (by split_ifs at h3 <;> omega)]
          ring
        · rw [if_neg h2, if_neg h3, if_neg (by split_ifs at h2 h3 <;> omega)]
          ring
  rw [Finset.sum_congr rfl key]
  simp only [Finset.sum_add_distrib, Finset.sum_ite_eq', Finset.mem_Ico]
  rw [if_pos ⟨hi0, hi1⟩, if_pos ⟨Int.emod_nonneg _ (by omega), Int.emod_lt_of_pos _ (by omega)⟩,
    if_pos ⟨Int.emod_nonneg _ (by omega), Int.emod_lt_of_pos _ (by omega)⟩]
  ring

/-- the correction on the diagonal at a wall -/
def wallCorr (t : BCType) (h : K) : K :=
  if t = .neumann then 1 / h ^ 2 else if t = .dirichlet then -(1 / h ^ 2) else 0

/-- The entries of the matrix of a cell-centred axis between walls. -/
theorem wall_entry (n : ℕ) (hn : 3 ≤ n) (h : K) (t : BCType × BCType)
    (h1 : t.1 = .dirichlet ∨ t.1 = .neumann) (h2 : t.2 = .dirichlet ∨ t.2 = .neumann)
    (i j : ℤ) (hi0 : 0 ≤ i) (hi1 : i < n) (hj0 : 0 ≤ j) (hj1 : j < n) :
    (laplacianSide t.2 h .upper (laplacianSide t.1 h .lower
      ⟨n, n, fun i j => laplacianColumn n h ((i - j) % (n : ℤ))⟩)).e i j =
    (if j = i then -2 / h ^ 2 + (if i = 0 then wallCorr t.1 h else 0) + (if i = n - 1 then wallCorr t.2 h else 0) else 0) +
      (if j = i + 1 then 1 / h ^ 2 else 0) + (if j = i - 1 then 1 / h ^ 2 else 0) := by
  have nd : ¬ (BCType.dirichlet = BCType.neumann) := by decide
  have c00 : laplacianColumn n h ((0 - 0) % (n : ℤ)) = -2 / h ^ 2 := by
    rw [circulant_entry n (by omega) h 0 0 le_rfl (by omega) le_rfl (by omega), if_pos rfl]
  have cnn : laplacianColumn n h (((n : ℤ) - 1 - ((n : ℤ) - 1)) % (n : ℤ)) = -2 / h ^ 2 := by
    rw [circulant_entry n (by omega) h _ _ (by omega) (by omega) (by omega) (by omega), if_pos rfl]
  have cij := circulant_entry n (by omega) h i j hi0 hi1 hj0 hj1
  have e0 : ¬ ((0 : ℤ) = (n : ℤ) - 1) := by omega
  have e0' : ¬ ((n : ℤ) - 1 = 0) := by omega
  have main : ∀ (a b : K), (if i = (n : ℤ) - 1 ∧ j = 0 then (0 : K) else if i = 0 ∧ j = (n : ℤ) - 1 then 0
      else if i = (n : ℤ) - 1 ∧ j = (n : ℤ) - 1 then b
      else if i = 0 ∧ j = 0 then a else laplacianColumn n h ((i - j) % (n : ℤ))) =
      (if j = i then (if i = 0 then a else if i = (n : ℤ) - 1 then b else -2 / h ^ 2) else 0) +
      (if j = i + 1 then 1 / h ^ 2 else 0) + (if j = i - 1 then 1 / h ^ 2 else 0) := by
    intro a b
    rw [cij]
    by_cases hc1 : i = (n : ℤ) - 1 ∧ j = 0
    · rw [if_pos hc1, if_neg (by omega), if_neg (by omega), if_neg (by omega)]; ring
    rw [if_neg hc1]
    by_cases hc2 : i = 0 ∧ j = (n : ℤ) - 1
    · rw [if_pos hc2, if_neg (by omega), if_neg (by omega), if_neg (by omega)]; ring
    rw [if_neg hc2]
    by_cases hji : j = i
    · subst hji
      have a1 : ¬ (j = j + 1) := by omega
      have a2 : ¬ (j = j - 1) := by omega
      simp only [a1, a2, if_false, if_true, and_self, add_zero]
      by_cases b0 : j = 0
      · have b1 : ¬ (j = (n : ℤ) - 1) := by omega
        simp only [b0, b1, if_true, if_false, e0]
      · by_cases b1 : j = (n : ℤ) - 1
        · rw [if_pos b1, if_neg b0, if_pos b1]
        · rw [if_neg b1, if_neg b0, if_neg b0, if_neg b1]
    · have a1 : ¬ (i = (n : ℤ) - 1 ∧ j = (n : ℤ) - 1) := by omega
      have a2 : ¬ (i = 0 ∧ j = 0) := by omega
      rw [if_neg a1, if_neg a2, if_neg hji, if_neg hji]
      by_cases b1 : j = i + 1
      · rw [if_pos (Or.inl b1), if_pos b1, if_neg (by omega)]; ring
      · by_cases b2 : j = i - 1
        · rw [if_pos (Or.inr (Or.inl b2)), if_neg b1, if_pos b2]; ring
        · rw [if_neg (by omega), if_neg b1, if_neg b2]; ring
  have fin : ∀ (a b : K), a = -2 / h ^ 2 + wallCorr t.1 h → b = -2 / h ^ 2 + wallCorr t.2 h →
      (laplacianSide t.2 h .upper (laplacianSide t.1 h .lower
        ⟨n, n, fun i j => laplacianColumn n h ((i - j) % (n : ℤ))⟩)).e i j =
        (if i = (n : ℤ) - 1 ∧ j = 0 then (0 : K) else if i = 0 ∧ j = (n : ℤ) - 1 then 0
        else if i = (n : ℤ) - 1 ∧ j = (n : ℤ) - 1 then b
        else if i = 0 ∧ j = 0 then a else laplacianColumn n h ((i - j) % (n : ℤ))) := by
    intro a b ha hb
    have key : ∀ (x y : K), (zeroCorners ((zeroCorners ((⟨n, n, fun i j => laplacianColumn n h ((i - j) % (n : ℤ))⟩ : Mat K).set
        0 0 x)).set ((n : ℤ) - 1) ((n : ℤ) - 1) y)).e i j = (if i = (n : ℤ) - 1 ∧ j = 0 then (0 : K) else if i = 0 ∧ j = (n : ℤ) - 1 then 0
        else if i = (n : ℤ) - 1 ∧ j = (n : ℤ) - 1 then y
        else if i = 0 ∧ j = 0 then x else laplacianColumn n h ((i - j) % (n : ℤ))) := by
      intro x y
      simp only [zeroCorners, Mat.set]
      by_cases q1 : i = (n : ℤ) - 1 ∧ j = 0
      · simp only [q1, and_self, if_true]
      · by_cases q2 : i = 0 ∧ j = (n : ℤ) - 1
        · simp only [q1, q2, and_self, if_true, if_false]
        · by_cases q3 : i = (n : ℤ) - 1 ∧ j = (n : ℤ) - 1
          · simp only [q1, q2, q3, and_self, if_true, if_false]
          · simp only [q1, q2, q3, if_false]
    have knn : ∀ x : K, (zeroCorners ((⟨n, n, fun i j => laplacianColumn n h ((i - j) % (n : ℤ))⟩ : Mat K).set
        0 0 x)).e ((n : ℤ) - 1) ((n : ℤ) - 1) = -2 / h ^ 2 := by
      intro x
      simp only [zeroCorners, Mat.set, e0', and_false, false_and, if_false, cnn]
    have cc : ∀ x x' y y' : K, x = x' → y = y' →
        (if i = (n : ℤ) - 1 ∧ j = 0 then (0 : K) else if i = 0 ∧ j = (n : ℤ) - 1 then 0
        else if i = (n : ℤ) - 1 ∧ j = (n : ℤ) - 1 then y
        else if i = 0 ∧ j = 0 then x else laplacianColumn n h ((i - j) % (n : ℤ))) =
        (if i = (n : ℤ) - 1 ∧ j = 0 then (0 : K) else if i = 0 ∧ j = (n : ℤ) - 1 then 0
        else if i = (n : ℤ) - 1 ∧ j = (n : ℤ) - 1 then y'
        else if i = 0 ∧ j = 0 then x' else laplacianColumn n h ((i - j) % (n : ℤ))) := by
      intro x x' y y' hx hy; subst hx hy; rfl
    have sub1 : laplacianColumn n h ((0 - 0) % (n : ℤ)) - 1 / h ^ 2 = -2 / h ^ 2 + -(1 / h ^ 2) := by rw [c00]; ring
    have add1 : laplacianColumn n h ((0 - 0) % (n : ℤ)) + 1 / h ^ 2 = -2 / h ^ 2 + 1 / h ^ 2 := by rw [c00]
    have sub2 : ∀ x, (zeroCorners ((⟨n, n, fun i j => laplacianColumn n h ((i - j) % (n : ℤ))⟩ : Mat K).set
        0 0 x)).e ((n : ℤ) - 1) ((n : ℤ) - 1) - 1 / h ^ 2 = -2 / h ^ 2 + -(1 / h ^ 2) := fun x => by rw [knn]; ring
    have add2 : ∀ x, (zeroCorners ((⟨n, n, fun i j => laplacianColumn n h ((i - j) % (n : ℤ))⟩ : Mat K).set
        0 0 x)).e ((n : ℤ) - 1) ((n : ℤ) - 1) + 1 / h ^ 2 = -2 / h ^ 2 + 1 / h ^ 2 := fun x => by rw [knn]
    rcases h1 with h1 | h1 <;> rcases h2 with h2 | h2 <;>
      simp only [wallCorr, h1, h2, nd, if_true, if_false] at ha hb <;> subst ha hb <;>
      simp only [laplacianSide, h1, h2, nd, if_true, if_false]
    · exact (key _ _).trans (cc _ _ _ _ sub1 (sub2 _))
    · exact (key _ _).trans (cc _ _ _ _ sub1 (add2 _))
    · exact (key _ _).trans (cc _ _ _ _ add1 (sub2 _))
    · exact (key _ _).trans (cc _ _ _ _ add1 (add2 _))
  rw [fin _ _ rfl rfl, main]
  congr 2
  by_cases hji : j = i
  · simp only [hji, if_true]
    by_cases b0 : i = 0
    · rw [if_pos b0, if_pos b0, if_neg (by omega), add_zero]
    · rw [if_neg b0, if_neg b0]
      by_cases b1 : i = (n : ℤ) - 1
      · rw [if_pos b1, if_pos b1]; ring
      · rw [if_neg b1, if_neg b1]; ring
  · rw [if_neg hji, if_neg hji]

/-- The entries of the matrix of the interior faces between two Dirichlet walls. -/
theorem face_entry (n : ℕ) (hn : 2 ≤ n) (h : K) (i j : ℤ) (hi0 : 0 ≤ i) (hi1 : i < n - 1) (hj0 : 0 ≤ j) (hj1 : j < n - 1) :
    laplacianColumn n h ((i - j) % (n : ℤ)) = (if j = i then -2 / h ^ 2 else 0) +
      (if j = i + 1 then 1 / h ^ 2 else 0) + (if j = i - 1 then 1 / h ^ 2 else 0) := by
  rw [circulant_entry n hn h i j hi0 (by omega) hj0 (by omega)]
  by_cases hji : j = i
  · rw [if_pos hji, if_pos hji, if_neg (by omega), if_neg (by omega)]; ring
  · rw [if_neg hji, if_neg hji]
    by_cases b1 : j = i + 1
    · rw [if_pos (Or.inl b1), if_pos b1, if_neg (by omega)]; ring
    · by_cases b2 : j = i - 1
      · rw [if_pos (Or.inr (Or.inl b2)), if_neg b1, if_pos b2]; ring
      · rw [if_neg (by omega), if_neg b1, if_neg b2]; ring

end JaxCfd
