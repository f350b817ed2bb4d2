import Verif.Model.Solvers
import Verif.Props.Pressure
import Verif.Props.LaplacianMatrix
import Verif.Props.FastDiag
import Verif.Props.TimeStep

/-!
The operator of the direct solvers: matrices of `laplacian_matrix_w_boundaries` as a separable operator, and its spectrum.
-/

set_option linter.unusedSectionVars false

namespace JaxCfd
variable {d : ℕ} [HasNan ℝ]

theorem opAt_ofFn (ms : Fin d → Mat ℝ) (a : Fin d) : opAt (List.ofFn ms) a = ms a := by
  unfold opAt
  simp [List.getD]

/-- The matrices of a supported variable. -/
theorem matrices {u : GridVariable d ℝ} (hu : u.Supported) (hN : ∀ a, 3 ≤ u.array.grid.shape a) :
    ∃ ms, laplacianMatrixWB u.array.grid u.array.offset u.bc = .ok ms ∧
      (∀ a, (ms a).rows = u.interior a ∧ (ms a).Symmetric ∧
        (u.bc.types a = (.periodic, .periodic) → (ms a).Circulant)) ∧
      ∀ (x : Idx d → ℝ) (a : Fin d), (u.bc.types a ≠ (.periodic, .periodic) → u.bc.bcValues a = (some 0, some 0)) →
        ∀ i : Idx d, 0 ≤ i a → i a < u.interior a →
        ∑ j ∈ Finset.Ico (0 : ℤ) (u.interior a), (ms a).e (i a) j * x (Function.update i a j) =
          ((u.withData x).above a i + (u.withData x).below a i - 2 * x i) / u.array.grid.step a ^ 2 := by
  have hs : ∀ a, u.array.grid.shape a = u.array.shape a := fun a => (hu a).1.symm
  have hN' : ∀ a, 3 ≤ u.array.shape a := fun a => by rw [← hs a]; exact hN a
  obtain ⟨m, hm⟩ := Classical.axiom_of_choice (fun a => matrixAxis_ok hu hN' a)
  refine ⟨m, ?_, fun a => ⟨(hm a).2.1, ⟨(hm a).2.1.trans (hm a).2.2.1.symm, ?_⟩, fun hp => ?_⟩, fun x a hw i h0 h1 => ?_⟩
  · unfold laplacianMatrixWB
    rw [seqFin_ok _ (fun a => ⟨u.array.shape a, u.array.shape a, fun i j => laplacianColumn (u.array.shape a)
      (u.array.grid.step a) ((i - j) % (u.array.shape a : ℤ))⟩) (fun a => by
        rw [laplacianMatrix, if_neg (by have := hN a; omega), hs a]), Except.bind_ok]
    exact seqFin_ok _ _ fun a => (hm a).1
  · rw [(hm a).2.1]; exact (hm a).2.2.2.1
  · have h1 := (hm a).1
    rw [matrixAxis_periodic hp] at h1
    injection h1 with h1
    rw [← h1]
    refine ⟨rfl, fun i j _ _ _ _ => ?_⟩
    dsimp only
    rw [sub_zero, Int.emod_emod_of_dvd _ (dvd_refl _)]
  · obtain ⟨m', e1, -, -, -, e2⟩ := matrixAxis_ok (u := u.withData x) hu hN' a
    have : m' = m a := by
      have h := (hm a).1
      have e1' : laplacianMatrixAxis (u.bc.types a) (u.array.offset a) (u.array.grid.step a)
        ⟨u.array.shape a, u.array.shape a, fun i j => laplacianColumn (u.array.shape a) (u.array.grid.step a)
          ((i - j) % (u.array.shape a : ℤ))⟩ = .ok m' := e1
      rw [h] at e1'
      injection e1' with e1'
      exact e1'.symm
    subst this
    exact e2 hw i h0 h1

/-- An eigenvalue of a real symmetric matrix is real and has a real eigenvector. -/
theorem Mat.Symmetric.real_eigen {m : Mat ℝ} (hm : m.Symmetric) {z : ℂ} (hz : IsEigenvalue m z) :
    ∃ l : ℝ, z = (l : ℂ) ∧ ∃ x : ℤ → ℝ, (∃ i : ℤ, 0 ≤ i ∧ i < m.rows ∧ x i ≠ 0) ∧
      ∀ i : ℤ, 0 ≤ i → i < m.rows → ∑ j ∈ Finset.Ico (0 : ℤ) m.rows, m.e i j * x j = l * x i := by
  obtain ⟨u, ⟨i0, h0, h1, hu0⟩, hu⟩ := hz
  let S := ∑ i ∈ Finset.Ico (0 : ℤ) m.rows, (starRingEnd ℂ) (u i) * u i
  let Q := ∑ i ∈ Finset.Ico (0 : ℤ) m.rows, (starRingEnd ℂ) (u i) * ∑ j ∈ Finset.Ico (0 : ℤ) m.rows, (m.e i j : ℂ) * u j
  have hS : S = ((∑ i ∈ Finset.Ico (0 : ℤ) m.rows, Complex.normSq (u i) : ℝ) : ℂ) := by
    rw [Complex.ofReal_sum]
    exact Finset.sum_congr rfl fun i _ => by rw [mul_comm, Complex.mul_conj]
  have hpos : 0 < ∑ i ∈ Finset.Ico (0 : ℤ) m.rows, Complex.normSq (u i) :=
    Finset.sum_pos' (fun i _ => Complex.normSq_nonneg _) ⟨i0, Finset.mem_Ico.2 ⟨h0, h1⟩, Complex.normSq_pos.2 hu0⟩
  have hQ : Q = z * S := by
    simp only [Q, S]
    rw [Finset.mul_sum]
    refine Finset.sum_congr rfl fun i hi => ?_
    rw [Finset.mem_Ico] at hi
    rw [hu i hi.1 hi.2]; ring
  have hQr : (starRingEnd ℂ) Q = Q := by
    simp only [Q, map_sum, map_mul, Complex.conj_conj, Complex.conj_ofReal, Finset.mul_sum]
    rw [Finset.sum_comm]
    refine Finset.sum_congr rfl fun i hi => Finset.sum_congr rfl fun j hj => ?_
    rw [Finset.mem_Ico] at hi hj
    rw [hm.2 j i hj.1 hj.2 hi.1 hi.2]; ring
  have hzr : (starRingEnd ℂ) z = z := by
    have hS0 : S ≠ 0 := by rw [hS]; exact Complex.ofReal_ne_zero.2 hpos.ne'
    rw [hQ, map_mul, hS, Complex.conj_ofReal, ← hS] at hQr
    exact mul_right_cancel₀ hS0 hQr
  obtain ⟨l, hl⟩ := Complex.conj_eq_iff_real.1 hzr
  refine ⟨l, hl, ?_⟩
  have hre : ∀ i : ℤ, 0 ≤ i → i < m.rows → ∑ j ∈ Finset.Ico (0 : ℤ) m.rows, m.e i j * (u j).re = l * (u i).re := by
    intro i a b
    have := congrArg Complex.re (hu i a b)
    rw [hl, Complex.re_ofReal_mul, Complex.re_sum] at this
    rw [← this]
    exact Finset.sum_congr rfl fun j _ => (Complex.re_ofReal_mul _ _).symm
  have him : ∀ i : ℤ, 0 ≤ i → i < m.rows → ∑ j ∈ Finset.Ico (0 : ℤ) m.rows, m.e i j * (u j).im = l * (u i).im := by
    intro i a b
    have := congrArg Complex.im (hu i a b)
    rw [hl, Complex.im_ofReal_mul, Complex.im_sum] at this
    rw [← this]
    exact Finset.sum_congr rfl fun j _ => (Complex.im_ofReal_mul _ _).symm
  by_cases hr : (u i0).re = 0
  · refine ⟨fun i => (u i).im, ⟨i0, h0, h1, fun h => hu0 (Complex.ext hr h)⟩, him⟩
  · exact ⟨fun i => (u i).re, ⟨i0, h0, h1, hr⟩, hre⟩

/-- With homogeneous walls the neighbours a stencil sees are bounded by the interior values. -/
theorem neighbours_le {u : GridVariable d ℝ} (hu : u.Supported) (hN : ∀ a, 3 ≤ u.array.grid.shape a) (hh : u.HomogeneousWalls)
    (x : Idx d → ℝ) (a : Fin d)
    (i : Idx d) (h0 : 0 ≤ i a) (h1 : i a < u.interior a) (M : ℝ) (hM : ∀ j : ℤ, 0 ≤ j → j < u.interior a → |x (Function.update i a j)| ≤ M) :
    |(u.withData x).above a i| ≤ M ∧ |(u.withData x).below a i| ≤ M := by
  have np : ¬ (BCType.neumann = BCType.periodic) := by decide
  have dp : ¬ (BCType.dirichlet = BCType.periodic) := by decide
  have nd : ¬ (BCType.neumann = BCType.dirichlet) := by decide
  have ne : ¬ (1 : ℚ) = 1 / 2 := by norm_num
  have hx : |x i| ≤ M := by have := hM (i a) h0 h1; rwa [update_get] at this
  have hM0 : 0 ≤ M := (abs_nonneg _).trans hx
  obtain ⟨hs, hpos, hc⟩ := hu a
  have hn := hN a
  rw [← hs] at hn
  unfold GridVariable.interior at h1 hM
  rcases hc with hp | ⟨t1, t2, ho⟩ | ⟨ht, ho⟩
  · have hnot : ¬ (u.bc.types a = (.dirichlet, .dirichlet) ∧ u.array.offset a = 1) := by
      rintro ⟨h, -⟩; rw [hp] at h; cases h
    rw [if_neg hnot] at h1 hM
    unfold GridVariable.above GridVariable.below
    simp only [GridVariable.withData, hp, if_true]
    exact ⟨hM _ (Int.emod_nonneg _ (by omega)) (Int.emod_lt_of_pos _ (by omega)),
      hM _ (Int.emod_nonneg _ (by omega)) (Int.emod_lt_of_pos _ (by omega))⟩
  · have hnp : u.bc.types a ≠ (.periodic, .periodic) := by
      intro h; rw [h] at t1; rcases t1 with t | t <;> cases t
    have hcv : u.bc.constantValues a = (0, 0) := by simp [BC.constantValues, hh a hnp]
    have hnot : ¬ (u.bc.types a = (.dirichlet, .dirichlet) ∧ u.array.offset a = 1) := by
      rintro ⟨-, h⟩; rw [ho] at h; exact ne h.symm
    rw [if_neg hnot] at h1 hM
    have h1p : ¬ (u.bc.types a).1 = .periodic := by rcases t1 with t | t <;> rw [t] <;> assumption
    have h2p : ¬ (u.bc.types a).2 = .periodic := by rcases t2 with t | t <;> rw [t] <;> assumption
    unfold GridVariable.above GridVariable.below
    simp only [GridVariable.withData, h1p, h2p, if_false, ho, if_true, hcv]
    constructor
    · by_cases hl : i a + 1 < u.array.shape a
      · rw [if_pos hl]; exact hM _ (by omega) hl
      · rw [if_neg hl]
        split_ifs <;> simpa using hx
    · by_cases hl : 0 < i a
      · rw [if_pos hl]; exact hM _ (by omega) (by omega)
      · rw [if_neg hl]
        split_ifs <;> simpa using hx
  · have hnp : u.bc.types a ≠ (.periodic, .periodic) := by rw [ht]; decide
    have hcv : u.bc.constantValues a = (0, 0) := by simp [BC.constantValues, hh a hnp]
    rw [if_pos ⟨ht, ho⟩] at h1 hM
    unfold GridVariable.above GridVariable.below
    simp only [GridVariable.withData, ht, dp, if_false, ho, ne, hcv]
    constructor
    · by_cases hl : i a + 2 < u.array.shape a
      · rw [if_pos hl]; exact hM _ (by omega) (by omega)
      · rw [if_neg hl]; simpa using hM0
    · by_cases hl : 0 < i a
      · rw [if_pos hl]; exact hM _ (by omega) (by omega)
      · rw [if_neg hl]; simpa using hM0

/-- The eigenvalues of the matrices are real and not positive. -/
theorem eigen_nonpos {u : GridVariable d ℝ} (hu : u.Supported) (hN : ∀ a, 3 ≤ u.array.grid.shape a) (hh : u.HomogeneousWalls)
    {ms : Fin d → Mat ℝ} (hms : laplacianMatrixWB u.array.grid u.array.offset u.bc = .ok ms) (a : Fin d) {z : ℂ}
    (hz : IsEigenvalue (ms a) z) : ∃ l : ℝ, z = (l : ℂ) ∧ l ≤ 0 := by
  obtain ⟨ms', e, hsym, hact⟩ := matrices hu hN
  rw [hms] at e
  injection e with e
  subst e
  obtain ⟨l, hl, x, ⟨i0, p0, p1, hx0⟩, hx⟩ := (hsym a).2.1.real_eigen hz
  refine ⟨l, hl, ?_⟩
  rw [(hsym a).1] at hx p1
  obtain ⟨k, hk, hmax⟩ := Finset.exists_max_image (Finset.Ico (0 : ℤ) (u.interior a)) (fun j => |x j|) ⟨i0, Finset.mem_Ico.2 ⟨p0, p1⟩⟩
  rw [Finset.mem_Ico] at hk
  have hxk : 0 < |x k| := (abs_pos.2 hx0).trans_le (hmax i0 (Finset.mem_Ico.2 ⟨p0, p1⟩))
  let i : Idx d := fun _ => k
  have hb := neighbours_le hu hN hh (fun i => x (i a)) a i hk.1 hk.2 |x k| (fun j j0 j1 => by
    rw [Function.update_self]; exact hmax j (Finset.mem_Ico.2 ⟨j0, j1⟩))
  have he := hact (fun i => x (i a)) a (hh a) i hk.1 hk.2
  simp only [Function.update_self] at he
  rw [hx k hk.1 hk.2] at he
  by_contra hpos
  rw [not_le] at hpos
  have h1 : l * x k * x k ≤ 0 := by
    rw [he, div_mul_eq_mul_div]
    refine div_nonpos_of_nonpos_of_nonneg ?_ (sq_nonneg _)
    have e1 : (u.withData fun i => x (i a)).above a i * x k ≤ x k * x k := by
      refine (le_abs_self _).trans ?_
      rw [abs_mul, ← abs_mul_abs_self (x k)]
      exact mul_le_mul_of_nonneg_right hb.1 (abs_nonneg _)
    have e2 : (u.withData fun i => x (i a)).below a i * x k ≤ x k * x k := by
      refine (le_abs_self _).trans ?_
      rw [abs_mul, ← abs_mul_abs_self (x k)]
      exact mul_le_mul_of_nonneg_right hb.2 (abs_nonneg _)
    nlinarith
  have : 0 < x k * x k := by rw [← abs_mul_abs_self]; exact mul_pos hxk hxk
  nlinarith

theorem eigenSum_nonpos {u : GridVariable d ℝ} (hu : u.Supported) (hN : ∀ a, 3 ≤ u.array.grid.shape a) (hh : u.HomogeneousWalls)
    {ms : Fin d → Mat ℝ} (hms : laplacianMatrixWB u.array.grid u.array.offset u.bc = .ok ms) {z : ℂ}
    (hz : IsEigenvalueSum d (List.ofFn ms) z) : ∃ l : ℝ, z = (l : ℂ) ∧ l ≤ 0 := by
  obtain ⟨ev, h, rfl⟩ := hz
  obtain ⟨l, hl⟩ := Classical.axiom_of_choice (fun a => eigen_nonpos hu hN hh hms a (z := ev a) (by
    have := h a; rwa [opAt_ofFn] at this))
  refine ⟨∑ a, l a, ?_, Finset.sum_nonpos fun a _ => (hl a).2⟩
  rw [Complex.ofReal_sum]
  exact Finset.sum_congr rfl fun a _ => (hl a).1

end JaxCfd
