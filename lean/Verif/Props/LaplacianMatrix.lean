import Verif.Lemmas.LaplacianMatrix
import Verif.Props.Wall

/-!
# C34: the laplacian matrices are the finite-difference laplacian
-/

set_option linter.unusedSectionVars false

namespace JaxCfd

variable {d : ℕ} {K : Type} [Field K] [HasNan K] [DecidableEq K]

/-- **C34** `laplacian_matrix(n, h)` succeeds exactly for sizes of at least 2, is symmetric, and for sizes of at least 3 its
product with a vector is the periodic second difference. -/
theorem C34_periodic (n : ℕ) (h : K) :
    (n ≤ 1 → laplacianMatrix n h = .error .index) ∧
    (2 ≤ n → ∃ m, laplacianMatrix n h = .ok m ∧ m.rows = n ∧ m.cols = n ∧
      (∀ i j : ℤ, 0 ≤ i → i < n → 0 ≤ j → j < n → m.e i j = m.e j i) ∧
      (3 ≤ n → ∀ (x : ℤ → K) (i : ℤ), 0 ≤ i → i < n →
        ∑ j ∈ Finset.Ico (0 : ℤ) n, m.e i j * x j = (x ((i + 1) % n) + x ((i - 1) % n) - 2 * x i) / h ^ 2)) := by
  refine ⟨fun hn => if_pos hn, fun hn => ⟨_, if_neg (by omega), rfl, rfl, fun i j h1 h2 h3 h4 => ?_,
    fun hn x i h0 h1 => circulant_row n hn h i h0 h1 x⟩⟩
  dsimp only
  rw [circulant_entry n hn h i j h1 h2 h3 h4, circulant_entry n hn h j i h3 h4 h1 h2]
  by_cases e : j = i
  · subst e; rfl
  · rw [if_neg e, if_neg (Ne.symm e)]
    refine if_congr ?_ rfl rfl
    omega

/-- **C34** (recorded defect) for two cells the entries are assigned, not accumulated: the product is not the periodic second
difference `(x[i+1] + x[i-1] - 2 x[i]) / h²` (whose row would be `[-2, 2] / h²`), and the matrix does not even map constants to
zero. -/
theorem C34_size_two_defect (h : K) (hh : h ≠ 0) :
    ∃ m, laplacianMatrix 2 h = .ok m ∧
      ∑ j ∈ Finset.Ico (0 : ℤ) 2, m.e 0 j * 1 = -1 / h ^ 2 ∧
      (∑ j ∈ Finset.Ico (0 : ℤ) 2, m.e 0 j * 1 ≠ (1 + 1 - 2 * 1) / h ^ 2) := by
  have e : ∑ j ∈ Finset.Ico (0 : ℤ) 2, laplacianColumn 2 h ((0 - j) % 2) * 1 = -1 / h ^ 2 := by
    rw [show Finset.Ico (0 : ℤ) 2 = {0, 1} from by decide, Finset.sum_pair (by decide)]
    norm_num [laplacianColumn]
    ring
  refine ⟨_, if_neg (by norm_num), e, ?_⟩
  show ∑ j ∈ Finset.Ico (0 : ℤ) 2, laplacianColumn 2 h ((0 - j) % 2) * 1 ≠ _
  rw [e]
  norm_num
  exact hh

theorem InR.of_interior {u : GridVariable d K} {i : Idx d} (hi : InR u.interior i) : InR u.array.shape i := by
  intro a
  refine ⟨(hi a).1, ?_⟩
  have := (hi a).2
  unfold GridVariable.interior at this
  split_ifs at this <;> omega

theorem matrixAxis_periodic {t : BCType × BCType} (ht : t = (.periodic, .periodic)) (o : ℚ) (h : K) (m : Mat K) :
    laplacianMatrixAxis t o h m = .ok m := by
  subst ht
  have np : ¬ (BCType.periodic = BCType.neumann) := by decide
  have dp : ¬ (BCType.periodic = BCType.dirichlet) := by decide
  simp only [laplacianMatrixAxis, laplacianSide, np, dp, if_false, ite_self, and_self, or_self]

theorem matrixAxis_center (t : BCType × BCType) (h : K) (m : Mat K) :
    laplacianMatrixAxis t (1 / 2) h m = .ok (laplacianSide t.2 h .upper (laplacianSide t.1 h .lower m)) := by
  have : ¬ (Int.fract (1 / 2 : ℚ) = 0) := by
    rw [Int.fract_eq_self.2 ⟨by norm_num, by norm_num⟩]; norm_num
  simp only [laplacianMatrixAxis, if_true, this, if_false]

theorem matrixAxis_face {t : BCType × BCType} (ht : t = (.dirichlet, .dirichlet)) (h : K) (m : Mat K) :
    laplacianMatrixAxis t 1 h m = .ok m.dropLast := by
  subst ht
  have h1 : ¬ ((1 : ℚ) = 1 / 2) := by norm_num
  simp [laplacianMatrixAxis]

theorem laplacianSide_size (t : BCType) (h : K) (s : Side) (m : Mat K) :
    (laplacianSide t h s m).rows = m.rows ∧ (laplacianSide t h s m).cols = m.cols := by
  unfold laplacianSide
  split_ifs <;> cases s <;> exact ⟨rfl, rfl⟩

/-- One axis: the matrix the code builds, its size, symmetry and product. -/
theorem matrixAxis_ok {u : GridVariable d K} (hu : u.Supported) (hN : ∀ a, 3 ≤ u.array.shape a) (a : Fin d) :
    ∃ m, laplacianMatrixAxis (u.bc.types a) (u.array.offset a) (u.array.grid.step a)
        ⟨u.array.shape a, u.array.shape a, fun i j => laplacianColumn (u.array.shape a) (u.array.grid.step a)
          ((i - j) % (u.array.shape a : ℤ))⟩ = .ok m ∧ m.rows = u.interior a ∧ m.cols = u.interior a ∧
      (∀ i j : ℤ, 0 ≤ i → i < u.interior a → 0 ≤ j → j < u.interior a → m.e i j = m.e j i) ∧
      ((u.bc.types a ≠ (.periodic, .periodic) → u.bc.bcValues a = (some 0, some 0)) →
      ∀ i : Idx d, 0 ≤ i a → i a < u.interior a →
        ∑ j ∈ Finset.Ico (0 : ℤ) (u.interior a), m.e (i a) j * u.array.data (Function.update i a j) =
          (u.above a i + u.below a i - 2 * u.array.data i) / u.array.grid.step a ^ 2) := by
  obtain ⟨hs, hpos, hcase⟩ := hu a
  have hn := hN a
  have np : ¬ (BCType.neumann = BCType.periodic) := by decide
  have dp : ¬ (BCType.dirichlet = BCType.periodic) := by decide
  have nd : ¬ (BCType.dirichlet = BCType.neumann) := by decide
  have nd' : ¬ (BCType.neumann = BCType.dirichlet) := by decide
  have upd : ∀ i : Idx d, Function.update i a (i a) = i := fun i => Function.update_eq_self a i
  rcases hcase with hp | ⟨h1, h2, ho⟩ | ⟨ht, ho⟩
  · have hint : u.interior a = u.array.shape a := by
      unfold GridVariable.interior; rw [hp, if_neg]; rintro ⟨h, -⟩; exact absurd h (by decide)
    refine ⟨_, matrixAxis_periodic hp _ _ _, hint.symm, hint.symm, ?_, fun _ i h0 h1 => ?_⟩
    · obtain ⟨m, hm, -, -, hsym, -⟩ := (C34_periodic (u.array.shape a) (u.array.grid.step a)).2 (by omega)
      rw [laplacianMatrix, if_neg (by omega)] at hm
      injection hm with hm
      subst hm
      rw [hint]
      exact hsym
    · rw [hint]
      rw [hint] at h1
      refine (circulant_row _ hn _ (i a) h0 h1 (fun j => u.array.data (Function.update i a j))).trans ?_
      rw [upd]
      simp only [GridVariable.above, GridVariable.below, hp, if_true, rollIdx, sub_eq_add_neg]
  · have hint : u.interior a = u.array.shape a := by
      unfold GridVariable.interior; rw [ho, if_neg]; rintro ⟨-, h⟩; norm_num at h
    have hp1 : (u.bc.types a).1 ≠ .periodic := by rcases h1 with h | h <;> rw [h] <;> decide
    have hp2 : (u.bc.types a).2 ≠ .periodic := by rcases h2 with h | h <;> rw [h] <;> decide
    have hent := wall_entry (u.array.shape a) hn (u.array.grid.step a) (u.bc.types a) h1 h2
    refine ⟨_, by rw [ho]; exact matrixAxis_center _ _ _, ?_, ?_, ?_, fun hv i h0 hi => ?_⟩
    · rw [hint, (laplacianSide_size _ _ _ _).1, (laplacianSide_size _ _ _ _).1]
    · rw [hint, (laplacianSide_size _ _ _ _).2, (laplacianSide_size _ _ _ _).2]
    · rw [hint]
      intro i j a1 a2 a3 a4
      rw [hent i j a1 a2 a3 a4, hent j i a3 a4 a1 a2]
      by_cases e : j = i
      · subst e; rfl
      · rw [if_neg e, if_neg (Ne.symm e)]
        by_cases e1 : j = i + 1
        · rw [if_pos e1, if_neg (by omega), if_neg (by omega), if_pos (by omega)]; ring
        · rw [if_neg e1]
          by_cases e2 : j = i - 1
          · rw [if_pos e2, if_pos (by omega), if_neg (by omega)]; ring
          · rw [if_neg e2, if_neg (by omega), if_neg (by omega)]
    · rw [hint]
      rw [hint] at hi
      rw [Finset.sum_congr rfl fun j hj => by
        rw [hent (i a) j h0 hi (Finset.mem_Ico.1 hj).1 (Finset.mem_Ico.1 hj).2],
        sum_three _ (i a) h0 hi _ _ _ (fun j => u.array.data (Function.update i a j)), upd]
      have hval := hv (by intro h; rw [h] at hp1; exact hp1 rfl)
      have hcv : u.bc.constantValues a = (0, 0) := by simp [BC.constantValues, hval]
      simp only [GridVariable.above, GridVariable.below, hp1, hp2, if_false, ho, if_true, hcv]
      by_cases b0 : 0 < i a
      · have b0' : ¬ (i a = 0) := by omega
        simp only [b0, b0', if_true, if_false]
        by_cases b1 : i a + 1 < u.array.shape a
        · have b1' : ¬ (i a = (u.array.shape a : ℤ) - 1) := by omega
          simp only [b1, b1', if_true, if_false]
          ring
        · have b1' : i a = (u.array.shape a : ℤ) - 1 := by omega
          simp only [b1, if_false, wallCorr]
          rw [if_pos b1']
          rcases h2 with h | h <;> simp only [h, nd, nd', if_true, if_false] <;> ring
      · have b0' : i a = 0 := by omega
        have b1 : i a + 1 < u.array.shape a := by omega
        have b1' : ¬ (i a = (u.array.shape a : ℤ) - 1) := by omega
        simp only [b0, b1, b1', if_true, if_false, wallCorr]
        rw [if_pos b0']
        rcases h1 with h | h <;> simp only [h, nd, nd', if_true, if_false] <;> ring
  · have hint : u.interior a = u.array.shape a - 1 := by
      unfold GridVariable.interior; rw [if_pos ⟨ht, ho⟩]
    have hc : ((u.array.shape a - 1 : ℕ) : ℤ) = (u.array.shape a : ℤ) - 1 := by omega
    have hent := face_entry (u.array.shape a) (by omega) (u.array.grid.step a)
    refine ⟨_, by rw [ho]; exact matrixAxis_face ht _ _, hint.symm, hint.symm, ?_, fun hv i h0 hi => ?_⟩
    · rw [hint, hc]
      intro i j a1 a2 a3 a4
      refine (hent i j a1 a2 a3 a4).trans ((?_ : _ = _).trans (hent j i a3 a4 a1 a2).symm)
      by_cases e : j = i
      · subst e; rfl
      · rw [if_neg e, if_neg (Ne.symm e)]
        by_cases e1 : j = i + 1
        · rw [if_pos e1, if_neg (by omega), if_neg (by omega), if_pos (by omega)]; ring
        · rw [if_neg e1]
          by_cases e2 : j = i - 1
          · rw [if_pos e2, if_pos (by omega), if_neg (by omega)]; ring
          · rw [if_neg e2, if_neg (by omega), if_neg (by omega)]
    · rw [hint] at hi ⊢
      have hval := hv (by intro h; rw [h] at ht; exact absurd ht (by decide))
      have hcv : u.bc.constantValues a = (0, 0) := by simp [BC.constantValues, hval]
      have hne : ¬ ((1 : ℚ) = 1 / 2) := by norm_num
      refine (Finset.sum_congr rfl fun j hj => ?_).trans ((sum_three _ (i a) h0 hi (-2 / u.array.grid.step a ^ 2)
        (1 / u.array.grid.step a ^ 2) (1 / u.array.grid.step a ^ 2)
        (fun j => u.array.data (Function.update i a j))).trans ?_)
      · have hj := Finset.mem_Ico.1 hj
        rw [hc] at hj hi
        exact congrArg (· * _) (hent (i a) j h0 hi hj.1 hj.2)
      · rw [upd, hc]
        simp only [GridVariable.above, GridVariable.below, ht, dp, if_false, ho, hne, hcv]
        have e : (i a + 1 < (u.array.shape a : ℤ) - 1) ↔ (i a + 2 < u.array.shape a) := by omega
        simp only [e]
        by_cases b0 : 0 < i a <;> by_cases b1 : i a + 2 < u.array.shape a <;>
          simp only [b0, b1, if_true, if_false] <;> ring

/-- **C34** On every supported variable with homogeneous walls (any mix, axis by axis, of periodic, cell-centred Dirichlet /
Neumann, and face-aligned Dirichlet) with at least three cells per axis, `laplacian_matrix_w_boundaries` returns one symmetric
matrix per axis, sized to the points strictly inside the domain, and applying them along the axes and adding up gives exactly
the finite-difference `laplacian` at every such point. -/
theorem C34_matches_laplacian (u : GridVariable d K) (hu : u.Supported) (hh : u.HomogeneousWalls)
    (hN : ∀ a, 3 ≤ u.array.grid.shape a) :
    ∃ ms l, laplacianMatrixWB u.array.grid u.array.offset u.bc = .ok ms ∧ laplacian u = .ok l ∧
      (∀ a, (ms a).rows = u.interior a ∧ (ms a).cols = u.interior a ∧
        ∀ i j : ℤ, 0 ≤ i → i < u.interior a → 0 ≤ j → j < u.interior a → (ms a).e i j = (ms a).e j i) ∧
      ∀ i, InR u.interior i →
        l.data i = ∑ a, ∑ j ∈ Finset.Ico (0 : ℤ) (u.interior a), (ms a).e (i a) j * u.array.data (Function.update i a j) := by
  have hs : ∀ a, u.array.grid.shape a = u.array.shape a := fun a => (hu a).1.symm
  obtain ⟨m, hm⟩ := Classical.axiom_of_choice (fun a => matrixAxis_ok hu (fun a => by rw [← hs a]; exact hN a) a)
  obtain ⟨l, hl, -, hle⟩ := laplacian_supported u hu
  refine ⟨m, l, ?_, hl, fun a => ⟨(hm a).2.1, (hm a).2.2.1, (hm a).2.2.2.1⟩, fun i hi => ?_⟩
  · unfold laplacianMatrixWB
    rw [seqFin_ok _ (fun a => ⟨u.array.shape a, u.array.shape a, fun i j => laplacianColumn (u.array.shape a)
      (u.array.grid.step a) ((i - j) % (u.array.shape a : ℤ))⟩) (fun a => by
        rw [laplacianMatrix, if_neg (by have := hN a; omega), hs a]), Except.bind_ok]
    exact seqFin_ok _ _ fun a => (hm a).1
  · rw [hle i hi.of_interior]
    exact Finset.sum_congr rfl fun a _ => ((hm a).2.2.2.2 (hh a) i (hi a).1 (hi a).2).symm

/-- **C34** A face-aligned axis with a Neumann wall is rejected. -/
theorem C34_rejects_neumann_faces (g : Grid d K) (offset : Fin d → ℚ) (bc : BC d K) (a : Fin d)
    (hN : ∀ b, 2 ≤ g.shape b) (ho : Int.fract (offset a) = 0)
    (hn : (bc.types a).1 = .neumann ∨ (bc.types a).2 = .neumann) :
    ∃ e, laplacianMatrixWB g offset bc = .error e := by
  unfold laplacianMatrixWB
  rw [seqFin_ok _ (fun a => ⟨g.shape a, g.shape a, fun i j => laplacianColumn (g.shape a)
    (g.step a) ((i - j) % (g.shape a : ℤ))⟩) (fun a => by
      rw [laplacianMatrix, if_neg (by have := hN a; omega)]), Except.bind_ok]
  rcases seqFin_isError (fun b => laplacianMatrixAxis (bc.types b) (offset b) (g.step b)
    (⟨g.shape b, g.shape b, fun i j => laplacianColumn (g.shape b) (g.step b) ((i - j) % (g.shape b : ℤ))⟩ : Mat K))
    with ⟨r, hr⟩ | ⟨_, e, -, -, he⟩
  swap
  · exact ⟨e, he⟩
  have := (seqFin_eq_ok _ _).1 hr a
  have hnd : ¬ ((bc.types a).1 = .dirichlet ∧ (bc.types a).2 = .dirichlet) := by
    rintro ⟨h1, h2⟩; rcases hn with h | h
    · rw [h1] at h; cases h
    · rw [h2] at h; cases h
  simp only [laplacianMatrixAxis, ho, if_true, hnd, if_false, hn] at this
  cases this

/-! ## The hypotheses are met by concrete data -/
namespace Fixtures
/-- a channel-flow component: periodic in x, faces between Dirichlet walls in y -/
def wallV : GridVariable 2 ℚ :=
  ⟨⟨⟨![3, 4], fun i => if i 1 = 3 then 0 else (i 0 : ℚ) * (i 1 : ℚ) + 1⟩, ![1 / 2, 1], g34⟩,
    ⟨.homogeneous, ![(.periodic, .periodic), (.dirichlet, .dirichlet)], fun _ => (some 0, some 0)⟩⟩

example : wallV.Supported ∧ wallV.HomogeneousWalls ∧ (∀ a, 3 ≤ wallV.array.grid.shape a) ∧
    wallV.interior 1 = 3 ∧ cDir.Supported ∧ cDir.HomogeneousWalls := by
  refine ⟨fun a => ?_, fun _ _ => rfl, fun a => ?_, ?_, fun a => ?_, fun _ _ => rfl⟩
  · fin_cases a
    · exact ⟨rfl, by simp [wallV, g34], Or.inl rfl⟩
    · exact ⟨rfl, by simp [wallV, g34], Or.inr (Or.inr ⟨rfl, rfl⟩)⟩
  · fin_cases a <;> simp [wallV, g34]
  · simp [GridVariable.interior, wallV]
  · exact ⟨rfl, by simp [cDir, uCenter, g4], Or.inr (Or.inl ⟨Or.inl rfl, Or.inr rfl, rfl⟩)⟩
end Fixtures

end JaxCfd
