import Mathlib.LinearAlgebra.Dimension.Constructions
import Mathlib.LinearAlgebra.FiniteDimensional.Lemmas
import Mathlib.Algebra.BigOperators.Field
import Mathlib.Algebra.Order.BigOperators.Ring.Finset
import Mathlib.Tactic.LinearCombination
import Mathlib.Data.Real.Basic
import Mathlib.Analysis.InnerProductSpace.Symmetric
import Mathlib.Analysis.InnerProductSpace.PiL2
import Mathlib.Analysis.InnerProductSpace.Projection.FiniteDimensional

/-!
The conjugate gradient iteration for a symmetric semidefinite matrix in exact arithmetic.
-/

namespace JaxCfd.CG
variable {ι : Type} [Fintype ι]

/-- The dot product. -/
def dot (x y : ι → ℝ) : ℝ := ∑ i, x i * y i

theorem dot_comm (x y : ι → ℝ) : dot x y = dot y x := by
  unfold dot; exact Finset.sum_congr rfl fun i _ => mul_comm _ _
theorem dot_add (x y z : ι → ℝ) : dot x (y + z) = dot x y + dot x z := by
  unfold dot; rw [← Finset.sum_add_distrib]; exact Finset.sum_congr rfl fun i _ => mul_add _ _ _
theorem dot_sub (x y z : ι → ℝ) : dot x (y - z) = dot x y - dot x z := by
  unfold dot; rw [← Finset.sum_sub_distrib]; exact Finset.sum_congr rfl fun i _ => mul_sub _ _ _
theorem dot_smul (c : ℝ) (x y : ι → ℝ) : dot x (c • y) = c * dot x y := by
  unfold dot; rw [Finset.mul_sum]
  exact Finset.sum_congr rfl fun i _ => by rw [Pi.smul_apply, smul_eq_mul]; ring
theorem add_dot (x y z : ι → ℝ) : dot (y + z) x = dot y x + dot z x := by
  rw [dot_comm, dot_add, dot_comm x y, dot_comm x z]
theorem sub_dot (x y z : ι → ℝ) : dot (y - z) x = dot y x - dot z x := by
  rw [dot_comm, dot_sub, dot_comm x y, dot_comm x z]
theorem smul_dot (c : ℝ) (x y : ι → ℝ) : dot (c • y) x = c * dot y x := by
  rw [dot_comm, dot_smul, dot_comm x y]
theorem dot_self_nonneg (x : ι → ℝ) : 0 ≤ dot x x := Finset.sum_nonneg fun i _ => mul_self_nonneg _
theorem dot_self_eq_zero {x : ι → ℝ} : dot x x = 0 ↔ x = 0 := by
  unfold dot
  rw [Finset.sum_eq_zero_iff_of_nonneg fun i _ => mul_self_nonneg _]
  exact ⟨fun h => funext fun i => mul_self_eq_zero.1 (h i (Finset.mem_univ i)), fun h i _ => by rw [h]; simp⟩

/-- Pairwise orthogonal non-zero vectors are no more than the dimension. -/
theorem card_orthogonal {n : ℕ} (r : Fin n → ι → ℝ) (h0 : ∀ i, r i ≠ 0) (ho : ∀ i j, i ≠ j → dot (r i) (r j) = 0) :
    n ≤ Fintype.card ι := by
  have hli : LinearIndependent ℝ r := by
    rw [Fintype.linearIndependent_iff]
    intro c hc i
    have : dot (r i) (∑ j, c j • r j) = 0 := by rw [hc]; unfold dot; simp
    have e : dot (r i) (∑ j, c j • r j) = ∑ j, c j * dot (r i) (r j) := by
      unfold dot
      simp only [Finset.sum_apply, Pi.smul_apply, smul_eq_mul, Finset.mul_sum]
      rw [Finset.sum_comm]
      exact Finset.sum_congr rfl fun j _ => Finset.sum_congr rfl fun k _ => by ring
    rw [e, Finset.sum_eq_single i (fun j _ hj => by rw [ho i j (Ne.symm hj), mul_zero]) (by simp)] at this
    exact (mul_eq_zero.1 this).resolve_right fun hz => h0 i (dot_self_eq_zero.1 hz)
  simpa using hli.fintype_card_le_finrank

variable (A : (ι → ℝ) →ₗ[ℝ] (ι → ℝ))

/-- The state of the iteration: iterate, residual, search direction. -/
structure State (ι : Type) where
  x : ι → ℝ
  r : ι → ℝ
  p : ι → ℝ

/-- One iteration. -/
noncomputable def step (s : State ι) : State ι :=
  let α := dot s.r s.r / dot s.p (A s.p)
  let r' := s.r - α • A s.p
  let β := dot r' r' / dot s.r s.r
  ⟨s.x + α • s.p, r', r' + β • s.p⟩

/-- `n` iterations from a start vector. -/
noncomputable def iter (b x0 : ι → ℝ) (n : ℕ) : State ι := (step A)^[n] ⟨x0, b - A x0, b - A x0⟩

theorem iter_succ (b x0 : ι → ℝ) (n : ℕ) : iter A b x0 (n + 1) = step A (iter A b x0 n) := by
  unfold iter; rw [Function.iterate_succ_apply']

/-- The residual is the residual of the iterate. -/
theorem iter_residual (b x0 : ι → ℝ) (n : ℕ) : (iter A b x0 n).r = b - A (iter A b x0 n).x := by
  induction n with
  | zero => rfl
  | succ n ih =>
    rw [iter_succ]
    simp only [step, map_add, map_smul]
    rw [ih]; abel

section
variable {A} {b x0 : ι → ℝ}

/-- What holds as long as no residual vanishes. -/
theorem conjugate (hsym : ∀ x y, dot (A x) y = dot x (A y)) (hdef : ∀ y ∈ LinearMap.range A, y ≠ 0 → dot y (A y) ≠ 0)
    (hb : b - A x0 ∈ LinearMap.range A) (n : ℕ) (hr : ∀ k < n, (iter A b x0 k).r ≠ 0) :
    (∀ i j, i < j → j ≤ n → dot (iter A b x0 i).r (iter A b x0 j).r = 0) ∧
    (∀ i j, i < j → j ≤ n → dot (iter A b x0 i).p (A (iter A b x0 j).p) = 0) ∧
    (∀ i j, i < j → j ≤ n → dot (iter A b x0 i).p (iter A b x0 j).r = 0) ∧
    (∀ i ≤ n, dot (iter A b x0 i).p (iter A b x0 i).r = dot (iter A b x0 i).r (iter A b x0 i).r) ∧
    (∀ i ≤ n, (iter A b x0 i).r ∈ LinearMap.range A ∧ (iter A b x0 i).p ∈ LinearMap.range A) := by
  induction n with
  | zero =>
    refine ⟨fun i j h h' => by omega, fun i j h h' => by omega, fun i j h h' => by omega, fun i hi => ?_, fun i hi => ?_⟩
    · obtain rfl : i = 0 := by omega
      rfl
    · obtain rfl : i = 0 := by omega
      exact ⟨hb, hb⟩
  | succ n ih =>
    obtain ⟨ha, hc, hp, hd, hm⟩ := ih fun k hk => hr k (by omega)
    have hrn := hr n (by omega)
    have hg : dot (iter A b x0 n).r (iter A b x0 n).r ≠ 0 := fun h => hrn (dot_self_eq_zero.1 h)
    have hpn : (iter A b x0 n).p ≠ 0 := fun h => by
      have := hd n le_rfl
      rw [h] at this
      apply hg
      rw [← this]; unfold dot; simp
    have hpa := hdef _ (hm n le_rfl).2 hpn
    have hR : (iter A b x0 (n + 1)).r = (iter A b x0 n).r - (dot (iter A b x0 n).r (iter A b x0 n).r /
      dot (iter A b x0 n).p (A (iter A b x0 n).p)) • A (iter A b x0 n).p := by rw [iter_succ]; rfl
    have hP : ∀ k, (iter A b x0 (k + 1)).p = (iter A b x0 (k + 1)).r + (dot (iter A b x0 (k + 1)).r (iter A b x0 (k + 1)).r /
      dot (iter A b x0 k).r (iter A b x0 k).r) • (iter A b x0 k).p := fun k => by rw [iter_succ]; rfl
    have hAp : ∀ k ≤ n, A (iter A b x0 k).p = (dot (iter A b x0 k).p (A (iter A b x0 k).p) /
        dot (iter A b x0 k).r (iter A b x0 k).r) • ((iter A b x0 k).r - (iter A b x0 (k + 1)).r) := fun k hk => by
      have h1 : dot (iter A b x0 k).r (iter A b x0 k).r ≠ 0 := fun h => hr k (by omega) (dot_self_eq_zero.1 h)
      have h2 : (iter A b x0 k).p ≠ 0 := fun h => by
        have := hd k hk
        rw [h] at this
        apply h1
        rw [← this]; unfold dot; simp
      have h3 := hdef _ (hm k hk).2 h2
      have h4 : (iter A b x0 (k + 1)).r = (iter A b x0 k).r - (dot (iter A b x0 k).r (iter A b x0 k).r /
        dot (iter A b x0 k).p (A (iter A b x0 k).p)) • A (iter A b x0 k).p := by rw [iter_succ]; rfl
      rw [h4, sub_sub_cancel, smul_smul, div_mul_div_comm, mul_comm, div_self (mul_ne_zero h1 h3), one_smul]
    -- search directions and the new residual
    have kp : ∀ i ≤ n, dot (iter A b x0 i).p (iter A b x0 (n + 1)).r = 0 := fun i hi => by
      rw [hR, dot_sub, dot_smul]
      rcases Nat.lt_or_eq_of_le hi with h | rfl
      · rw [hp i n h le_rfl, hc i n h le_rfl]; ring
      · rw [hd i le_rfl, div_mul_cancel₀ _ hpa, sub_self]
    have ka : ∀ i ≤ n, dot (iter A b x0 i).r (iter A b x0 (n + 1)).r = 0 := fun i hi => by
      cases i with
      | zero => exact kp 0 (by omega)
      | succ k =>
        have : (iter A b x0 (k + 1)).r = (iter A b x0 (k + 1)).p - (dot (iter A b x0 (k + 1)).r (iter A b x0 (k + 1)).r /
          dot (iter A b x0 k).r (iter A b x0 k).r) • (iter A b x0 k).p := by rw [hP k]; abel
        rw [this, sub_dot, smul_dot, kp (k + 1) hi, kp k (by omega)]; ring
    have kc : ∀ i ≤ n, dot (iter A b x0 i).p (A (iter A b x0 (n + 1)).p) = 0 := fun i hi => by
      have e : dot (iter A b x0 i).p (A (iter A b x0 (n + 1)).p) = dot (A (iter A b x0 i).p) (iter A b x0 (n + 1)).r +
          (dot (iter A b x0 (n + 1)).r (iter A b x0 (n + 1)).r / dot (iter A b x0 n).r (iter A b x0 n).r) *
            dot (iter A b x0 i).p (A (iter A b x0 n).p) := by
        rw [hP n, map_add, map_smul, dot_add, dot_smul, hsym]
      rw [e, hAp i hi, smul_dot, sub_dot]
      rcases Nat.lt_or_eq_of_le hi with h | rfl
      · rw [hc i n h le_rfl, ka i hi, ka (i + 1) (by omega)]; ring
      · rw [ka i le_rfl]; field_simp; ring
    have kd : dot (iter A b x0 (n + 1)).p (iter A b x0 (n + 1)).r = dot (iter A b x0 (n + 1)).r (iter A b x0 (n + 1)).r := by
      conv_lhs => rw [hP n]
      rw [add_dot, smul_dot, kp n le_rfl, mul_zero, add_zero]
    have hmr : (iter A b x0 (n + 1)).r ∈ LinearMap.range A := by
      rw [hR]
      exact Submodule.sub_mem _ (hm n le_rfl).1 (Submodule.smul_mem _ _ (LinearMap.mem_range_self _ _))
    refine ⟨fun i j h h' => ?_, fun i j h h' => ?_, fun i j h h' => ?_, fun i hi => ?_, fun i hi => ?_⟩
    · rcases Nat.lt_or_eq_of_le h' with h'' | rfl
      · exact ha i j h (by omega)
      · exact ka i (by omega)
    · rcases Nat.lt_or_eq_of_le h' with h'' | rfl
      · exact hc i j h (by omega)
      · exact kc i (by omega)
    · rcases Nat.lt_or_eq_of_le h' with h'' | rfl
      · exact hp i j h (by omega)
      · exact kp i (by omega)
    · rcases Nat.lt_or_eq_of_le hi with h'' | rfl
      · exact hd i (by omega)
      · exact kd
    · rcases Nat.lt_or_eq_of_le hi with h'' | rfl
      · exact hm i (by omega)
      · refine ⟨hmr, ?_⟩
        rw [hP n]
        exact Submodule.add_mem _ hmr (Submodule.smul_mem _ _ (hm n le_rfl).2)

/-- Within as many iterations as unknowns the residual vanishes. -/
theorem terminates (hsym : ∀ x y, dot (A x) y = dot x (A y)) (hdef : ∀ y ∈ LinearMap.range A, y ≠ 0 → dot y (A y) ≠ 0)
    (hb : b - A x0 ∈ LinearMap.range A) : ∃ k ≤ Fintype.card ι, (iter A b x0 k).r = 0 := by
  by_contra hcon
  push Not at hcon
  obtain ⟨ha, -⟩ := conjugate hsym hdef hb (Fintype.card ι) fun k hk => hcon k hk.le
  have := card_orthogonal (fun k : Fin (Fintype.card ι + 1) => (iter A b x0 k).r) (fun k => hcon k (by omega)) (fun i j hij => by
    rcases lt_or_gt_of_ne hij with h | h
    · exact ha i j h (by omega)
    · rw [dot_comm]; exact ha j i h (by omega))
  omega

/-- A symmetric semidefinite matrix is definite on its range. -/
theorem definite_on_range (hsym : ∀ x y, dot (A x) y = dot x (A y)) (hker : ∀ y, dot y (A y) = 0 → A y = 0) :
    ∀ y ∈ LinearMap.range A, y ≠ 0 → dot y (A y) ≠ 0 := by
  rintro y ⟨z, rfl⟩ hy h
  have h1 := hker _ h
  refine hy (dot_self_eq_zero.1 ?_)
  rw [hsym, h1]; unfold dot; simp

/-- Solvability: a right-hand side orthogonal to the kernel is in the range. -/
theorem mem_range (hsym : ∀ x y, dot (A x) y = dot x (A y)) (hb : ∀ y, A y = 0 → dot y b = 0) : b ∈ LinearMap.range A := by
  classical
  let e : (ι → ℝ) ≃ₗ[ℝ] EuclideanSpace ℝ ι := (WithLp.linearEquiv 2 ℝ (ι → ℝ)).symm
  let T : EuclideanSpace ℝ ι →ₗ[ℝ] EuclideanSpace ℝ ι := e.toLinearMap ∘ₗ A ∘ₗ e.symm.toLinearMap
  have hin : ∀ x y : ι → ℝ, Inner.inner ℝ (e x) (e y) = dot x y := fun x y => by
    simp only [e, PiLp.inner_apply, dot]
    refine Finset.sum_congr rfl fun i _ => ?_
    simp [mul_comm]
  have hT : T.IsSymmetric := fun x y => by
    have h1 := hin (A (e.symm x)) (e.symm y)
    have h2 := hin (e.symm x) (A (e.symm y))
    simp only [LinearEquiv.apply_symm_apply] at h1 h2
    show Inner.inner ℝ (e (A (e.symm x))) y = Inner.inner ℝ x (e (A (e.symm y)))
    rw [h1, h2, hsym]
  have hmem : e b ∈ (LinearMap.range T)ᗮᗮ := by
    rw [hT.orthogonal_range]
    intro y hy
    have hy' : A (e.symm y) = 0 := by
      have : e (A (e.symm y)) = 0 := hy
      exact (LinearEquiv.map_eq_zero_iff e).1 this
    have := hin (e.symm y) b
    rw [LinearEquiv.apply_symm_apply] at this
    rw [this, hb _ hy']
  rw [Submodule.orthogonal_orthogonal] at hmem
  obtain ⟨z, hz⟩ := hmem
  refine ⟨e.symm z, e.injective ?_⟩
  exact hz

end
end JaxCfd.CG
