import Verif.Lemmas.AxisOp
import Verif.SpecLinear
import Mathlib.Data.Fin.SuccPred
import Mathlib.Algebra.Group.Fin.Basic
import Mathlib.LinearAlgebra.Matrix.NonsingularInverse

/-!
The loops of the matmul implementation apply one linear map along every axis.
-/

set_option linter.unusedSectionVars false

namespace JaxCfd
variable {K : Type} [Field K]

section Rotate
variable {k : ℕ}

theorem tensordot_step (s : Fin (k + 1) → ℕ) (t : Fin (k + 1)) (w : ℤ → ℤ → K) (y : Idx (k + 1) → K)
    (o : NArr (k + 1) K) (hs : o.shape = fun a => s (a + t)) (hd : o.data = fun i => y fun a => i (a - t)) :
    (tensordot o (s t) (s t) w).shape = (fun a => s (a + (t + 1))) ∧
    (tensordot o (s t) (s t) w).data = fun i => axisOp (s t) t w y fun a => i (a - (t + 1)) := by
  constructor
  · funext a
    simp only [tensordot, hs]
    by_cases ha : a = Fin.last k
    · rw [if_pos ha, ha, add_left_comm, Fin.last_add_one, add_zero]
    · rw [if_neg ha, add_assoc, add_comm 1 t]
  · funext i
    simp only [tensordot, hd, axisOp]
    refine Finset.sum_congr rfl fun j _ => ?_
    congr 2
    · funext a
      by_cases ha : a = t
      · subst ha; simp
      · have : ¬ a - t = 0 := fun h => ha (sub_eq_zero.1 h)
        rw [if_neg this, Function.update_of_ne ha, sub_sub]
    · rw [sub_add_cancel_left]
      congr 1
      exact (eq_neg_of_add_eq_zero_left (Fin.last_add_one k))

theorem ofNat_succ' (t : ℕ) : Fin.ofNat (k + 1) (t + 1) = Fin.ofNat (k + 1) t + 1 := by
  apply Fin.ext
  simp [Fin.ofNat, Fin.val_add]

theorem tensordot_fold (s : Fin (k + 1) → ℕ) (w : Fin (k + 1) → ℤ → ℤ → K) (n t : ℕ) (y : Idx (k + 1) → K)
    (o : NArr (k + 1) K) (hs : o.shape = fun a => s (a + Fin.ofNat (k + 1) t))
    (hd : o.data = fun i => y fun a => i (a - Fin.ofNat (k + 1) t)) :
    (((List.range' t n).map (Fin.ofNat (k + 1))).foldl (fun o a => tensordot o (s a) (s a) (w a)) o).shape =
        (fun a => s (a + Fin.ofNat (k + 1) (t + n))) ∧
    (((List.range' t n).map (Fin.ofNat (k + 1))).foldl (fun o a => tensordot o (s a) (s a) (w a)) o).data =
        fun i => axesOp s w ((List.range' t n).map (Fin.ofNat (k + 1))) y fun a => i (a - Fin.ofNat (k + 1) (t + n)) := by
  induction n generalizing t y o with
  | zero => exact ⟨hs, hd⟩
  | succ n ih =>
    rw [List.range'_succ, List.map_cons, List.foldl_cons, axesOp_cons]
    obtain ⟨h1, h2⟩ := tensordot_step s (Fin.ofNat (k + 1) t) (w (Fin.ofNat (k + 1) t)) y o hs hd
    have := ih (t + 1) (axisOp (s (Fin.ofNat (k + 1) t)) (Fin.ofNat (k + 1) t) (w (Fin.ofNat (k + 1) t)) y)
      (tensordot o (s (Fin.ofNat (k + 1) t)) (s (Fin.ofNat (k + 1) t)) (w (Fin.ofNat (k + 1) t)))
      (by rw [h1, ofNat_succ']) (by rw [h2, ofNat_succ'])
    rw [show t + (n + 1) = t + 1 + n by omega]
    exact this

theorem finRange_eq_range' : (List.range' 0 (k + 1)).map (Fin.ofNat (k + 1)) = List.finRange (k + 1) := by
  apply List.ext_getElem
  · simp
  · intro i h1 h2
    have : i < k + 1 := by simpa using h2
    simp [List.getElem_finRange, Fin.ext_iff, Fin.ofNat, Nat.mod_eq_of_lt this]

theorem tensordot_all (w : Fin (k + 1) → ℤ → ℤ → K) (x : NArr (k + 1) K) :
    ((List.finRange (k + 1)).foldl (fun o a => tensordot o (x.shape a) (x.shape a) (w a)) x).shape = x.shape ∧
    ((List.finRange (k + 1)).foldl (fun o a => tensordot o (x.shape a) (x.shape a) (w a)) x).data =
      axesOp x.shape w (List.finRange (k + 1)) x.data := by
  have h0 : Fin.ofNat (k + 1) 0 = 0 := rfl
  have hk : Fin.ofNat (k + 1) (0 + (k + 1)) = 0 := by apply Fin.ext; simp [Fin.ofNat]
  have := tensordot_fold x.shape w (k + 1) 0 x.data x (by simp [h0]) (by simp [h0])
  rw [finRange_eq_range', hk] at this
  simpa using this
end Rotate

theorem ops_eq_map {d : ℕ} {ops : List (Mat K)} (h : ops.length = d) :
    ops = (List.finRange d).map fun a => opAt ops a := by
  apply List.ext_getElem
  · simp [h]
  · intro i h1 h2
    simp [opAt, List.getD_eq_getElem?_getD, List.getElem?_eq_getElem h1]

theorem opAt_rows {d : ℕ} {ops : List (Mat K)} {s : Fin d → ℕ} (h : List.ofFn s = ops.map Mat.rows) :
    ops.length = d ∧ ∀ a, (opAt ops a).rows = s a := by
  have hl : ops.length = d := by have := congrArg List.length h; simpa using this.symm
  refine ⟨hl, fun a => ?_⟩
  have h2 : ops.map Mat.rows = List.ofFn fun a : Fin d => (opAt ops a).rows := by
    conv_lhs => rw [ops_eq_map hl]
    rw [List.map_map, List.ofFn_eq_map]; rfl
  rw [h2] at h
  exact (congrFun (List.ofFn_injective h) a).symm

theorem sum_Ico_fin (n : ℕ) (f : ℤ → K) : ∑ j ∈ Finset.Ico (0 : ℤ) n, f j = ∑ j : Fin n, f j := by
  symm
  refine Finset.sum_bij (fun (j : Fin n) _ => ((j : ℕ) : ℤ)) ?_ ?_ ?_ ?_
  · intro j _; rw [Finset.mem_Ico]; exact ⟨by positivity, by exact_mod_cast j.2⟩
  · intro a _ b _ h; exact Fin.ext (by exact_mod_cast h)
  · intro j hj
    rw [Finset.mem_Ico] at hj
    exact ⟨⟨j.toNat, by omega⟩, Finset.mem_univ _, by simp; omega⟩
  · intro _ _; rfl

/-- A square matrix with orthonormal columns has orthonormal rows. -/
theorem orthogonal_rows (n : ℕ) (v : ℤ → ℤ → K)
    (h : ∀ k l : ℤ, 0 ≤ k → k < n → 0 ≤ l → l < n →
      ∑ j ∈ Finset.Ico (0 : ℤ) n, v j k * v j l = if k = l then 1 else 0)
    (k l : ℤ) (h1 : 0 ≤ k) (h2 : k < n) (h3 : 0 ≤ l) (h4 : l < n) :
    ∑ j ∈ Finset.Ico (0 : ℤ) n, v k j * v l j = if k = l then 1 else 0 := by
  let V : Matrix (Fin n) (Fin n) K := fun i j => v i j
  have hV : V.transpose * V = 1 := by
    ext a b
    rw [Matrix.mul_apply, Matrix.one_apply]
    have := h a b (by positivity) (by exact_mod_cast a.2) (by positivity) (by exact_mod_cast b.2)
    rw [sum_Ico_fin] at this
    refine Eq.trans this (if_congr ?_ rfl rfl)
    rw [Fin.ext_iff]; exact Nat.cast_inj
  have hV' := mul_eq_one_comm.1 hV
  have e := congrFun (congrFun hV' ⟨k.toNat, by omega⟩) ⟨l.toNat, by omega⟩
  rw [Matrix.mul_apply, Matrix.one_apply] at e
  rw [sum_Ico_fin]
  have hk : ((k.toNat : ℕ) : ℤ) = k := by omega
  have hl : ((l.toNat : ℕ) : ℤ) = l := by omega
  refine Eq.trans (Finset.sum_congr rfl fun j _ => ?_) (e.trans (if_congr ?_ rfl rfl))
  · show _ = v ((k.toNat : ℕ) : ℤ) j * v ((l.toNat : ℕ) : ℤ) j
    rw [hk, hl]
  · rw [Fin.ext_iff]
    constructor
    · intro h; simp only at h; omega
    · intro h; simp only [h]

/-- The matmul implementation is the diagonalization with the eigenvector matrices. -/
theorem hermitianMatmul_eq {k : ℕ} (eigh : EighFn K) (func : K → K) (ops : List (Mat K)) (x : NArr (k + 1) K)
    (hx : List.ofFn x.shape = ops.map Mat.rows) (he : ∀ m ∈ ops, IsEigh m (eigh m)) :
    ∃ r, hermitianMatmul eigh func ops x = .ok r ∧ r.shape = x.shape ∧
      r.data = diagOp x.shape (fun a => (eigh (opAt ops a)).2.e) (fun a j i => (eigh (opAt ops a)).2.e i j)
        (fun i => func (∑ a, (eigh (opAt ops a)).1 (i a))) x.data := by
  obtain ⟨hl, hr⟩ := opAt_rows hx
  have hmem : ∀ a : Fin (k + 1), opAt ops a ∈ ops := by
    intro a
    have : opAt ops a ∈ (List.finRange (k + 1)).map fun a => opAt ops a :=
      List.mem_map_of_mem (List.mem_finRange a)
    rwa [← ops_eq_map hl] at this
  have hrow : ∀ a : Fin (k + 1), (eigh (opAt ops a)).2.rows = x.shape a := fun a => by
    rw [(he _ (hmem a)).1, hr a]
  have hcol : ∀ a : Fin (k + 1), (eigh (opAt ops a)).2.cols = x.shape a := fun a => by
    rw [(he _ (hmem a)).2.1, hr a]
  have hvs : (ops.map fun m => (eigh m).2) = (List.finRange (k + 1)).map fun a => (eigh (opAt ops a)).2 := by
    conv_lhs => rw [ops_eq_map hl]
    rw [List.map_map]; rfl
  refine ⟨_, if_neg (not_not.2 hx), ?_⟩
  unfold matmulLoops
  dsimp only
  rw [hvs, List.foldl_map, List.foldl_map]
  simp only [hrow, hcol]
  obtain ⟨s1, d1⟩ := tensordot_all (fun a => (eigh (opAt ops a)).2.e) x
  have := tensordot_all (fun a j i => (eigh (opAt ops a)).2.e i j)
    (⟨x.shape, fun i => axesOp x.shape (fun a => (eigh (opAt ops a)).2.e) (List.finRange (k + 1)) x.data i *
      func (∑ a, (eigh (opAt ops a)).1 (i a))⟩ : NArr (k + 1) K)
  dsimp only at this
  rw [s1, d1]
  refine ⟨this.1, this.2.trans ?_⟩
  unfold diagOp
  congr 1
  funext i
  ring

theorem eigh_inverse {k : ℕ} (eigh : EighFn K) (ops : List (Mat K)) (s : Fin k → ℕ)
    (hx : List.ofFn s = ops.map Mat.rows) (he : ∀ m ∈ ops, IsEigh m (eigh m)) :
    InverseKernels s (fun a => (eigh (opAt ops a)).2.e) (fun a j i => (eigh (opAt ops a)).2.e i j) ∧
    InverseKernels s (fun a j i => (eigh (opAt ops a)).2.e i j) (fun a => (eigh (opAt ops a)).2.e) ∧
    ∀ a, Eigen (s a) (opAt ops a).e (fun j i => (eigh (opAt ops a)).2.e i j) (eigh (opAt ops a)).1 := by
  obtain ⟨hl, hr⟩ := opAt_rows hx
  have hmem : ∀ a : Fin k, opAt ops a ∈ ops := by
    intro a
    have : opAt ops a ∈ (List.finRange k).map fun a => opAt ops a := List.mem_map_of_mem (List.mem_finRange a)
    rwa [← ops_eq_map hl] at this
  refine ⟨fun a j l h1 h2 h3 h4 => ?_, fun a j l h1 h2 h3 h4 => ?_, fun a j i h1 h2 h3 h4 => ?_⟩
  · obtain ⟨-, -, ho, -⟩ := he _ (hmem a)
    rw [hr a] at ho
    exact orthogonal_rows (s a) _ ho j l h1 h2 h3 h4
  · obtain ⟨-, -, ho, -⟩ := he _ (hmem a)
    rw [hr a] at ho
    exact ho j l h1 h2 h3 h4
  · obtain ⟨-, -, -, hv⟩ := he _ (hmem a)
    rw [hr a] at hv
    rw [← hv i j h3 h4 h1 h2]
    exact Finset.sum_congr rfl fun l _ => mul_comm _ _

end JaxCfd
