import Verif.Lemmas.Arr
import Verif.Model.FastDiag
import Mathlib.Tactic.Ring

/-!
Linear maps applied along single axes of an array, and diagonalization by them.
-/

set_option linter.unusedSectionVars false

namespace JaxCfd
variable {d : ℕ} {K : Type} [Field K]

/-- equality on all indices of a shape -/
def BoxEq (s : Fin d → ℕ) (x y : Idx d → K) : Prop := ∀ i, InR s i → x i = y i

namespace BoxEq
variable {s : Fin d → ℕ} {x y z : Idx d → K}
theorem rfl' : BoxEq s x x := fun _ _ => rfl
theorem symm (h : BoxEq s x y) : BoxEq s y x := fun i hi => (h i hi).symm
theorem trans (h : BoxEq s x y) (h' : BoxEq s y z) : BoxEq s x z := fun i hi => (h i hi).trans (h' i hi)
theorem of_eq (h : x = y) : BoxEq s x y := fun i _ => by rw [h]
end BoxEq

theorem axisOp_congr {s : Fin d → ℕ} {a : Fin d} {w w' : ℤ → ℤ → K} {x y : Idx d → K} (h : BoxEq s x y)
    (hw : ∀ j k : ℤ, 0 ≤ j → j < s a → 0 ≤ k → k < s a → w j k = w' j k) :
    BoxEq s (axisOp (s a) a w x) (axisOp (s a) a w' y) := by
  intro i hi
  refine Finset.sum_congr rfl fun j hj => ?_
  rw [Finset.mem_Ico] at hj
  rw [h _ (hi.update a hj.1 hj.2), hw j (i a) hj.1 hj.2 (hi a).1 (hi a).2]

theorem axisOp_comm (n m : ℕ) {a b : Fin d} (hab : a ≠ b) (v w : ℤ → ℤ → K) (x : Idx d → K) :
    axisOp n a v (axisOp m b w x) = axisOp m b w (axisOp n a v x) := by
  funext i
  simp only [axisOp, Finset.sum_mul]
  rw [Finset.sum_comm]
  refine Finset.sum_congr rfl fun j _ => Finset.sum_congr rfl fun k _ => ?_
  rw [Function.update_of_ne hab.symm, Function.update_of_ne hab, Function.update_comm hab]
  ring

theorem axisOp_mul (n m : ℕ) (a : Fin d) (v w : ℤ → ℤ → K) (x : Idx d → K) :
    axisOp m a v (axisOp n a w x) = axisOp n a (fun j k => ∑ l ∈ Finset.Ico (0 : ℤ) m, w j l * v l k) x := by
  funext i
  simp only [axisOp, Finset.sum_mul, Finset.mul_sum, Function.update_idem, Function.update_self]
  rw [Finset.sum_comm]
  exact Finset.sum_congr rfl fun j _ => Finset.sum_congr rfl fun k _ => by ring

theorem axisOp_one {s : Fin d → ℕ} (a : Fin d) (w : ℤ → ℤ → K)
    (hw : ∀ j k : ℤ, 0 ≤ j → j < s a → 0 ≤ k → k < s a → w j k = if j = k then 1 else 0) (x : Idx d → K) :
    BoxEq s (axisOp (s a) a w x) x := by
  intro i hi
  unfold axisOp
  rw [Finset.sum_eq_single (i a)]
  · rw [Function.update_eq_self, hw _ _ (hi a).1 (hi a).2 (hi a).1 (hi a).2, if_pos rfl, mul_one]
  · intro j hj hne
    rw [Finset.mem_Ico] at hj
    rw [hw j (i a) hj.1 hj.2 (hi a).1 (hi a).2, if_neg hne, mul_zero]
  · intro h; exact absurd (Finset.mem_Ico.2 (hi a)) h

/-- multiplication by a function of one coordinate commutes with the maps along the other axes -/
theorem axisOp_coord (n : ℕ) {a b : Fin d} (hab : a ≠ b) (w : ℤ → ℤ → K) (f : ℤ → K) (x : Idx d → K) :
    axisOp n a w (fun i => f (i b) * x i) = fun i => f (i b) * axisOp n a w x i := by
  funext i
  simp only [axisOp, Finset.mul_sum]
  refine Finset.sum_congr rfl fun j _ => ?_
  rw [Function.update_of_ne hab.symm]
  ring

/-- The maps along the axes of a list, one after the other. -/
noncomputable def axesOp (s : Fin d → ℕ) (w : Fin d → ℤ → ℤ → K) (l : List (Fin d)) (x : Idx d → K) : Idx d → K :=
  l.foldl (fun y a => axisOp (s a) a (w a) y) x

variable {s : Fin d → ℕ}

theorem axesOp_cons (w : Fin d → ℤ → ℤ → K) (a : Fin d) (l : List (Fin d)) (x : Idx d → K) :
    axesOp s w (a :: l) x = axesOp s w l (axisOp (s a) a (w a) x) := rfl

theorem axesOp_congr (w : Fin d → ℤ → ℤ → K) (l : List (Fin d)) {x y : Idx d → K} (h : BoxEq s x y) :
    BoxEq s (axesOp s w l x) (axesOp s w l y) := by
  induction l generalizing x y with
  | nil => exact h
  | cons a l ih => exact ih (axisOp_congr h fun _ _ _ _ _ _ => rfl)

theorem axesOp_axisOp (w : Fin d → ℤ → ℤ → K) (l : List (Fin d)) (a : Fin d) (ha : a ∉ l) (n : ℕ) (v : ℤ → ℤ → K)
    (x : Idx d → K) : axisOp n a v (axesOp s w l x) = axesOp s w l (axisOp n a v x) := by
  induction l generalizing x with
  | nil => rfl
  | cons b l ih =>
    rw [axesOp_cons, axesOp_cons, ih (fun h => ha (List.mem_cons_of_mem _ h)),
      axisOp_comm _ _ (fun h => ha (by rw [h]; exact List.mem_cons_self))]

theorem axesOp_coord (w : Fin d → ℤ → ℤ → K) (l : List (Fin d)) (b : Fin d) (hb : b ∉ l) (f : ℤ → K)
    (x : Idx d → K) : axesOp s w l (fun i => f (i b) * x i) = fun i => f (i b) * axesOp s w l x i := by
  induction l generalizing x with
  | nil => rfl
  | cons a l ih =>
    rw [axesOp_cons, axesOp_cons, axisOp_coord _ (fun h => hb (by rw [h]; exact List.mem_cons_self)),
      ih (fun h => hb (List.mem_cons_of_mem _ h))]

/-- Two families of kernels that are inverse to each other along every axis. -/
def InverseKernels (s : Fin d → ℕ) (w v : Fin d → ℤ → ℤ → K) : Prop :=
  ∀ (a : Fin d) (j k : ℤ), 0 ≤ j → j < s a → 0 ≤ k → k < s a →
    ∑ l ∈ Finset.Ico (0 : ℤ) (s a), w a j l * v a l k = if j = k then 1 else 0

theorem axesOp_inverse {w v : Fin d → ℤ → ℤ → K} (h : InverseKernels s w v) (l : List (Fin d)) (hl : l.Nodup)
    (x : Idx d → K) : BoxEq s (axesOp s v l (axesOp s w l x)) x := by
  induction l generalizing x with
  | nil => exact BoxEq.rfl'
  | cons a l ih =>
    rw [axesOp_cons, axesOp_cons, axesOp_axisOp _ _ _ (List.nodup_cons.1 hl).1, axisOp_mul]
    exact (ih (List.nodup_cons.1 hl).2 _).trans (axisOp_one a _ (h a) x)

/-- `v (D · (w x))` -/
noncomputable def diagOp (s : Fin d → ℕ) (w v : Fin d → ℤ → ℤ → K) (D : Idx d → K) (x : Idx d → K) : Idx d → K :=
  axesOp s v (List.finRange d) fun k => D k * axesOp s w (List.finRange d) x k

theorem diagOp_congr {w v : Fin d → ℤ → ℤ → K} {D E : Idx d → K} (hD : BoxEq s D E) {x y : Idx d → K} (h : BoxEq s x y) :
    BoxEq s (diagOp s w v D x) (diagOp s w v E y) :=
  axesOp_congr _ _ fun i hi => by rw [axesOp_congr w _ h i hi, hD i hi]

theorem diagOp_one {w v : Fin d → ℤ → ℤ → K} (h : InverseKernels s w v) (x : Idx d → K) :
    BoxEq s (diagOp s w v (fun _ => 1) x) x := by
  unfold diagOp
  simp only [one_mul]
  exact axesOp_inverse h _ (List.nodup_finRange d) x

theorem diagOp_mul {w v : Fin d → ℤ → ℤ → K} (h : InverseKernels s v w) (D E x : Idx d → K) :
    BoxEq s (diagOp s w v D (diagOp s w v E x)) (diagOp s w v (fun k => D k * E k) x) := by
  refine axesOp_congr _ _ fun i hi => ?_
  have := axesOp_inverse h _ (List.nodup_finRange d) (fun k => E k * axesOp s w (List.finRange d) x k) i hi
  unfold diagOp
  rw [this, mul_assoc]

theorem axisOp_add (n : ℕ) (a : Fin d) (w : ℤ → ℤ → K) (x y : Idx d → K) :
    axisOp n a w (fun i => x i + y i) = fun i => axisOp n a w x i + axisOp n a w y i := by
  funext i
  simp only [axisOp, add_mul, Finset.sum_add_distrib]

theorem axisOp_smul (n : ℕ) (a : Fin d) (w : ℤ → ℤ → K) (c : K) (x : Idx d → K) :
    axisOp n a w (fun i => c * x i) = fun i => c * axisOp n a w x i := by
  funext i
  simp only [axisOp, Finset.mul_sum, mul_assoc]

theorem axesOp_add (w : Fin d → ℤ → ℤ → K) (l : List (Fin d)) (x y : Idx d → K) :
    axesOp s w l (fun i => x i + y i) = fun i => axesOp s w l x i + axesOp s w l y i := by
  induction l generalizing x y with
  | nil => rfl
  | cons a l ih => rw [axesOp_cons, axisOp_add, ih]; rfl

theorem axesOp_smul (w : Fin d → ℤ → ℤ → K) (l : List (Fin d)) (c : K) (x : Idx d → K) :
    axesOp s w l (fun i => c * x i) = fun i => c * axesOp s w l x i := by
  induction l generalizing x with
  | nil => rfl
  | cons a l ih => rw [axesOp_cons, axisOp_smul, ih]; rfl

theorem axesOp_zero (w : Fin d → ℤ → ℤ → K) (l : List (Fin d)) : axesOp s w l (fun _ => 0) = fun _ => (0 : K) := by
  have := axesOp_smul (s := s) w l 0 (fun _ => (0 : K))
  simpa using this

theorem axesOp_sum {ι : Type} (w : Fin d → ℤ → ℤ → K) (l : List (Fin d)) (t : Finset ι) (x : ι → Idx d → K) :
    axesOp s w l (fun i => ∑ c ∈ t, x c i) = fun i => ∑ c ∈ t, axesOp s w l (x c) i := by
  classical
  induction t using Finset.induction_on with
  | empty => simp only [Finset.sum_empty]; exact axesOp_zero w l
  | insert c t hc ih => simp only [Finset.sum_insert hc]; rw [axesOp_add, ih]

theorem diagOp_add (w v : Fin d → ℤ → ℤ → K) (D E x : Idx d → K) :
    diagOp s w v (fun k => D k + E k) x = fun i => diagOp s w v D x i + diagOp s w v E x i := by
  unfold diagOp
  simp only [add_mul]
  rw [axesOp_add]

theorem diagOp_smul (w v : Fin d → ℤ → ℤ → K) (c : K) (D x : Idx d → K) :
    diagOp s w v (fun k => c * D k) x = fun i => c * diagOp s w v D x i := by
  unfold diagOp
  simp only [mul_assoc]
  rw [axesOp_smul]

theorem diagOp_sum {ι : Type} (w v : Fin d → ℤ → ℤ → K) (t : Finset ι) (D : ι → Idx d → K) (x : Idx d → K) :
    diagOp s w v (fun k => ∑ c ∈ t, D c k) x = fun i => ∑ c ∈ t, diagOp s w v (D c) x i := by
  unfold diagOp
  simp only [Finset.sum_mul]
  rw [axesOp_sum]

theorem diagOp_add_arg (w v : Fin d → ℤ → ℤ → K) (D x y : Idx d → K) :
    diagOp s w v D (fun i => x i + y i) = fun i => diagOp s w v D x i + diagOp s w v D y i := by
  unfold diagOp
  rw [axesOp_add]
  simp only [mul_add]
  rw [axesOp_add]

theorem diagOp_smul_arg (w v : Fin d → ℤ → ℤ → K) (D : Idx d → K) (c : K) (x : Idx d → K) :
    diagOp s w v D (fun i => c * x i) = fun i => c * diagOp s w v D x i := by
  unfold diagOp
  rw [axesOp_smul, show (fun k => D k * (c * axesOp s w (List.finRange d) x k)) =
    fun k => c * (D k * axesOp s w (List.finRange d) x k) from funext fun k => by ring, axesOp_smul]

/-- The rows of `v` are eigenvectors of the matrix `M` with eigenvalues `ev`. -/
def Eigen (n : ℕ) (M v : ℤ → ℤ → K) (ev : ℤ → K) : Prop :=
  ∀ k i : ℤ, 0 ≤ k → k < n → 0 ≤ i → i < n → ∑ l ∈ Finset.Ico (0 : ℤ) n, v k l * M i l = ev k * v k i

/-- The diagonalization of one axis. -/
theorem diagOp_axis {w v : Fin d → ℤ → ℤ → K} (h : InverseKernels s w v) (a : Fin d) (M : ℤ → ℤ → K) (ev : ℤ → K)
    (hM : Eigen (s a) M (v a) ev) (x : Idx d → K) :
    BoxEq s (diagOp s w v (fun k => ev (k a)) x) (axisOp (s a) a (fun j k => M k j) x) := by
  -- M (v y) = v (ev y) along the axis
  have key : ∀ y : Idx d → K, BoxEq s (axisOp (s a) a (v a) (fun k => ev (k a) * y k))
      (axisOp (s a) a (fun j k => M k j) (axisOp (s a) a (v a) y)) := by
    intro y i hi
    rw [axisOp_mul]
    unfold axisOp
    refine Finset.sum_congr rfl fun j hj => ?_
    rw [Finset.mem_Ico] at hj
    dsimp only
    rw [hM j (i a) hj.1 hj.2 (hi a).1 (hi a).2, Function.update_self]
    ring
  have gen : ∀ l : List (Fin d), l.Nodup → a ∈ l → ∀ y : Idx d → K,
      BoxEq s (axesOp s v l (fun k => ev (k a) * y k)) (axisOp (s a) a (fun j k => M k j) (axesOp s v l y)) := by
    intro l
    induction l with
    | nil => intro _ h; cases h
    | cons b l ih =>
      intro hl hm y
      rw [axesOp_cons, axesOp_cons]
      by_cases hab : a = b
      · subst hab
        rw [axesOp_axisOp _ _ _ (List.nodup_cons.1 hl).1]
        exact axesOp_congr _ _ (key y)
      · rw [axisOp_coord _ (Ne.symm hab)]
        exact ih (List.nodup_cons.1 hl).2 ((List.mem_cons.1 hm).resolve_left hab) _
  refine (gen (List.finRange d) (List.nodup_finRange d) (List.mem_finRange a) _).trans ?_
  exact axisOp_congr (axesOp_inverse h _ (List.nodup_finRange d) x) fun _ _ _ _ _ _ => rfl

/-- The diagonalization of the sum of one operator per axis. -/
theorem diagOp_kron {w v : Fin d → ℤ → ℤ → K} (h : InverseKernels s w v) (M : Fin d → ℤ → ℤ → K) (ev : Fin d → ℤ → K)
    (hM : ∀ a, Eigen (s a) (M a) (v a) (ev a)) (x : Idx d → K) :
    BoxEq s (diagOp s w v (fun k => ∑ a, ev a (k a)) x)
      (fun i => ∑ a, axisOp (s a) a (fun j k => M a k j) x i) := by
  rw [diagOp_sum]
  exact fun i hi => Finset.sum_congr rfl fun a _ => diagOp_axis h a (M a) (ev a) (hM a) x i hi

end JaxCfd
