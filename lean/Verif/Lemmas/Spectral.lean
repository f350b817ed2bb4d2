import Verif.Lemmas.Separable
import Mathlib.Analysis.Matrix.Spectrum
import Mathlib.LinearAlgebra.Lagrange
import Mathlib.LinearAlgebra.Eigenspace.Minpoly

/-!
Existence of eigendecompositions and interpolation polynomials; polynomials of the separable operator as an algebra.
-/

set_option linter.unusedSectionVars false
set_option linter.unusedSimpArgs false

namespace JaxCfd
variable {d : ℕ} {K : Type} [Field K]

theorem eigh_diag {s : Fin d → ℕ} {ops : List (Mat ℝ)} (eigh : EighFn ℝ) (hx : List.ofFn s = ops.map Mat.rows)
    (he : ∀ m ∈ ops, IsEigh m (eigh m)) :
    Diag s ops (fun a i j => ((eigh (opAt ops a)).2.e i j : ℂ)) (fun a j i => ((eigh (opAt ops a)).2.e i j : ℂ))
      (fun a k => ((eigh (opAt ops a)).1 k : ℂ)) := by
  obtain ⟨h1, h2, h3⟩ := eigh_inverse eigh ops s hx he
  refine ⟨fun a j k a1 a2 a3 a4 => ?_, fun a j k a1 a2 a3 a4 => ?_, fun a j k a1 a2 a3 a4 => ?_⟩
  · have := congrArg (Complex.ofReal) (h1 a j k a1 a2 a3 a4)
    push_cast at this
    rw [this]
    split_ifs <;> simp
  · have := congrArg (Complex.ofReal) (h2 a j k a1 a2 a3 a4)
    push_cast at this
    rw [this]
    split_ifs <;> simp
  · have := congrArg (Complex.ofReal) (h3 a j k a1 a2 a3 a4)
    push_cast at this
    exact this

theorem hermitianMatmul_poly {k : ℕ} {ops : List (Mat ℝ)} (eigh : EighFn ℝ) (func : ℂ → ℂ) (x : NArr (k + 1) ℝ)
    (hx : List.ofFn x.shape = ops.map Mat.rows) (he : ∀ m ∈ ops, IsEigh m (eigh m)) (p : Polynomial ℝ)
    (hp : ∀ z, IsEigenvalueSum (k + 1) ops z → func z = Polynomial.aeval z p) :
    ∃ r, hermitianMatmul eigh (fun x => (func x).re) ops x = .ok r ∧ r.shape = x.shape ∧
      BoxEq x.shape r.data (polyApply p (separable ops) x.data) := by
  obtain ⟨hl, hr⟩ := opAt_rows hx
  have hD := eigh_diag eigh hx he
  obtain ⟨h1, h2, h3⟩ := eigh_inverse eigh ops x.shape hx he
  obtain ⟨r, e1, e2, e3⟩ := hermitianMatmul_eq eigh (fun x => (func x).re) ops x hx he
  refine ⟨r, e1, e2, ?_⟩
  rw [e3, separable_eq hr]
  refine BoxEq.trans (diagOp_congr (fun k hk => ?_) BoxEq.rfl') (diagOp_poly h1 h2 _ _ h3 p x.data)
  have := hp _ (hD.isEigenvalueSum hr k hk)
  rw [← Complex.ofReal_sum] at this
  rw [this, Polynomial.aeval_def, Polynomial.eval₂_eq_eval_map]
  have e : Polynomial.eval (((∑ a, (eigh (opAt ops a)).1 (k a) : ℝ)) : ℂ) (p.map (algebraMap ℝ ℂ)) =
      ((p.eval (∑ a, (eigh (opAt ops a)).1 (k a)) : ℝ) : ℂ) := by
    exact Polynomial.eval_map_apply (algebraMap ℝ ℂ) _
  rw [e, Complex.ofReal_re]

/-- Every real symmetric matrix has an eigendecomposition of the kind `eigh` promises. -/
theorem exists_isEigh (m : Mat ℝ) (hm : m.Symmetric) : ∃ r, IsEigh m r := by
  let n := m.rows
  let A : Matrix (Fin n) (Fin n) ℝ := fun i j => m.e i j
  have hA : A.IsHermitian := by
    ext i j
    simp only [Matrix.conjTranspose_apply, star_trivial]
    exact hm.2 _ _ (by positivity) (by exact_mod_cast j.2) (by positivity) (by exact_mod_cast i.2)
  by_cases hn : n = 0
  · refine ⟨⟨fun _ => 0, ⟨n, n, fun _ _ => 0⟩⟩, rfl, rfl, fun k l h1 h2 => ?_, fun i k h1 h2 => ?_⟩ <;>
      exact absurd h2 (by show ¬ _ < ((n : ℕ) : ℤ); omega)
  haveI : NeZero n := ⟨hn⟩
  let toF : ℤ → Fin n := fun k => Fin.ofNat n k.toNat
  have toF_cast : ∀ k : ℤ, 0 ≤ k → k < n → (((toF k : Fin n) : ℕ) : ℤ) = k := by
    intro k h1 h2
    simp only [toF, Fin.ofNat]
    rw [Nat.mod_eq_of_lt (by omega)]
    omega
  have toF_coe : ∀ j : Fin n, toF j = j := by
    intro j; apply Fin.ext; simp [toF, Fin.ofNat, Nat.mod_eq_of_lt j.2]
  refine ⟨⟨fun k => hA.eigenvalues (toF k), ⟨n, n, fun i k => hA.eigenvectorBasis (toF k) (toF i)⟩⟩, rfl, rfl,
    fun k l h1 h2 h3 h4 => ?_, fun i k h1 h2 h3 h4 => ?_⟩
  · have h := hA.eigenvectorBasis.orthonormal
    rw [orthonormal_iff_ite] at h
    have h' := h (toF l) (toF k)
    rw [EuclideanSpace.inner_eq_star_dotProduct] at h'
    rw [sum_Ico_fin]
    simp only [toF_coe]
    simp only [dotProduct, star_trivial, Pi.star_apply] at h'
    refine Eq.trans h' ?_
    by_cases hkl : k = l
    · subst hkl; simp
    · rw [if_neg hkl, if_neg]
      intro h5
      apply hkl
      rw [← toF_cast k h1 h2, ← toF_cast l h3 h4, h5]
  · have h := congrFun (hA.mulVec_eigenvectorBasis (toF k)) (toF i)
    rw [sum_Ico_fin]
    simp only [toF_coe]
    simp only [Matrix.mulVec, dotProduct, Pi.smul_apply, smul_eq_mul, A] at h
    rw [toF_cast i h1 h2] at h
    exact h

/-! ### Eigenvalues -/

theorem IsEigenvalue.conj {m : Mat ℝ} {z : ℂ} (h : IsEigenvalue m z) : IsEigenvalue m ((starRingEnd ℂ) z) := by
  obtain ⟨u, ⟨i, h1, h2, h3⟩, h4⟩ := h
  refine ⟨fun j => (starRingEnd ℂ) (u j), ⟨i, h1, h2, fun h => h3 ((map_eq_zero _).1 h)⟩, fun i h1 h2 => ?_⟩
  have := congrArg (starRingEnd ℂ) (h4 i h1 h2)
  simpa only [map_sum, map_mul, Complex.conj_ofReal] using this

theorem IsEigenvalueSum.conj {ops : List (Mat ℝ)} {z : ℂ} (h : IsEigenvalueSum d ops z) :
    IsEigenvalueSum d ops ((starRingEnd ℂ) z) := by
  obtain ⟨ev, h1, rfl⟩ := h
  exact ⟨fun a => (starRingEnd ℂ) (ev a), fun a => (h1 a).conj, by rw [map_sum]⟩

theorem finite_isEigenvalue (m : Mat ℝ) : {z | IsEigenvalue m z}.Finite := by
  let A : Matrix (Fin m.rows) (Fin m.rows) ℂ := fun i j => (m.e i j : ℂ)
  refine (Module.End.finite_hasEigenvalue (Matrix.toLin' A)).subset ?_
  rintro z ⟨u, ⟨i, h1, h2, h3⟩, h4⟩
  refine Module.End.hasEigenvalue_of_hasEigenvector (x := fun j : Fin m.rows => u j) ⟨?_, ?_⟩
  · rw [Module.End.mem_eigenspace_iff]
    funext i
    have := h4 i (by positivity) (by exact_mod_cast i.2)
    rw [sum_Ico_fin] at this
    rw [Matrix.toLin'_apply]
    exact this
  · intro h
    have := congrFun h ⟨i.toNat, by omega⟩
    have hi : ((i.toNat : ℕ) : ℤ) = i := by omega
    simp only [hi, Pi.zero_apply] at this
    exact h3 this

theorem finite_isEigenvalueSum (ops : List (Mat ℝ)) : {z | IsEigenvalueSum d ops z}.Finite := by
  have h : (Set.univ.pi fun a : Fin d => {z | IsEigenvalue (opAt ops a) z}).Finite :=
    Set.Finite.pi fun a => finite_isEigenvalue _
  refine (h.image fun ev => ∑ a, ev a).subset ?_
  rintro z ⟨ev, h1, rfl⟩
  exact ⟨ev, fun a _ => h1 a, rfl⟩

/-- Every function that commutes with conjugation on the spectrum is a real polynomial there. -/
theorem exists_poly (ops : List (Mat ℝ)) (func : ℂ → ℂ)
    (hf : ∀ z, IsEigenvalueSum d ops z → func ((starRingEnd ℂ) z) = (starRingEnd ℂ) (func z)) :
    ∃ p : Polynomial ℝ, ∀ z, IsEigenvalueSum d ops z → func z = Polynomial.aeval z p := by
  classical
  let S := (finite_isEigenvalueSum (d := d) ops).toFinset
  let q := Lagrange.interpolate S id func
  have hq : ∀ z, IsEigenvalueSum d ops z → q.eval z = func z := fun z hz =>
    Lagrange.eval_interpolate_at_node func (Set.injOn_id _) (by
      simp only [S, Set.Finite.mem_toFinset]; exact hz)
  refine ⟨∑ n ∈ q.support, Polynomial.C (q.coeff n).re * Polynomial.X ^ n, fun z hz => ?_⟩
  have h1 := hq z hz
  have h2 := congrArg (starRingEnd ℂ) (hq _ hz.conj)
  rw [hf z hz, Complex.conj_conj] at h2
  rw [Polynomial.eval_eq_sum, Polynomial.sum_def] at h1 h2
  rw [map_sum] at h2 ⊢
  have h3 : ∀ n, (Polynomial.aeval z) (Polynomial.C (q.coeff n).re * Polynomial.X ^ n : Polynomial ℝ) =
      (q.coeff n * z ^ n + (starRingEnd ℂ) (q.coeff n * ((starRingEnd ℂ) z) ^ n)) / 2 := by
    intro n
    rw [map_mul, map_pow, Polynomial.aeval_C, Polynomial.aeval_X, map_mul, map_pow, Complex.conj_conj, ← add_mul,
      Complex.add_conj]
    simp only [Complex.coe_algebraMap]
    push_cast
    ring
  rw [Finset.sum_congr rfl fun n _ => h3 n, ← Finset.sum_div, Finset.sum_add_distrib, h1, h2]
  ring

/-! ### The algebra of polynomials -/

/-- The separable operator as a linear map. -/
noncomputable def kronLin (s : Fin d → ℕ) (M : Fin d → ℤ → ℤ → K) : (Idx d → K) →ₗ[K] (Idx d → K) where
  toFun := kronSum s M
  map_add' x y := by
    funext i
    simp only [kronSum, Pi.add_apply, mul_add, Finset.sum_add_distrib]
  map_smul' c x := by
    funext i
    simp only [kronSum, Pi.smul_apply, smul_eq_mul, Finset.mul_sum, RingHom.id_apply]
    exact Finset.sum_congr rfl fun a _ => Finset.sum_congr rfl fun j _ => by ring

theorem polyApply_aeval (s : Fin d → ℕ) (M : Fin d → ℤ → ℤ → K) (p : Polynomial K) (x : Idx d → K) :
    polyApply p (kronSum s M) x = Polynomial.aeval (kronLin s M) p x := by
  funext i
  rw [Polynomial.aeval_eq_sum_range' (Nat.lt_succ_self _), LinearMap.sum_apply, Finset.sum_apply]
  unfold polyApply
  rw [Polynomial.sum_over_range _ (fun n => by simp)]
  refine Finset.sum_congr rfl fun n _ => ?_
  rw [LinearMap.smul_apply, Pi.smul_apply, smul_eq_mul, Module.End.pow_apply]
  rfl

theorem polyApply_mul (s : Fin d → ℕ) (M : Fin d → ℤ → ℤ → K) (p q : Polynomial K) (x : Idx d → K) :
    polyApply (p * q) (kronSum s M) x = polyApply p (kronSum s M) (polyApply q (kronSum s M) x) := by
  rw [polyApply_aeval, polyApply_aeval, polyApply_aeval, map_mul]; rfl

theorem polyApply_add (s : Fin d → ℕ) (M : Fin d → ℤ → ℤ → K) (p q : Polynomial K) (x : Idx d → K) (i : Idx d) :
    polyApply (p + q) (kronSum s M) x i = polyApply p (kronSum s M) x i + polyApply q (kronSum s M) x i := by
  rw [polyApply_aeval, polyApply_aeval, polyApply_aeval, map_add]; rfl

theorem polyApply_X (s : Fin d → ℕ) (M : Fin d → ℤ → ℤ → K) (x : Idx d → K) :
    polyApply Polynomial.X (kronSum s M) x = kronSum s M x := by
  rw [polyApply_aeval, Polynomial.aeval_X]; rfl

theorem polyApply_C (s : Fin d → ℕ) (M : Fin d → ℤ → ℤ → K) (c : K) (x : Idx d → K) :
    polyApply (Polynomial.C c) (kronSum s M) x = fun i => c * x i := by
  rw [polyApply_aeval, Polynomial.aeval_C]; rfl

theorem polyApply_congr {s : Fin d → ℕ} {M : Fin d → ℤ → ℤ → K} (p : Polynomial K) {x y : Idx d → K} (h : BoxEq s x y) :
    BoxEq s (polyApply p (kronSum s M) x) (polyApply p (kronSum s M) y) := by
  have it : ∀ n : ℕ, BoxEq s ((kronSum s M)^[n] x) ((kronSum s M)^[n] y) := by
    intro n
    induction n with
    | zero => exact h
    | succ n ih => rw [Function.iterate_succ_apply', Function.iterate_succ_apply']; exact kronSum_congr ih
  intro i hi
  exact Finset.sum_congr rfl fun n _ => by dsimp only; rw [it n i hi]

end JaxCfd
