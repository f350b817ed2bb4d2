import Verif.Lemmas.Fourier

/-!
The three implementations of `transform` compute a polynomial of the separable operator.
-/

set_option linter.unusedSectionVars false
set_option linter.unusedSimpArgs false

namespace JaxCfd
variable {d : ℕ} {K : Type} [Field K]

theorem kronSum_congr {s : Fin d → ℕ} {M : Fin d → ℤ → ℤ → K} {x y : Idx d → K} (h : BoxEq s x y) :
    BoxEq s (kronSum s M x) (kronSum s M y) := fun i hi =>
  Finset.sum_congr rfl fun a _ => Finset.sum_congr rfl fun j hj => by
    rw [Finset.mem_Ico] at hj
    rw [h _ (hi.update a hj.1 hj.2)]

theorem diagOp_kronSum {s : Fin d → ℕ} {w v : Fin d → ℤ → ℤ → K} (h : InverseKernels s w v) (M : Fin d → ℤ → ℤ → K)
    (ev : Fin d → ℤ → K) (hM : ∀ a, Eigen (s a) (M a) (v a) (ev a)) (x : Idx d → K) :
    BoxEq s (diagOp s w v (fun k => ∑ a, ev a (k a)) x) (kronSum s M x) := by
  refine (diagOp_kron h M ev hM x).trans (BoxEq.of_eq ?_)
  funext i
  refine Finset.sum_congr rfl fun a _ => Finset.sum_congr rfl fun j _ => mul_comm _ _

theorem diagOp_pow {s : Fin d → ℕ} {w v : Fin d → ℤ → ℤ → K} (h : InverseKernels s w v) (h' : InverseKernels s v w)
    (M : Fin d → ℤ → ℤ → K) (ev : Fin d → ℤ → K) (hM : ∀ a, Eigen (s a) (M a) (v a) (ev a)) (n : ℕ) (x : Idx d → K) :
    BoxEq s (diagOp s w v (fun k => (∑ a, ev a (k a)) ^ n) x) ((kronSum s M)^[n] x) := by
  induction n with
  | zero => simp only [pow_zero]; exact diagOp_one h x
  | succ n ih =>
    rw [Function.iterate_succ_apply']
    refine BoxEq.trans ?_ (kronSum_congr ih)
    refine BoxEq.trans ?_ (diagOp_kronSum h M ev hM _)
    refine BoxEq.symm ((diagOp_mul h' _ _ x).trans (BoxEq.of_eq ?_))
    congr 1
    funext k
    rw [pow_succ, mul_comm]

/-- Diagonal multiplication by `p(Λ)` is `p` of the operator. -/
theorem diagOp_poly {s : Fin d → ℕ} {w v : Fin d → ℤ → ℤ → K} (h : InverseKernels s w v) (h' : InverseKernels s v w)
    (M : Fin d → ℤ → ℤ → K) (ev : Fin d → ℤ → K) (hM : ∀ a, Eigen (s a) (M a) (v a) (ev a)) (p : Polynomial K) (x : Idx d → K) :
    BoxEq s (diagOp s w v (fun k => p.eval (∑ a, ev a (k a))) x) (polyApply p (kronSum s M) x) := by
  have e : (fun k : Idx d => p.eval (∑ a, ev a (k a))) =
      fun k => ∑ n ∈ p.support, p.coeff n * (∑ a, ev a (k a)) ^ n := by
    funext k; rw [Polynomial.eval_eq_sum]; rfl
  rw [e, diagOp_sum]
  intro i hi
  refine Finset.sum_congr rfl fun n _ => ?_
  rw [diagOp_smul]
  dsimp only
  rw [diagOp_pow h h' M ev hM n x i hi]

theorem kronSum_ofReal (s : Fin d → ℕ) (M : Fin d → ℤ → ℤ → ℝ) (x : Idx d → ℝ) :
    kronSum s (fun a i j => (M a i j : ℂ)) (fun i => (x i : ℂ)) = fun i => ((kronSum s M x i : ℝ) : ℂ) := by
  funext i
  unfold kronSum
  push_cast
  rfl

theorem polyApply_ofReal (s : Fin d → ℕ) (M : Fin d → ℤ → ℤ → ℝ) (p : Polynomial ℝ) (x : Idx d → ℝ) :
    polyApply (p.map (algebraMap ℝ ℂ)) (kronSum s fun a i j => (M a i j : ℂ)) (fun i => (x i : ℂ)) =
      fun i => ((polyApply p (kronSum s M) x i : ℝ) : ℂ) := by
  have it : ∀ n : ℕ, (kronSum s fun a i j => (M a i j : ℂ))^[n] (fun i => (x i : ℂ)) =
      fun i => ((((kronSum s M)^[n] x) i : ℝ) : ℂ) := by
    intro n
    induction n with
    | zero => rfl
    | succ n ih => rw [Function.iterate_succ_apply', ih, kronSum_ofReal, Function.iterate_succ_apply']
  funext i
  unfold polyApply
  rw [Polynomial.sum_def, Polynomial.sum_def, Polynomial.support_map_of_injective _ (algebraMap ℝ ℂ).injective]
  push_cast
  refine Finset.sum_congr rfl fun n _ => ?_
  rw [it, Polynomial.coeff_map]
  rfl

/-- Kernels that diagonalize all operators of a list. -/
structure Diag (s : Fin d → ℕ) (ops : List (Mat ℝ)) (w v : Fin d → ℤ → ℤ → ℂ) (ev : Fin d → ℤ → ℂ) : Prop where
  inv : InverseKernels s w v
  inv' : InverseKernels s v w
  eig : ∀ a, Eigen (s a) (fun i j => ((opAt ops a).e i j : ℂ)) (v a) (ev a)

/-- The eigenvalues of a diagonalization are eigenvalues. -/
theorem Diag.isEigenvalueSum {s : Fin d → ℕ} {ops : List (Mat ℝ)} {w v : Fin d → ℤ → ℤ → ℂ} {ev : Fin d → ℤ → ℂ}
    (h : Diag s ops w v ev) (hr : ∀ a, (opAt ops a).rows = s a) (k : Idx d) (hk : InR s k) :
    IsEigenvalueSum d ops (∑ a, ev a (k a)) := by
  refine ⟨fun a => ev a (k a), fun a => ⟨v a (k a), ?_, ?_⟩, rfl⟩
  · by_contra hc
    have := h.inv' a (k a) (k a) (hk a).1 (hk a).2 (hk a).1 (hk a).2
    rw [if_pos rfl, Finset.sum_eq_zero] at this
    · exact zero_ne_one this
    · intro l hl
      rw [Finset.mem_Ico] at hl
      have : v a (k a) l = 0 := by
        by_contra h0
        exact hc ⟨l, hl.1, by rw [hr a]; exact hl.2, h0⟩
      rw [this, zero_mul]
  · intro i h1 h2
    rw [hr a] at h2 ⊢
    rw [← h.eig a (k a) i (hk a).1 (hk a).2 h1 h2]
    exact Finset.sum_congr rfl fun j _ => mul_comm _ _

theorem separable_eq {s : Fin d → ℕ} {ops : List (Mat ℝ)} (hr : ∀ a, (opAt ops a).rows = s a) :
    (separable ops : (Idx d → ℝ) → Idx d → ℝ) = kronSum s fun a => (opAt ops a).e := by
  unfold separable
  rw [show (fun a => (opAt ops a).rows) = s from funext hr]

/-- Real data: a polynomial with real coefficients in the diagonal basis. -/
theorem Diag.poly {s : Fin d → ℕ} {ops : List (Mat ℝ)} {w v : Fin d → ℤ → ℤ → ℂ} {ev : Fin d → ℤ → ℂ}
    (h : Diag s ops w v ev) (hr : ∀ a, (opAt ops a).rows = s a) (p : Polynomial ℝ) (x : Idx d → ℝ) :
    BoxEq s (diagOp s w v (fun k => Polynomial.aeval (∑ a, ev a (k a)) p) (fun i => (x i : ℂ)))
      (fun i => ((polyApply p (separable ops) x i : ℝ) : ℂ)) := by
  rw [separable_eq hr, ← polyApply_ofReal]
  refine BoxEq.trans (BoxEq.of_eq ?_) (diagOp_poly h.inv h.inv' _ ev h.eig _ _)
  congr 1
  funext k
  rw [Polynomial.eval_map_algebraMap]

/-- Polynomials that agree on the eigenvalues agree on the operator. -/
theorem Diag.poly_congr {s : Fin d → ℕ} {ops : List (Mat ℝ)} {w v : Fin d → ℤ → ℤ → ℂ} {ev : Fin d → ℤ → ℂ}
    (h : Diag s ops w v ev) (hr : ∀ a, (opAt ops a).rows = s a) (p q : Polynomial ℝ) (x : Idx d → ℝ)
    (hpq : ∀ z, IsEigenvalueSum d ops z → Polynomial.aeval z p = Polynomial.aeval z q) :
    BoxEq s (polyApply p (separable ops) x) (polyApply q (separable ops) x) := by
  intro i hi
  have h1 := h.poly hr p x i hi
  have h2 := h.poly hr q x i hi
  have h3 := diagOp_congr (w := w) (v := v) (s := s) (D := fun k => Polynomial.aeval (∑ a, ev a (k a)) p)
    (E := fun k => Polynomial.aeval (∑ a, ev a (k a)) q) (x := fun i => (x i : ℂ)) (y := fun i => (x i : ℂ))
    (fun k hk => hpq _ (h.isEigenvalueSum hr k hk)) BoxEq.rfl' i hi
  rw [h1, h2] at h3
  dsimp only at h3
  exact_mod_cast h3

/-! ### The implementations -/

theorem circulant_diag {s : Fin d → ℕ} {ops : List (Mat ℝ)} (hx : List.ofFn s = ops.map Mat.rows)
    (hc : ∀ m ∈ ops, m.Circulant) :
    Diag s ops (fun a => fftKernel (s a)) (fun a => ifftKernel (s a))
      (fun a => fft1 (opAt ops a).rows fun j => ((opAt ops a).e j 0 : ℂ)) := by
  obtain ⟨hl, hr⟩ := opAt_rows hx
  refine ⟨fft_inverse s, ifft_inverse s, fun a => ?_⟩
  have hmem : opAt ops a ∈ ops := by
    have : opAt ops a ∈ (List.finRange d).map fun a => opAt ops a := List.mem_map_of_mem (List.mem_finRange a)
    rwa [← ops_eq_map hl] at this
  obtain ⟨-, hC⟩ := hc _ hmem
  rw [hr a] at hC ⊢
  exact circulant_eigen (s a) _ fun i j h1 h2 h3 h4 => by rw [hC i j h1 h2 h3 h4]

theorem fftn_eq (x : NArr d ℂ) : (fftn x).data = axesOp x.shape (fun a => fftKernel (x.shape a)) (List.finRange d) x.data := rfl
theorem ifftn_eq (x : NArr d ℂ) : (ifftn x).data = axesOp x.shape (fun a => ifftKernel (x.shape a)) (List.finRange d) x.data := rfl

theorem aeval_conj' (p : Polynomial ℝ) (z : ℂ) :
    Polynomial.aeval ((starRingEnd ℂ) z) p = (starRingEnd ℂ) (Polynomial.aeval z p) := by
  rw [Polynomial.aeval_eq_sum_range, Polynomial.aeval_eq_sum_range, map_sum]
  refine Finset.sum_congr rfl fun n _ => ?_
  rw [Complex.real_smul, Complex.real_smul, map_mul, map_pow, Complex.conj_ofReal]

/-- The complex diagonal as a hermitian-symmetric function. -/
theorem HSym.eigs {s : Fin d → ℕ} {ops : List (Mat ℝ)} (hr : ∀ a, (opAt ops a).rows = s a) (p : Polynomial ℝ) :
    HSym s Finset.univ fun k : Idx d =>
      Polynomial.aeval (∑ a, fft1 (opAt ops a).rows (fun j => ((opAt ops a).e j 0 : ℂ)) (k a)) p := by
  constructor
  · intro k
    dsimp only
    rw [← aeval_conj']
    congr 1
    congr 1
    rw [map_sum]
    refine Finset.sum_congr rfl fun a _ => ?_
    rw [← fft1_conj]
    simp [negOn]
  · intro a _ k
    dsimp only
    congr 1
    congr 1
    refine Finset.sum_congr rfl fun b _ => ?_
    by_cases hb : b = a
    · subst hb; rw [Function.update_self, ← hr b, fft1_period]
    · rw [Function.update_of_ne hb]

theorem circulantFft_eq {ops : List (Mat ℝ)} (func : ℂ → ℂ) (x : NArr d ℝ) (hx : List.ofFn x.shape = ops.map Mat.rows)
    (hc : ∀ m ∈ ops, m.Circulant) (p : Polynomial ℝ)
    (hp : ∀ z, IsEigenvalueSum d ops z → func z = Polynomial.aeval z p) :
    ∃ r, circulantFft func ops x = .ok r ∧ r.shape = x.shape ∧ BoxEq x.shape r.data (polyApply p (separable ops) x.data) := by
  obtain ⟨hl, hr⟩ := opAt_rows hx
  have hD := circulant_diag hx hc
  refine ⟨_, if_neg (not_not.2 hx), rfl, fun i hi => ?_⟩
  have h1 := hD.poly hr p x.data i hi
  have h2 := diagOp_congr (w := fun a => fftKernel (x.shape a)) (v := fun a => ifftKernel (x.shape a)) (s := x.shape)
    (D := fun k => func (∑ a, fft1 (opAt ops a).rows (fun j => ((opAt ops a).e j 0 : ℂ)) (k a)))
    (E := fun k => Polynomial.aeval (∑ a, fft1 (opAt ops a).rows (fun j => ((opAt ops a).e j 0 : ℂ)) (k a)) p)
    (x := fun i => (x.data i : ℂ)) (y := fun i => (x.data i : ℂ))
    (fun k hk => hp _ (hD.isEigenvalueSum hr k hk)) BoxEq.rfl' i hi
  rw [h1] at h2
  show Complex.re (diagOp _ _ _ _ _ i) = _
  unfold fftDiagonal
  refine (congrArg Complex.re h2).trans ?_
  exact Complex.ofReal_re _

theorem irfftLast_congr {k : ℕ} (s : Fin (k + 1) → ℕ) (x y : NArr (k + 1) ℂ) (h : BoxEq s x.data y.data)
    (hxs : x.shape (Fin.last k) = s (Fin.last k) / 2 + 1) (hs : x.shape = y.shape) (he : s (Fin.last k) % 2 = 0)
    (i : Idx (k + 1)) (hi : InR s i) : (irfftLast x).data i = (irfftLast y).data i := by
  have hi' := hi (Fin.last k)
  have hn : 2 * (y.shape (Fin.last k) - 1) = s (Fin.last k) := by rw [← hs]; omega
  unfold irfftLast
  dsimp only
  rw [hs, hn]
  have h2 : s (Fin.last k) / 2 < s (Fin.last k) := by omega
  rw [h _ (hi.update (Fin.last k) (j := 0) (by omega) (by omega)),
    h _ (hi.update (Fin.last k) (j := ((s (Fin.last k) / 2 : ℕ) : ℤ)) (by omega) (by omega))]
  congr 3
  refine Finset.sum_congr rfl fun j hj => ?_
  rw [Finset.mem_Ico] at hj
  rw [h _ (hi.update (Fin.last k) (j := j) (by omega) (by omega))]

theorem rfftShape_append (l : List ℕ) (n : ℕ) : rfftShape (l ++ [n]) = l ++ [n / 2 + 1] := by
  induction l with
  | nil => rfl
  | cons a l ih =>
    cases l with
    | nil => rfl
    | cons b l => simp only [List.cons_append, rfftShape] at ih ⊢; rw [ih]

theorem ofFn_snoc {α : Type} {k : ℕ} (f : Fin (k + 1) → α) :
    List.ofFn f = (List.ofFn fun a : Fin k => f a.castSucc) ++ [f (Fin.last k)] := by
  rw [List.ofFn_succ']; simp [List.concat_eq_append]

theorem circulantRfft_eq {k : ℕ} {ops : List (Mat ℝ)} (func : ℂ → ℂ) (x : NArr (k + 1) ℝ)
    (hx : List.ofFn x.shape = ops.map Mat.rows)
    (hc : ∀ m ∈ ops, m.Circulant) (he : x.shape (Fin.last k) % 2 = 0) (p : Polynomial ℝ)
    (hp : ∀ z, IsEigenvalueSum (k + 1) ops z → func z = Polynomial.aeval z p) :
    ∃ r, circulantRfft func ops x = .ok r ∧ r.shape = x.shape ∧
      BoxEq x.shape r.data (polyApply p (separable ops) x.data) := by
  obtain ⟨hl, hr⟩ := opAt_rows hx
  have hD := circulant_diag hx hc
  have hshape : List.ofFn (rfftn x).shape = rfftShape (ops.map Mat.rows) := by
    rw [← hx, ofFn_snoc x.shape, rfftShape_append, ofFn_snoc]
    unfold rfftn
    simp only [Function.update_self]
    congr 1
    congr 1
    funext a
    exact Function.update_of_ne (Fin.castSucc_lt_last a).ne _ _
  refine ⟨_, if_neg (not_not.2 hshape), ?_, fun i hi => ?_⟩
  · funext a
    show (irfftLast _).shape a = _
    unfold irfftLast
    dsimp only
    by_cases ha : a = Fin.last k
    · subst ha
      rw [Function.update_self]
      show 2 * ((Function.update x.shape (Fin.last k) _) (Fin.last k) - 1) = _
      rw [Function.update_self]; omega
    · rw [Function.update_of_ne ha]
      exact Function.update_of_ne ha _ _
  · set s := x.shape with hs
    have hX : HSym s Finset.univ (axesOp s (fun a => fftKernel (s a)) (List.finRange (k + 1)) fun i => (x.data i : ℂ)) := by
      have := (HSym.real s x.data).fft_axes (List.finRange (k + 1)) (List.nodup_finRange _) (fun a _ => Finset.notMem_empty a)
      have e : (∅ : Finset (Fin (k + 1))) ∪ (List.finRange (k + 1)).toFinset = Finset.univ := by ext; simp
      rwa [e] at this
    have hY := (HSym.eigs hr p).mul hX
    set y : Idx (k + 1) → ℂ := fun k_1 => Polynomial.aeval (∑ a, fft1 (opAt ops a).rows (fun j => ((opAt ops a).e j 0 : ℂ)) (k_1 a)) p *
      axesOp s (fun a => fftKernel (s a)) (List.finRange (k + 1)) (fun i => (x.data i : ℂ)) k_1 with hy
    have hnd : ((List.finRange k).map Fin.castSucc).Nodup := (List.nodup_finRange k).map (Fin.castSucc_injective k)
    have hZ := hY.ifft_axes ((List.finRange k).map Fin.castSucc) hnd (fun a _ => Finset.mem_univ a)
    have et : (Finset.univ : Finset (Fin (k + 1))) \ ((List.finRange k).map Fin.castSucc).toFinset = {Fin.last k} := by
      ext a
      simp only [Finset.mem_sdiff, Finset.mem_univ, true_and, List.mem_toFinset, List.mem_map, List.mem_finRange,
        Finset.mem_singleton]
      constructor
      · intro h
        by_contra hne
        exact h ⟨a.castPred hne, Fin.castSucc_castPred a hne⟩
      · rintro rfl ⟨b, hb⟩
        exact (Fin.castSucc_lt_last b).ne hb
    rw [et] at hZ
    have hfold : ∀ (z : Idx (k + 1) → ℂ),
        ((List.finRange k).map Fin.castSucc).foldl
          (fun y a => axisOp ((rfftn x).shape a) a (ifftKernel ((rfftn x).shape a)) y) z =
        axesOp s (fun a => ifftKernel (s a)) ((List.finRange k).map Fin.castSucc) z := by
      intro z
      unfold axesOp
      rw [List.foldl_map, List.foldl_map]
      congr 1
      funext z a
      have : (rfftn x).shape a.castSucc = s a.castSucc := Function.update_of_ne (Fin.castSucc_lt_last a).ne _ _
      rw [this]
    have hlast : (rfftn x).shape (Fin.last k) = s (Fin.last k) / 2 + 1 := Function.update_self _ _ _
    have final : (((irfftLast ⟨(rfftn x).shape, axesOp s (fun a => ifftKernel (s a)) ((List.finRange k).map Fin.castSucc) y⟩).data i : ℝ) : ℂ)
        = diagOp s (fun a => fftKernel (s a)) (fun a => ifftKernel (s a))
          (fun k_1 => Polynomial.aeval (∑ a, fft1 (opAt ops a).rows (fun j => ((opAt ops a).e j 0 : ℂ)) (k_1 a)) p)
          (fun i => (x.data i : ℂ)) i := by
      rw [irfftLast_eq s _ hZ he ⟨(rfftn x).shape, axesOp s (fun a => ifftKernel (s a)) ((List.finRange k).map Fin.castSucc) y⟩ hlast rfl i hi]
      have hap : ∀ z : Idx (k + 1) → ℂ, axesOp s (fun a => ifftKernel (s a)) (List.finRange (k + 1)) z =
          axisOp (s (Fin.last k)) (Fin.last k) (ifftKernel (s (Fin.last k)))
            (axesOp s (fun a => ifftKernel (s a)) ((List.finRange k).map Fin.castSucc) z) := by
        intro z
        rw [List.finRange_succ_last]
        unfold axesOp
        rw [List.foldl_append]
        rfl
      exact (congrFun (hap y) i).symm
    rw [hD.poly hr p x.data i hi] at final
    have final' : (irfftLast ⟨(rfftn x).shape, axesOp s (fun a => ifftKernel (s a)) ((List.finRange k).map Fin.castSucc) y⟩).data i =
        polyApply p (separable ops) x.data i := by
      dsimp only at final
      exact_mod_cast final
    rw [← final']
    show (irfftLast _).data i = _
    refine irfftLast_congr s _ _ ?_ (by exact hlast) (by rfl) he i hi
    show BoxEq s _ _
    dsimp only
    rw [hfold]
    refine axesOp_congr _ _ fun k_1 hk => ?_
    rw [hy]
    dsimp only
    congr 1
    exact hp _ (hD.isEigenvalueSum hr k_1 hk)

end JaxCfd
