import Verif.Lemmas.Polynomial

/-!
# C52: polynomial accuracy constraints (`ml/layers_util.py`, `ml/layers.py`)
-/

namespace JaxCfd
variable {d : ℕ}

/-- `_exponents_up_to_degree(degree, num)` lists every tuple of `num` exponents with sum at most `degree`,
and lists it once. -/
theorem C52_exponents (degree num : ℕ) :
    (exponentsUpToDegree degree num).Nodup ∧
    ∀ e : List ℕ, e ∈ exponentsUpToDegree degree num ↔ e.length = num ∧ e.sum ≤ degree :=
  ⟨nodup_exponentsUpToDegree degree num, mem_exponentsUpToDegree degree num⟩

theorem weighted_eq_dotL (xs c : List ℝ) : weighted xs c = dotL xs c := rfl

theorem monomial_totalDegree (e : Fin d → ℕ) :
    (MvPolynomial.monomial (Finsupp.equivFunOnFinite.symm e) (1 : ℝ)).totalDegree = ∑ a, e a := by
  rw [MvPolynomial.totalDegree_monomial _ one_ne_zero, Finsupp.sum_fintype _ _ (fun _ => rfl)]
  rfl

theorem accurate_iff_rows {st : Fin d → List ℝ} {method : Method} {o : Fin d → ℕ} {acc : ℤ} {h : Option ℝ} {rows : List (List ℝ × ℝ)} (hd : 0 < d)
    (g : ℕ → ℝ → ℝ) (hg : ∀ e st, lhsTerm method h e st = .ok (st.map (g e)))
    (hr : polynomialAccuracyConstraints (List.ofFn st) method (List.ofFn o) acc h = .ok rows)
    (Λ : MvPolynomial (Fin d) ℝ → (Fin d → ℝ) → ℝ)
    (hΛ : ∀ p x, Λ p x = ∑ s ∈ p.support, p.coeff s * ∏ a, g (s a) (x a)) (c : List ℝ) :
    (∀ q ∈ rows, dotL q.1 c = q.2) ↔
      ∀ p : MvPolynomial (Fin d) ℝ, (p.totalDegree : ℤ) ≤ acc + (∑ a, o a : ℕ) - 1 →
        weighted ((stencilPoints st).map (Λ p)) c = derivAtZero o p := by
  constructor
  · intro hc p hp
    exact constraints_exact hd g hg hr c hc Λ hΛ p hp
  · intro H q hq
    obtain ⟨e, he, rfl⟩ := (constraints_iff hd g hg hr q).1 hq
    have := H (MvPolynomial.monomial (Finsupp.equivFunOnFinite.symm e) 1) (by rw [monomial_totalDegree]; exact he)
    rw [derivAtZero_monomial, one_mul] at this
    rw [weighted_eq_dotL] at this
    dsimp only
    have e1 : (∏ a, rhsTerm (e a) (o a)) = ∏ a, rhsTerm ((Finsupp.equivFunOnFinite.symm e) a) (o a) := rfl
    rw [e1, ← this]
    congr 2
    funext x
    rw [hΛ, MvPolynomial.support_monomial, if_neg one_ne_zero, Finset.sum_singleton, MvPolynomial.coeff_monomial, if_pos rfl, one_mul]
    rfl

/-- `polynomial_accuracy_constraints` with finite differences: coefficients `c` satisfy `A c = b` exactly when
the weighted sum of the samples of every polynomial of total degree below `accuracy + Σ orders` is its mixed
derivative at the origin. -/
theorem C52_constraints_finite_difference (st : Fin d → List ℝ) (o : Fin d → ℕ) (acc : ℤ) (h : Option ℝ) (rows : List (List ℝ × ℝ)) (hd : 0 < d)
    (hr : polynomialAccuracyConstraints (List.ofFn st) .finiteDifference (List.ofFn o) acc h = .ok rows) (c : List ℝ) :
    (∀ q ∈ rows, weighted q.1 c = q.2) ↔
      ∀ p : MvPolynomial (Fin d) ℝ, (p.totalDegree : ℤ) < acc + (∑ a, o a : ℕ) →
        weighted ((stencilPoints st).map fun x => MvPolynomial.eval x p) c = derivAtZero o p := by
  have := accurate_iff_rows hd (termFn .finiteDifference 0) (fun e st => lhsTerm_fd h e st) hr (fun p x => MvPolynomial.eval x p) eval_sum_form c
  simp only [Int.le_sub_one_iff] at this
  exact this

/-- The same for finite volumes, where the samples are averages over cells of width `h` around the points. -/
theorem C52_constraints_finite_volume (st : Fin d → List ℝ) (o : Fin d → ℕ) (acc : ℤ) (h : ℝ) (hh : 0 < h) (rows : List (List ℝ × ℝ)) (hd : 0 < d)
    (hr : polynomialAccuracyConstraints (List.ofFn st) .finiteVolume (List.ofFn o) acc (some h) = .ok rows) (c : List ℝ) :
    (∀ q ∈ rows, weighted q.1 c = q.2) ↔
      ∀ p : MvPolynomial (Fin d) ℝ, (p.totalDegree : ℤ) < acc + (∑ a, o a : ℕ) →
        weighted ((stencilPoints st).map fun x => cellAverage h p x) c = derivAtZero o p := by
  have := accurate_iff_rows hd (termFn .finiteVolume h) (fun e st => lhsTerm_ok .finiteVolume h e st) hr (fun p x => cellAverage h p x)
    (cellAverage_form h hh) c
  simp only [Int.le_sub_one_iff] at this
  exact this

/-- Refused arguments: as many derivative orders as stencils, accuracy at least 1, and a grid step for finite
volumes. -/
theorem C52_constraints_reject (stencils : List (List ℝ)) (method : Method) (orders : List ℕ) (acc : ℤ) (h : Option ℝ) :
    (stencils.length ≠ orders.length → polynomialAccuracyConstraints stencils method orders acc h = .error .value) ∧
    (acc < 1 → polynomialAccuracyConstraints stencils method orders acc h = .error .value) ∧
    (stencils ≠ [] → polynomialAccuracyConstraints stencils .finiteVolume orders acc none = .error .value) := by
  refine ⟨fun h1 => ?_, fun h1 => ?_, fun h1 => ?_⟩
  · unfold polynomialAccuracyConstraints
    rw [if_pos h1]
  · unfold polynomialAccuracyConstraints
    split_ifs
    · rfl
    · rfl
  · unfold polynomialAccuracyConstraints
    split_ifs with h2 h3
    · rfl
    · rfl
    · obtain ⟨s, ss, rfl⟩ := List.exists_cons_of_ne_nil h1
      push Not at h2
      obtain ⟨o, os, rfl⟩ : ∃ o os, orders = o :: os := by
        cases orders with
        | nil => simp at h2
        | cons o os => exact ⟨o, os, rfl⟩
      have hne : exponentsUpToDegree (acc + ((o :: os).sum : ℕ) - 1).toNat (s :: ss).length ≠ [] := by
        intro h0
        have := (mem_exponentsUpToDegree (acc + ((o :: os).sum : ℕ) - 1).toNat (s :: ss).length (List.replicate (s :: ss).length 0)).2
          ⟨by simp, by simp⟩
        rw [h0] at this
        simp at this
      obtain ⟨e, es, he⟩ := List.exists_cons_of_ne_nil hne
      have hlen : e.length = (s :: ss).length :=
        ((mem_exponentsUpToDegree (acc + ((o :: os).sum : ℕ) - 1).toNat (s :: ss).length e).1 (by rw [he]; simp)).1
      rw [he]
      obtain ⟨e0, e1, rfl⟩ : ∃ e0 e1, e = e0 :: e1 := by
        cases e with
        | nil => simp at hlen
        | cons e0 e1 => exact ⟨e0, e1, rfl⟩
      simp [List.foldlM, constraintTerms, lhsTerm, bind, Except.bind]

theorem addConstraint_consistent {all : List (List ℝ × ℝ)} {c l : List ℝ} (h : ∀ q ∈ all, dotL q.1 c = q.2) {r : ℝ} (hl : dotL l c = r) :
    ∃ all', addConstraint all l r = .ok all' ∧ ∀ q ∈ all', dotL q.1 c = q.2 := by
  unfold addConstraint
  split
  · rename_i q hq
    have h1 := List.find?_some hq
    have h2 := List.mem_of_find?_eq_some hq
    simp only [decide_eq_true_eq] at h1
    rw [if_neg (by push Not; rw [← h q h2, h1, hl])]
    exact ⟨all, rfl, h⟩
  · refine ⟨_, rfl, ?_⟩
    intro q hq
    rcases List.mem_append.1 hq with h1 | h1
    · exact h q h1
    · rw [List.mem_singleton.1 h1]; exact hl

theorem constraints_succeed (hd : 0 < d) (st : Fin d → List ℝ) (o : Fin d → ℕ) (acc : ℤ) (hacc : 1 ≤ acc) {method : Method} {h : Option ℝ}
    (g : ℕ → ℝ → ℝ) (hg : ∀ e st, lhsTerm method h e st = .ok (st.map (g e))) (c : List ℝ)
    (hc : ∀ e : Fin d → ℕ, ((∑ a, e a : ℕ) : ℤ) ≤ acc + (∑ a, o a : ℕ) - 1 →
      dotL ((stencilPoints st).map fun x => ∏ a, g (e a) (x a)) c = ∏ a, rhsTerm (e a) (o a)) :
    ∃ rows, polynomialAccuracyConstraints (List.ofFn st) method (List.ofFn o) acc h = .ok rows := by
  unfold polynomialAccuracyConstraints
  rw [if_neg (by simp), if_neg (by omega)]
  have key : ∀ (l : List (List ℕ)) (all : List (List ℝ × ℝ)), (∀ e ∈ l, e.length = d ∧ (e.sum : ℤ) ≤ acc + (∑ a, o a : ℕ) - 1) →
      (∀ q ∈ all, dotL q.1 c = q.2) →
      ∃ all', l.foldlM (fun all exponents => do
        let t ← constraintTerms method h exponents (List.ofFn st) (List.ofFn o)
        let lhs ← kroneckerProduct t.1
        addConstraint all lhs t.2.prod) all = .ok all' := by
    intro l
    induction l with
    | nil => intro all _ _; exact ⟨all, rfl⟩
    | cons e l ih =>
      intro all he hall
      obtain ⟨e1, e2⟩ := he e (by simp)
      obtain ⟨e', rfl⟩ : ∃ e' : Fin d → ℕ, e = List.ofFn e' := by
        subst e1
        exact ⟨fun a => e.get a, by simp⟩
      rw [List.sum_ofFn] at e2
      have hk : kroneckerProduct (List.ofFn fun a => (st a).map (g (e' a))) = .ok ((stencilPoints st).map fun x => ∏ a, g (e' a) (x a)) := by
        rw [kroneckerProduct_ok _ (by rw [ne_eq, List.ofFn_eq_nil_iff]; omega), kronR_ofFn st (fun a => g (e' a))]
      obtain ⟨all', h1, h2⟩ := addConstraint_consistent hall (hc e' e2)
      obtain ⟨all'', h3⟩ := ih all' (fun e he' => he e (by simp [he'])) h2
      refine ⟨all'', ?_⟩
      rw [List.foldlM_cons, constraintTerms_ok method h g hg]
      simp only [bind, Except.bind, hk]
      rw [List.prod_ofFn, h1]
      exact h3
  obtain ⟨all', h'⟩ := key (exponentsUpToDegree (acc + ((List.ofFn o).sum : ℕ) - 1).toNat (List.ofFn st).length) [] (by
    intro e he
    obtain ⟨h1, h2⟩ := (mem_exponentsUpToDegree _ _ _).1 he
    rw [List.sum_ofFn] at h2
    refine ⟨by simpa using h1, by omega⟩) (by simp)
  rw [h']
  exact ⟨_, rfl⟩

/-- The constraints are produced whenever some coefficients are exact (for finite differences): no spurious
"conflicting constraints" error. -/
theorem C52_constraints_succeed (hd : 0 < d) (st : Fin d → List ℝ) (o : Fin d → ℕ) (acc : ℤ) (hacc : 1 ≤ acc) (h : Option ℝ) (c : List ℝ)
    (hc : ∀ p : MvPolynomial (Fin d) ℝ, (p.totalDegree : ℤ) < acc + (∑ a, o a : ℕ) →
      weighted ((stencilPoints st).map fun x => MvPolynomial.eval x p) c = derivAtZero o p) :
    ∃ rows, polynomialAccuracyConstraints (List.ofFn st) .finiteDifference (List.ofFn o) acc h = .ok rows := by
  refine constraints_succeed hd st o acc hacc (termFn .finiteDifference 0) (fun e st => lhsTerm_fd h e st) c ?_
  intro e he
  have := hc (MvPolynomial.monomial (Finsupp.equivFunOnFinite.symm e) 1) (by rw [monomial_totalDegree]; omega)
  rw [derivAtZero_monomial, one_mul] at this
  have e1 : (∏ a, rhsTerm (e a) (o a)) = ∏ a, rhsTerm ((Finsupp.equivFunOnFinite.symm e) a) (o a) := rfl
  rw [e1, ← this, weighted_eq_dotL]
  congr 2
  funext x
  rw [eval_sum_form, MvPolynomial.support_monomial, if_neg one_ne_zero, Finset.sum_singleton, MvPolynomial.coeff_monomial, if_pos rfl, one_mul]
  rfl

/-- A constraint set can be contradictory: one point cannot reproduce both constants and linear functions. -/
theorem C52_constraints_conflict (h : Option ℝ) :
    polynomialAccuracyConstraints [[1]] .finiteDifference [0] 2 h = .error .value := by
  have he : exponentsUpToDegree (2 + (([0] : List ℕ).sum : ℕ) - 1 : ℤ).toNat ([[1]] : List (List ℝ)).length = [[0], [1]] := by decide
  unfold polynomialAccuracyConstraints
  rw [if_neg (by simp), if_neg (by norm_num), he]
  simp [List.foldlM, constraintTerms, lhsTerm, kroneckerProduct, addConstraint, rhsTerm, bind, Except.bind, pure, Except.pure]

/-- `polynomial_accuracy_coefficients`: the default bias is exact for every polynomial of total degree below
`accuracy + Σ orders`, provided every stencil has at least `order + accuracy` points. -/
theorem C52_coefficients_finite_difference (solve : List (List ℝ) → List ℝ → Except Err (List ℝ)) (hs : SolvesExactly solve) (hd : 0 < d) (h : Option ℝ)
    (st : Fin d → List ℝ) (o : Fin d → ℕ) (acc : ℤ) (hacc : 1 ≤ acc) (hlen : ∀ a, (o a : ℤ) + acc ≤ (st a).length) (bias : List ℝ)
    (hb : polynomialAccuracyCoefficients solve (List.ofFn st) .finiteDifference (List.ofFn o) (some acc) h = .ok bias) :
    bias.length = (stencilPoints st).length ∧
    ∀ p : MvPolynomial (Fin d) ℝ, (p.totalDegree : ℤ) < acc + (∑ a, o a : ℕ) →
      weighted ((stencilPoints st).map fun x => MvPolynomial.eval x p) bias = derivAtZero o p := by
  obtain ⟨h1, h2⟩ := coefficients_exact hs hd (termFn .finiteDifference 0) (fun e st => lhsTerm_fd h e st) st o acc hacc hlen hb
  obtain ⟨rows, hr⟩ := constraints_succeed hd st o acc hacc (termFn .finiteDifference 0) (fun e st => lhsTerm_fd h e st) bias h2
  refine ⟨h1, (C52_constraints_finite_difference st o acc h rows hd hr bias).1 ?_⟩
  intro q hq
  obtain ⟨e, he, rfl⟩ := (constraints_iff hd _ (fun e st => lhsTerm_fd h e st) hr q).1 hq
  exact h2 e he

theorem C52_coefficients_finite_volume (solve : List (List ℝ) → List ℝ → Except Err (List ℝ)) (hs : SolvesExactly solve) (hd : 0 < d) (h : ℝ) (hh : 0 < h)
    (st : Fin d → List ℝ) (o : Fin d → ℕ) (acc : ℤ) (hacc : 1 ≤ acc) (hlen : ∀ a, (o a : ℤ) + acc ≤ (st a).length) (bias : List ℝ)
    (hb : polynomialAccuracyCoefficients solve (List.ofFn st) .finiteVolume (List.ofFn o) (some acc) (some h) = .ok bias) :
    bias.length = (stencilPoints st).length ∧
    ∀ p : MvPolynomial (Fin d) ℝ, (p.totalDegree : ℤ) < acc + (∑ a, o a : ℕ) →
      weighted ((stencilPoints st).map fun x => cellAverage h p x) bias = derivAtZero o p := by
  obtain ⟨h1, h2⟩ := coefficients_exact hs hd (termFn .finiteVolume h) (fun e st => lhsTerm_ok .finiteVolume h e st) st o acc hacc hlen hb
  obtain ⟨rows, hr⟩ := constraints_succeed hd st o acc hacc (termFn .finiteVolume h) (fun e st => lhsTerm_ok .finiteVolume h e st) bias h2
  refine ⟨h1, (C52_constraints_finite_volume st o acc h hh rows hd hr bias).1 ?_⟩
  intro q hq
  obtain ⟨e, he, rfl⟩ := (constraints_iff hd _ (fun e st => lhsTerm_ok .finiteVolume h e st) hr q).1 hq
  exact h2 e he

/-! ### the constraint layer -/

theorem zipWith_nullspace_sum (r : List ℝ) (inputs : List ℝ) (ns : List (List ℝ)) (h : ∀ v ∈ ns, r.length = v.length ∧ dotL r v = 0) :
    ∑ j ∈ Finset.range r.length, r.getD j 0 * (List.zipWith (fun x (v : List ℝ) => x * v.getD j 0) inputs ns).sum = 0 := by
  induction ns generalizing inputs with
  | nil => simp
  | cons v ns ih =>
    cases inputs with
    | nil => simp
    | cons x inputs =>
      simp only [List.zipWith_cons_cons, List.sum_cons, mul_add, Finset.sum_add_distrib]
      rw [ih inputs (fun v hv => h v (by simp [hv])), add_zero]
      obtain ⟨h1, h2⟩ := h v (by simp)
      rw [dotL_eq_sum _ _ h1] at h2
      have : ∀ j, r.getD j 0 * (x * v.getD j 0) = x * (r.getD j 0 * v.getD j 0) := fun j => by ring
      simp only [this]
      rw [← Finset.mul_sum, h2, mul_zero]

theorem pySliceList_last {α : Type} (v : List α) (m : ℕ) (hm : m < v.length) :
    pySliceList v (-((v.length : ℤ) - m)) v.length = v.drop m := by
  unfold pySliceList clipBound
  have e1 : (max 0 (min (v.length : ℤ) (if -((v.length : ℤ) - m) < 0 then -((v.length : ℤ) - m) + v.length else -((v.length : ℤ) - m)))).toNat = m := by
    rw [if_pos (by omega)]; omega
  have e2 : (max 0 (min (v.length : ℤ) (if (v.length : ℤ) < 0 then (v.length : ℤ) + v.length else (v.length : ℤ)))).toNat = v.length := by
    rw [if_neg (by omega)]; omega
  simp only [e1, e2, List.take_length]

theorem apply_dotL {svd : List (List ℝ) → List (List ℝ)} (hsvd : SvdNullRows svd) {rows : List (List ℝ × ℝ)} {orders : List ℕ} {h : ℝ} {bias : List ℝ}
    {pc : PolyConstraint} {n : ℕ} (hn : ∀ q ∈ rows, q.1.length = n) (hne : rows ≠ []) (hpc : finishPolyConstraint svd rows orders h bias = .ok pc)
    (hsize : 0 < pc.nullspaceSize) :
    pc.bias = bias ∧ bias.length = n ∧ residualNorm rows bias ≤ 1 / 10 ^ 8 ∧ pc.nullspaceSize = (n : ℤ) - rows.length ∧
    (pc.nullspace.length : ℤ) = pc.nullspaceSize ∧
    ∀ inputs : List ℝ, (inputs.length : ℤ) = pc.nullspaceSize → ∃ c, pc.apply inputs = .ok c ∧ c.length = n ∧
      ∀ q ∈ rows, dotL q.1 c = dotL q.1 bias := by
  have hcol : ((rows.map fun q => q.1.length).head?).getD 0 = n := by
    cases rows with
    | nil => exact absurd rfl hne
    | cons q rows => simp [hn q (by simp)]
  unfold finishPolyConstraint at hpc
  dsimp only at hpc
  rw [hcol] at hpc
  split_ifs at hpc with h1 h2 h3
  injection hpc with hpc
  subst hpc
  dsimp only at hsize ⊢
  push Not at h1
  obtain ⟨v1, v2, v3⟩ := hsvd (rows.map fun q => q.1) n (by simpa using hne) (by
    intro r hr
    obtain ⟨q, hq, rfl⟩ := List.mem_map.1 hr
    exact hn q hq) (by rw [List.length_map]; omega)
  rw [List.length_map] at v3
  generalize svd (rows.map fun q => q.1) = v at v1 v2 v3 ⊢
  have hlen : rows.length < v.length := by omega
  have hsl : pySliceList v (-((n : ℤ) - rows.length)) v.length = v.drop rows.length := by
    rw [← v1]; exact pySliceList_last v rows.length hlen
  rw [hsl]
  refine ⟨rfl, h1, not_lt.1 h2, rfl, by rw [List.length_map, List.length_drop]; omega, ?_⟩
  intro inputs hi
  unfold PolyConstraint.apply
  dsimp only
  rw [if_neg (by rw [List.length_map, List.length_drop]; omega)]
  refine ⟨_, rfl, by rw [List.length_map, List.length_range, h1], ?_⟩
  intro q hq
  have hq1 := hn q hq
  rw [dotL_eq_sum _ _ (by rw [List.length_map, List.length_range, h1, hq1]), dotL_eq_sum _ _ (by rw [h1, hq1])]
  have hz := zipWith_nullspace_sum q.1 inputs ((v.drop rows.length).map fun r => r.map fun x => x / (orders.map fun o => h ^ o).prod) (by
    intro w hw
    obtain ⟨u, hu, rfl⟩ := List.mem_map.1 hw
    have hul := v2 u (List.mem_of_mem_drop hu)
    refine ⟨by rw [List.length_map, hul, hq1], ?_⟩
    have h0 := v3 u hu q.1 (List.mem_map.2 ⟨q, hq, rfl⟩)
    rw [weighted_eq_dotL] at h0
    have e1 : (u.map fun x => x / (orders.map fun o => h ^ o).prod) = u.map fun x => (1 / (orders.map fun o => h ^ o).prod) * x := by
      apply List.map_congr_left; intro x _; ring
    have e2 : q.1 = q.1.map fun t => (1 : ℝ) * t := by simp
    rw [e1, e2, dotL_map_mul, h0, mul_zero])
  refine Eq.trans ?_ ((congrArg (fun t => ∑ j ∈ Finset.range q.1.length, q.1.getD j 0 * bias.getD j 0 + t) hz).trans (add_zero _))
  rw [← Finset.sum_add_distrib]
  apply Finset.sum_congr rfl
  intro j hj
  rw [Finset.mem_range, hq1] at hj
  rw [← mul_add]
  congr 1
  rw [List.getD_eq_getElem _ _ (by rw [List.length_map, List.length_range, h1]; exact hj), List.getElem_map, List.getElem_range]

theorem rows_length {st : Fin d → List ℝ} {method : Method} {o : Fin d → ℕ} {acc : ℤ} {h : ℝ} {rows : List (List ℝ × ℝ)} (hd : 0 < d)
    (hr : polynomialAccuracyConstraints (List.ofFn st) method (List.ofFn o) acc (some h) = .ok rows) :
    (∀ q ∈ rows, q.1.length = (stencilPoints st).length) ∧ rows ≠ [] := by
  constructor
  · intro q hq
    obtain ⟨e, -, rfl⟩ := (constraints_iff hd _ (fun e st => lhsTerm_ok method h e st) hr q).1 hq
    simp
  · intro h0
    have ha := (constraints_mem hr).2.1
    have := (constraints_iff hd _ (fun e st => lhsTerm_ok method h e st) hr _).2 ⟨fun _ => 0, by rw [Finset.sum_const_zero]; omega, rfl⟩
    rw [h0] at this
    simp at this

theorem mkPolyConstraint_ok {solve : List (List ℝ) → List ℝ → Except Err (List ℝ)} {svd : List (List ℝ) → List (List ℝ)}
    {stencils : List (List ℝ)} {orders : List ℕ} {method : Method} {steps : List ℝ} {acc biasAcc : ℤ} {bias : Option (List ℝ)} {pc : PolyConstraint}
    (h : mkPolyConstraint solve svd stencils orders method steps acc biasAcc bias = .ok pc) :
    ∃ (h : ℝ) (rows : List (List ℝ × ℝ)) (b : List ℝ), (∀ s ∈ steps, s = h) ∧ steps ≠ [] ∧
      polynomialAccuracyConstraints stencils method orders acc (some h) = .ok rows ∧
      (bias = some b ∨ bias = none ∧ polynomialAccuracyCoefficients solve stencils method orders (some biasAcc) (some h) = .ok b) ∧
      finishPolyConstraint svd rows orders h b = .ok pc := by
  unfold mkPolyConstraint at h
  split_ifs at h with h1
  obtain ⟨rows, hr, h⟩ := Except.bind_eq_ok.1 h
  dsimp only at h
  push Not at h1
  obtain ⟨s, hs⟩ := List.length_eq_one_iff.1 h1
  have e : steps.dedup.getD 0 0 = s := by rw [hs]; rfl
  rw [e] at hr h
  have k1 : ∀ t ∈ steps, t = s := by
    intro t ht
    have := List.mem_dedup.2 ht
    rw [hs] at this
    exact List.mem_singleton.1 this
  have k2 : steps ≠ [] := by
    rintro rfl
    simp at hs
  cases bias with
  | some b => exact ⟨s, rows, b, k1, k2, hr, Or.inl rfl, h⟩
  | none =>
    obtain ⟨b, hb, h⟩ := Except.bind_eq_ok.1 h
    exact ⟨s, rows, b, k1, k2, hr, Or.inr ⟨rfl, hb⟩, h⟩

/-- `PolynomialConstraint` built with its default bias (finite differences): for **every** input of the
advertised length the coefficients returned are exact for all polynomials of total degree below
`accuracy + Σ orders`. -/
theorem C52_constraint_layer_finite_difference (solve : List (List ℝ) → List ℝ → Except Err (List ℝ)) (hs : SolvesExactly solve)
    (svd : List (List ℝ) → List (List ℝ)) (hsvd : SvdNullRows svd) (hd : 0 < d) (st : Fin d → List ℝ) (o : Fin d → ℕ) (steps : List ℝ)
    (acc biasAcc : ℤ) (hacc : acc ≤ biasAcc) (hlen : ∀ a, (o a : ℤ) + biasAcc ≤ (st a).length) (pc : PolyConstraint)
    (hpc : mkPolyConstraint solve svd (List.ofFn st) (List.ofFn o) .finiteDifference steps acc biasAcc none = .ok pc)
    (hsize : 0 < pc.nullspaceSize) (inputs : List ℝ) (hi : (inputs.length : ℤ) = pc.nullspaceSize) :
    ∃ c, pc.apply inputs = .ok c ∧ c.length = (stencilPoints st).length ∧
      ∀ p : MvPolynomial (Fin d) ℝ, (p.totalDegree : ℤ) < acc + (∑ a, o a : ℕ) →
        weighted ((stencilPoints st).map fun x => MvPolynomial.eval x p) c = derivAtZero o p := by
  obtain ⟨h, rows, b, -, -, hr, hb, hf⟩ := mkPolyConstraint_ok hpc
  obtain ⟨-, hb⟩ := hb.resolve_left (by simp)
  have h1 : 1 ≤ acc := (constraints_mem hr).2.1
  obtain ⟨hn, hne⟩ := rows_length hd hr
  obtain ⟨-, -, -, -, -, happ⟩ := apply_dotL hsvd hn hne hf hsize
  obtain ⟨c, hc, hcl, hcr⟩ := happ inputs hi
  refine ⟨c, hc, hcl, (C52_constraints_finite_difference st o acc (some h) rows hd hr c).1 ?_⟩
  intro q hq
  rw [weighted_eq_dotL, hcr q hq]
  refine (C52_constraints_finite_difference st o acc (some h) rows hd hr b).2 ?_ q hq
  intro p hp
  exact (C52_coefficients_finite_difference solve hs hd (some h) st o biasAcc (by omega) hlen b hb).2 p (by omega)

/-- The same for finite volumes: exact on cell averages. -/
theorem C52_constraint_layer_finite_volume (solve : List (List ℝ) → List ℝ → Except Err (List ℝ)) (hs : SolvesExactly solve)
    (svd : List (List ℝ) → List (List ℝ)) (hsvd : SvdNullRows svd) (hd : 0 < d) (st : Fin d → List ℝ) (o : Fin d → ℕ) (steps : List ℝ)
    (h : ℝ) (hh : 0 < h) (hsteps : ∀ s ∈ steps, s = h)
    (acc biasAcc : ℤ) (hacc : acc ≤ biasAcc) (hlen : ∀ a, (o a : ℤ) + biasAcc ≤ (st a).length) (pc : PolyConstraint)
    (hpc : mkPolyConstraint solve svd (List.ofFn st) (List.ofFn o) .finiteVolume steps acc biasAcc none = .ok pc)
    (hsize : 0 < pc.nullspaceSize) (inputs : List ℝ) (hi : (inputs.length : ℤ) = pc.nullspaceSize) :
    ∃ c, pc.apply inputs = .ok c ∧ c.length = (stencilPoints st).length ∧
      ∀ p : MvPolynomial (Fin d) ℝ, (p.totalDegree : ℤ) < acc + (∑ a, o a : ℕ) →
        weighted ((stencilPoints st).map fun x => cellAverage h p x) c = derivAtZero o p := by
  obtain ⟨h', rows, b, hst, hne', hr, hb, hf⟩ := mkPolyConstraint_ok hpc
  have e : h' = h := by
    obtain ⟨s, ss, rfl⟩ := List.exists_cons_of_ne_nil hne'
    rw [← hst s (by simp), hsteps s (by simp)]
  subst e
  obtain ⟨-, hb⟩ := hb.resolve_left (by simp)
  have h1 : 1 ≤ acc := (constraints_mem hr).2.1
  obtain ⟨hn, hne⟩ := rows_length hd hr
  obtain ⟨-, -, -, -, -, happ⟩ := apply_dotL hsvd hn hne hf hsize
  obtain ⟨c, hc, hcl, hcr⟩ := happ inputs hi
  refine ⟨c, hc, hcl, (C52_constraints_finite_volume st o acc h' hh rows hd hr c).1 ?_⟩
  intro q hq
  rw [weighted_eq_dotL, hcr q hq]
  refine (C52_constraints_finite_volume st o acc h' hh rows hd hr b).2 ?_ q hq
  intro p hp
  exact (C52_coefficients_finite_volume solve hs hd h' hh st o biasAcc (by omega) hlen b hb).2 p (by omega)

/-- With a bias supplied by the caller, every output violates each accuracy equation exactly as much as the
bias does, and the bias was checked: its residual has norm at most `1e-8`. -/
theorem C52_constraint_layer_bias (solve : List (List ℝ) → List ℝ → Except Err (List ℝ))
    (svd : List (List ℝ) → List (List ℝ)) (hsvd : SvdNullRows svd) (hd : 0 < d) (st : Fin d → List ℝ) (o : Fin d → ℕ) (method : Method) (steps : List ℝ)
    (acc biasAcc : ℤ) (bias : List ℝ) (pc : PolyConstraint)
    (hpc : mkPolyConstraint solve svd (List.ofFn st) (List.ofFn o) method steps acc biasAcc (some bias) = .ok pc)
    (hsize : 0 < pc.nullspaceSize) :
    ∃ h rows, (∀ s ∈ steps, s = h) ∧ polynomialAccuracyConstraints (List.ofFn st) method (List.ofFn o) acc (some h) = .ok rows ∧
      ((rows.map fun q => (weighted q.1 bias - q.2) ^ 2).sum ≤ (1 / 10 ^ 8) ^ 2) ∧
      ∀ inputs : List ℝ, (inputs.length : ℤ) = pc.nullspaceSize → ∃ c, pc.apply inputs = .ok c ∧
        ∀ q ∈ rows, weighted q.1 c = weighted q.1 bias := by
  obtain ⟨h, rows, b, hst, -, hr, hb, hf⟩ := mkPolyConstraint_ok hpc
  have hb' := hb.resolve_right (by simp)
  injection hb' with hb'
  subst hb'
  obtain ⟨hn, hne⟩ := rows_length hd hr
  obtain ⟨-, -, hres, -, -, happ⟩ := apply_dotL hsvd hn hne hf hsize
  refine ⟨h, rows, hst, hr, ?_, ?_⟩
  · unfold residualNorm at hres
    exact (Real.sqrt_le_left (by norm_num)).1 hres
  · intro inputs hi
    obtain ⟨c, hc, -, hcr⟩ := happ inputs hi
    exact ⟨c, hc, hcr⟩

/-- Zero inputs give the bias; a wrong number of inputs is refused. -/
theorem C52_constraint_layer_zero (pc : PolyConstraint) :
    pc.apply (List.replicate pc.nullspace.length 0) = .ok pc.bias ∧
    ∀ inputs : List ℝ, inputs.length ≠ pc.nullspace.length → pc.apply inputs = .error .type := by
  constructor
  · unfold PolyConstraint.apply
    rw [if_neg (by simp)]
    congr 1
    have : ∀ (j : ℕ) (ns : List (List ℝ)), (List.zipWith (fun x (r : List ℝ) => x * r.getD j 0) (List.replicate ns.length 0) ns).sum = 0 := by
      intro j ns
      induction ns with
      | nil => simp
      | cons v ns ih => rw [List.length_cons, List.replicate_succ, List.zipWith_cons_cons, List.sum_cons, ih]; simp
    simp only [this, add_zero]
    apply List.ext_getElem
    · simp
    · intro j h1 h2
      rw [List.getElem_map, List.getElem_range, List.getD_eq_getElem _ _ h2]
  · intro inputs h
    unfold PolyConstraint.apply
    rw [if_pos h]

/-- Steps that are not all equal are refused. -/
theorem C52_constraint_layer_nonuniform (solve : List (List ℝ) → List ℝ → Except Err (List ℝ)) (svd : List (List ℝ) → List (List ℝ))
    (stencils : List (List ℝ)) (orders : List ℕ) (method : Method) (steps : List ℝ) (acc biasAcc : ℤ) (bias : Option (List ℝ))
    (s t : ℝ) (hs : s ∈ steps) (ht : t ∈ steps) (hne : s ≠ t) :
    mkPolyConstraint solve svd stencils orders method steps acc biasAcc bias = .error .value := by
  unfold mkPolyConstraint
  rw [if_pos]
  intro h1
  obtain ⟨u, hu⟩ := List.length_eq_one_iff.1 h1
  have h2 := List.mem_dedup.2 hs
  have h3 := List.mem_dedup.2 ht
  rw [hu, List.mem_singleton] at h2 h3
  exact hne (h2.trans h3.symm)

/-! ### a contradictory size, and a concrete instance -/

open Classical in
/-- A solver satisfying `SolvesExactly` (some solution if there is one). -/
noncomputable def solveAny (A : List (List ℝ)) (b : List ℝ) : Except Err (List ℝ) :=
  if h : ∃ c : List ℝ, ∀ q ∈ List.zip A b, q.1.length = c.length ∧ weighted q.1 c = q.2 then .ok h.choose else .error .value

theorem zip_rows (rows : List (List ℝ × ℝ)) : List.zip (rows.map fun q => q.1) (rows.map fun q => q.2) = rows := by
  induction rows with
  | nil => rfl
  | cons q rows ih => simp [ih]

theorem solveAny_solves : SolvesExactly solveAny := by
  intro rows c h
  unfold solveAny at h
  split_ifs at h with h1
  injection h with h
  have := h1.choose_spec
  rw [h, zip_rows] at this
  exact this

theorem solveAny_ok {rows : List (List ℝ × ℝ)} (c : List ℝ) (hc : ∀ q ∈ rows, q.1.length = c.length ∧ weighted q.1 c = q.2) :
    ∃ c', solveAny (rows.map fun q => q.1) (rows.map fun q => q.2) = .ok c' := by
  unfold solveAny
  rw [dif_pos ⟨c, by rw [zip_rows]; exact hc⟩]
  exact ⟨_, rfl⟩

/-- The docstring of `polynomial_accuracy_constraints` ("`A` never has more rows than columns") fails for the
symmetric two-point stencil with order 1 and accuracy 2: three equations for two unknowns. -/
theorem two_point_rows : ∃ rows, polynomialAccuracyConstraints [[-1 / 2, 1 / 2]] .finiteDifference [1] 2 (some 1) = .ok rows ∧ rows.length = 3 ∧
    ∀ q ∈ rows, q = ([1, 1], 0) ∨ q = ([-1 / 2, 1 / 2], 1) ∨ q = ([1 / 4, 1 / 4], 0) := by
  have he : exponentsUpToDegree (2 + (([1] : List ℕ).sum : ℕ) - 1 : ℤ).toNat ([[-1 / 2, 1 / 2]] : List (List ℝ)).length = [[0], [1], [2]] := by
    decide
  refine ⟨([([1, 1], 0), ([-1 / 2, 1 / 2], 1), ([1 / 4, 1 / 4], 0)] : List (List ℝ × ℝ)).mergeSort fun p q => decide (p.1 ≤ q.1), ?_, ?_, ?_⟩
  · unfold polynomialAccuracyConstraints
    rw [if_neg (by simp), if_neg (by norm_num), he]
    norm_num [List.foldlM, constraintTerms, lhsTerm, kroneckerProduct, addConstraint, rhsTerm, bind, Except.bind, pure, Except.pure]
  · rw [List.length_mergeSort]; rfl
  · intro q hq
    rw [List.mem_mergeSort] at hq
    simpa using hq

theorem residualNorm_eq_zero {rows : List (List ℝ × ℝ)} {c : List ℝ} (h : ∀ q ∈ rows, dotL q.1 c = q.2) : residualNorm rows c = 0 := by
  unfold residualNorm
  rw [Real.sqrt_eq_zero']
  apply le_of_eq
  apply List.sum_eq_zero
  intro x hx
  obtain ⟨q, hq, rfl⟩ := List.mem_map.1 hx
  rw [h q hq, sub_self]
  norm_num

/-- As a consequence `PolynomialConstraint` accepts that stencil (bias `[-1, 1]`) with `subspace_size = -1`, and
its "nullspace" is the last row of the square factor of the SVD, so a call returns coefficients that are not
even exact for constants and linear functions. -/
theorem C52_negative_subspace_defect (solve : List (List ℝ) → List ℝ → Except Err (List ℝ)) (svd : List (List ℝ) → List (List ℝ))
    (hsvd : ∀ A, ∃ u : List ℝ, ∃ a b : ℝ, svd A = [u, [a, b]] ∧ ¬ (a = 0 ∧ b = 0)) :
    ∃ pc, mkPolyConstraint solve svd [[-1 / 2, 1 / 2]] [1] .finiteDifference [1] 2 1 (some [-1, 1]) = .ok pc ∧ pc.nullspaceSize = -1 ∧
      ∃ c, pc.apply [1] = .ok c ∧ ¬ (weighted [1, 1] c = 0 ∧ weighted [-1 / 2, 1 / 2] c = 1) := by
  obtain ⟨rows, hr, hlen, hmem⟩ := two_point_rows
  obtain ⟨u, a, b, hv, hab⟩ := hsvd (rows.map fun q => q.1)
  have hcol : ((rows.map fun q => q.1.length).head?).getD 0 = 2 := by
    cases rows with
    | nil => simp at hlen
    | cons q rows =>
      rcases hmem q (by simp) with h | h | h <;> simp [h]
  have hres : residualNorm rows [-1, 1] = 0 := by
    apply residualNorm_eq_zero
    intro q hq
    rcases hmem q hq with h | h | h <;> rw [h] <;> norm_num [dotL]
  refine ⟨{ bias := [-1, 1], nullspace := [[a, b]], nullspaceSize := -1 }, ?_, rfl, ?_⟩
  · unfold mkPolyConstraint
    rw [if_neg (by simp)]
    have e : ([1] : List ℝ).dedup.getD 0 0 = 1 := by simp
    dsimp only
    rw [e, hr]
    simp only [bind, Except.bind]
    unfold finishPolyConstraint
    dsimp only
    rw [hv, hcol, hlen, hres]
    rw [if_neg (by simp), if_neg (by norm_num), if_neg (by norm_num)]
    have : pySliceList [u, [a, b]] (-(((2 : ℕ) : ℤ) - ((3 : ℕ) : ℤ))) ([u, [a, b]] : List (List ℝ)).length = [[a, b]] := by
      rfl
    rw [this]
    norm_num
  · refine ⟨[-1 + a, 1 + b], ?_, ?_⟩
    · simp [PolyConstraint.apply, List.range_succ]
    · rintro ⟨h1, h2⟩
      norm_num [weighted] at h1 h2
      exact hab ⟨by linarith, by linarith⟩

/-- A consistent square system leaves no freedom and is refused. -/
theorem C52_single_solution_refused (solve : List (List ℝ) → List ℝ → Except Err (List ℝ)) (svd : List (List ℝ) → List (List ℝ)) (b : List ℝ) :
    mkPolyConstraint solve svd [[0, 1]] [1] .finiteDifference [1] 1 1 (some b) = .error .value := by
  have he : exponentsUpToDegree (1 + (([1] : List ℕ).sum : ℕ) - 1 : ℤ).toNat ([[0, 1]] : List (List ℝ)).length = [[0], [1]] := by
    decide
  have hr : polynomialAccuracyConstraints [[0, 1]] .finiteDifference [1] 1 (some 1) =
      .ok (([([1, 1], 0), ([0, 1], 1)] : List (List ℝ × ℝ)).mergeSort fun p q => decide (p.1 ≤ q.1)) := by
    unfold polynomialAccuracyConstraints
    rw [if_neg (by simp), if_neg (by norm_num), he]
    norm_num [List.foldlM, constraintTerms, lhsTerm, kroneckerProduct, addConstraint, rhsTerm, bind, Except.bind, pure, Except.pure]
  unfold mkPolyConstraint
  rw [if_neg (by simp)]
  have e : ([1] : List ℝ).dedup.getD 0 0 = 1 := by simp
  dsimp only
  rw [e, hr]
  simp only [bind, Except.bind]
  unfold finishPolyConstraint
  dsimp only
  generalize hl : (([([1, 1], 0), ([0, 1], 1)] : List (List ℝ × ℝ)).mergeSort fun p q => decide (p.1 ≤ q.1)) = rows
  have hlen : rows.length = 2 := by rw [← hl, List.length_mergeSort]; rfl
  have hmem : ∀ q ∈ rows, q.1.length = 2 := by
    intro q hq
    rw [← hl, List.mem_mergeSort] at hq
    simp only [List.mem_cons, List.not_mem_nil, or_false] at hq
    rcases hq with rfl | rfl <;> rfl
  have hcol : ((rows.map fun q => q.1.length).head?).getD 0 = 2 := by
    cases rows with
    | nil => simp at hlen
    | cons q rows => simp [hmem q (by simp)]
  rw [hcol, hlen]
  split_ifs with h1 h2 h3
  · rfl
  · rfl
  · rfl
  · exact absurd rfl h3

theorem three_point_rows (acc : ℤ) (h : acc = 1 ∨ acc = 2) : ∃ rows, polynomialAccuracyConstraints [[-1, 0, 1]] .finiteDifference [1] acc (some 1) = .ok rows ∧
    (rows.length : ℤ) = acc + 1 ∧ ∀ q ∈ rows, q = ([1, 1, 1], 0) ∨ q = ([-1, 0, 1], 1) ∨ q = ([1, 0, 1], 0) := by
  rcases h with rfl | rfl
  · have he : exponentsUpToDegree (1 + (([1] : List ℕ).sum : ℕ) - 1 : ℤ).toNat ([[-1, 0, 1]] : List (List ℝ)).length = [[0], [1]] := by
      decide
    refine ⟨([([1, 1, 1], 0), ([-1, 0, 1], 1)] : List (List ℝ × ℝ)).mergeSort fun p q => decide (p.1 ≤ q.1), ?_, ?_, ?_⟩
    · unfold polynomialAccuracyConstraints
      rw [if_neg (by simp), if_neg (by norm_num), he]
      norm_num [List.foldlM, constraintTerms, lhsTerm, kroneckerProduct, addConstraint, rhsTerm, bind, Except.bind, pure, Except.pure]
    · rw [List.length_mergeSort]; rfl
    · intro q hq
      rw [List.mem_mergeSort] at hq
      simp only [List.mem_cons, List.not_mem_nil, or_false] at hq
      tauto
  · have he : exponentsUpToDegree (2 + (([1] : List ℕ).sum : ℕ) - 1 : ℤ).toNat ([[-1, 0, 1]] : List (List ℝ)).length = [[0], [1], [2]] := by
      decide
    refine ⟨([([1, 1, 1], 0), ([-1, 0, 1], 1), ([1, 0, 1], 0)] : List (List ℝ × ℝ)).mergeSort fun p q => decide (p.1 ≤ q.1), ?_, ?_, ?_⟩
    · unfold polynomialAccuracyConstraints
      rw [if_neg (by simp), if_neg (by norm_num), he]
      norm_num [List.foldlM, constraintTerms, lhsTerm, kroneckerProduct, addConstraint, rhsTerm, bind, Except.bind, pure, Except.pure]
    · rw [List.length_mergeSort]; rfl
    · intro q hq
      rw [List.mem_mergeSort] at hq
      simpa using hq

/-- A factor satisfying `SvdNullRows`: the null vector `(1, -2, 1)` for two-row matrices with rows `(1,1,1)` and
`(-1,0,1)`, zero rows otherwise. -/
noncomputable def svdSample (A : List (List ℝ)) : List (List ℝ) :=
  let n := ((A.map fun r => r.length).head?).getD 0
  open Classical in
  if A.length = 2 ∧ ∀ r ∈ A, r = [1, 1, 1] ∨ r = [-1, 0, 1] then [[0, 0, 0], [0, 0, 0], [1, -2, 1]]
  else List.replicate n (List.replicate n 0)

theorem svdSample_null : SvdNullRows svdSample := by
  intro A n hne hn hle
  unfold svdSample
  have hcol : ((A.map fun r => r.length).head?).getD 0 = n := by
    cases A with
    | nil => exact absurd rfl hne
    | cons r A => simp [hn r (by simp)]
  dsimp only
  rw [hcol]
  split_ifs with h
  · obtain ⟨h1, h2⟩ := h
    have hn3 : n = 3 := by
      obtain ⟨r, A, rfl⟩ := List.exists_cons_of_ne_nil hne
      rw [← hn r (by simp)]
      rcases h2 r (by simp) with h | h <;> rw [h] <;> rfl
    subst hn3
    refine ⟨rfl, ?_, ?_⟩
    · intro v hv
      simp only [List.mem_cons, List.not_mem_nil, or_false] at hv
      rcases hv with rfl | rfl | rfl <;> rfl
    · intro v hv r hr
      rw [h1] at hv
      simp only [List.drop_succ_cons, List.drop_zero, List.mem_singleton] at hv
      subst hv
      rcases h2 r hr with h | h <;> rw [h] <;> norm_num [weighted]
  · refine ⟨by simp, ?_, ?_⟩
    · intro v hv
      rw [List.eq_of_mem_replicate hv]; simp
    · intro v hv r _
      rw [List.eq_of_mem_replicate (List.mem_of_mem_drop hv)]
      unfold weighted
      apply List.sum_eq_zero
      intro x hx
      obtain ⟨j, hj, hx⟩ := List.mem_iff_getElem.1 hx
      rw [List.getElem_zipWith, List.getElem_replicate, mul_zero] at hx
      exact hx.symm

/-- The hypotheses of the theorems above are met by the three-point stencil of the first derivative. -/
theorem three_point_layer : ∃ pc, mkPolyConstraint solveAny svdSample [[-1, 0, 1]] [1] .finiteDifference [1] 1 1 none = .ok pc ∧
    pc.nullspaceSize = 1 ∧ pc.nullspace = [[1, -2, 1]] ∧ pc.bias.length = 3 := by
  obtain ⟨rows, hr, hlen, hmem⟩ := three_point_rows 1 (Or.inl rfl)
  obtain ⟨rows2, hr2, hlen2, hmem2⟩ := three_point_rows 2 (Or.inr rfl)
  obtain ⟨c, hc⟩ := solveAny_ok (rows := rows2) [-1 / 2, 0, 1 / 2] (by
    intro q hq
    rcases hmem2 q hq with h | h | h <;> rw [h] <;> norm_num [weighted])
  have hcoef : ∃ b, polynomialAccuracyCoefficients solveAny [[-1, 0, 1]] .finiteDifference [1] (some 1) (some 1) = .ok b := by
    unfold polynomialAccuracyCoefficients
    have e1 : highOrderCoefficients solveAny [-1, 0, 1] .finiteDifference 1 (some 1) = .ok c := by
      unfold highOrderCoefficients
      have : (([-1, 0, 1] : List ℝ).length : ℤ) - (1 : ℕ) = 2 := by norm_num
      rw [this, hr2]
      exact hc
    have e2 : axisCoefficients solveAny .finiteDifference (some 1) (some 1) [[-1, 0, 1]] [1] = .ok [c] := by
      have sl : pySliceList ([-1, 0, 1] : List ℝ) (coefficientSlice ([-1, 0, 1] : List ℝ).length 1 (some 1)).1
          (coefficientSlice ([-1, 0, 1] : List ℝ).length 1 (some 1)).2 = [-1, 0, 1] := rfl
      simp only [axisCoefficients, sl, e1, bind, Except.bind, pure, Except.pure]
    rw [e2]
    exact ⟨_, rfl⟩
  obtain ⟨b, hb⟩ := hcoef
  have hex := coefficients_exact solveAny_solves (d := 1) Nat.one_pos (termFn .finiteDifference 0) (fun e st => lhsTerm_fd (some 1) e st)
    (fun _ => [-1, 0, 1]) (fun _ => 1) 1 le_rfl (by intro a; norm_num) (bias := b) (by simpa using hb)
  have hbl : b.length = 3 := by rw [hex.1]; rfl
  have hres : residualNorm rows b = 0 := by
    apply residualNorm_eq_zero
    intro q hq
    have hr' : polynomialAccuracyConstraints (List.ofFn fun _ : Fin 1 => ([-1, 0, 1] : List ℝ)) .finiteDifference (List.ofFn fun _ : Fin 1 => 1) 1 (some 1) = .ok rows := by
      simpa using hr
    obtain ⟨e, he, rfl⟩ := (constraints_iff Nat.one_pos (termFn .finiteDifference 0) (fun e st => lhsTerm_fd (some 1) e st) hr' q).1 hq
    exact hex.2 e he
  have hlen' : rows.length = 2 := by omega
  -- both rows occur, but the third monomial does not
  have hmem' : ∀ q ∈ rows, q.1 = [1, 1, 1] ∨ q.1 = [-1, 0, 1] := by
    intro q hq
    have hr' : polynomialAccuracyConstraints (List.ofFn fun _ : Fin 1 => ([-1, 0, 1] : List ℝ)) .finiteDifference (List.ofFn fun _ : Fin 1 => 1) 1 (some 1) = .ok rows := by
      simpa using hr
    obtain ⟨e, he, rfl⟩ := (constraints_iff Nat.one_pos (termFn .finiteDifference 0) (fun e st => lhsTerm_fd (some 1) e st) hr' q).1 hq
    simp only [Fin.sum_univ_one] at he
    have he' : e 0 = 0 ∨ e 0 = 1 := by omega
    rcases he' with h0 | h0
    · left; simp [stencilPoints, cartesian, termFn, h0]
    · right; simp [stencilPoints, cartesian, termFn, h0]
  have hcol : ((rows.map fun q => q.1.length).head?).getD 0 = 3 := by
    cases rows with
    | nil => simp at hlen'
    | cons q rows =>
      rcases hmem' q (by simp) with h | h <;> simp [h]
  have hsvd : svdSample (rows.map fun q => q.1) = [[0, 0, 0], [0, 0, 0], [1, -2, 1]] := by
    unfold svdSample
    dsimp only
    rw [if_pos]
    refine ⟨by simp [hlen'], ?_⟩
    intro r hr
    obtain ⟨q, hq, rfl⟩ := List.mem_map.1 hr
    exact hmem' q hq
  refine ⟨{ bias := b, nullspace := [[1, -2, 1]], nullspaceSize := 1 }, ?_, rfl, rfl, hbl⟩
  unfold mkPolyConstraint
  rw [if_neg (by simp)]
  have e : ([1] : List ℝ).dedup.getD 0 0 = 1 := by simp
  dsimp only
  rw [e, hr, hb]
  simp only [bind, Except.bind]
  unfold finishPolyConstraint
  dsimp only
  rw [hcol, hlen', hres, hsvd, hbl]
  rw [if_neg (by simp), if_neg (by norm_num), if_neg (by norm_num)]
  have : pySliceList ([[0, 0, 0], [0, 0, 0], [1, -2, 1]] : List (List ℝ)) (-(((3 : ℕ) : ℤ) - ((2 : ℕ) : ℤ)))
      ([[0, 0, 0], [0, 0, 0], [1, -2, 1]] : List (List ℝ)).length = [[1, -2, 1]] := by
    rfl
  rw [this]
  norm_num

/-- Every logit gives coefficients whose weighted sum of the samples of `x` is its derivative. -/
example (t : ℝ) : ∃ pc c, mkPolyConstraint solveAny svdSample [[-1, 0, 1]] [1] .finiteDifference [1] 1 1 none = .ok pc ∧
    pc.apply [t] = .ok c ∧ weighted ((stencilPoints fun _ : Fin 1 => ([-1, 0, 1] : List ℝ)).map fun x => MvPolynomial.eval x (MvPolynomial.X 0)) c =
      derivAtZero (fun _ : Fin 1 => 1) (MvPolynomial.X 0) := by
  obtain ⟨pc, h1, h2, h3, h4⟩ := three_point_layer
  obtain ⟨c, hc, -, hx⟩ := C52_constraint_layer_finite_difference solveAny solveAny_solves svdSample svdSample_null (d := 1) Nat.one_pos
    (fun _ => [-1, 0, 1]) (fun _ => 1) [1] 1 1 le_rfl (by intro a; norm_num) pc (by simpa using h1) (by omega) [t] (by rw [h2]; rfl)
  exact ⟨pc, c, h1, hc, hx _ (by rw [MvPolynomial.totalDegree_X]; norm_num)⟩

end JaxCfd
