import Verif.Model.Polynomial
import Verif.Lemmas.Patches
import Verif.SpecPoly
import Mathlib.Algebra.BigOperators.Fin
import Mathlib.Data.List.FinRange

/-! Lemmas about polynomial accuracy constraints. -/

namespace JaxCfd
variable {d : ℕ}

/-! ### exponents -/

theorem mem_exponentsUpToDegree (degree num : ℕ) (e : List ℕ) :
    e ∈ exponentsUpToDegree degree num ↔ e.length = num ∧ e.sum ≤ degree := by
  induction num generalizing degree e with
  | zero =>
    simp only [exponentsUpToDegree, List.mem_singleton]
    constructor
    · rintro rfl; simp
    · rintro ⟨h, -⟩; exact List.length_eq_zero_iff.1 h
  | succ num ih =>
    simp only [exponentsUpToDegree, List.mem_flatMap, List.mem_range, List.mem_map]
    constructor
    · rintro ⟨k, hk, r, hr, rfl⟩
      rw [ih] at hr
      simp only [List.length_cons, List.sum_cons]
      omega
    · rintro ⟨h1, h2⟩
      cases e with
      | nil => simp at h1
      | cons k r =>
        simp only [List.length_cons, List.sum_cons] at h1 h2
        exact ⟨k, by omega, r, (ih _ _).2 ⟨by omega, by omega⟩, rfl⟩

theorem nodup_exponentsUpToDegree (degree num : ℕ) : (exponentsUpToDegree degree num).Nodup := by
  induction num generalizing degree with
  | zero => simp [exponentsUpToDegree]
  | succ num ih =>
    rw [exponentsUpToDegree, List.nodup_flatMap]
    refine ⟨fun k _ => (ih _).map (fun a b h => by simpa using h), ?_⟩
    refine (List.nodup_range (n := degree + 1)).imp ?_
    intro a b hab
    simp only [Function.onFun]
    intro x hx hy
    rw [List.mem_map] at hx hy
    obtain ⟨r, -, rfl⟩ := hx
    obtain ⟨r', -, h⟩ := hy
    injection h with h1
    exact hab h1.symm

/-! ### Kronecker products -/

theorem kron_one_right (l : List ℝ) : kron l [1] = l := by
  induction l with
  | nil => rfl
  | cons x l ih => simp [kron] at ih ⊢

theorem kron_assoc (a b c : List ℝ) : kron (kron a b) c = kron a (kron b c) := by
  simp only [kron, List.flatMap_assoc, List.flatMap_map, List.map_flatMap, List.map_map]
  congr 1
  funext x
  congr 1
  funext y
  congr 1
  funext z
  simp [mul_assoc]

/-- The Kronecker product of a list of arrays, from the right. -/
def kronR : List (List ℝ) → List ℝ
  | [] => [1]
  | l :: ls => kron l (kronR ls)

theorem foldl_kron (l : List ℝ) (ls : List (List ℝ)) : ls.foldl kron l = kron l (kronR ls) := by
  induction ls generalizing l with
  | nil => simp [kronR, kron_one_right]
  | cons m ls ih => rw [List.foldl_cons, ih, kron_assoc, kronR]

theorem kroneckerProduct_ok (ls : List (List ℝ)) (h : ls ≠ []) : kroneckerProduct ls = .ok (kronR ls) := by
  cases ls with
  | nil => exact absurd rfl h
  | cons l ls => simp only [kroneckerProduct, foldl_kron, kronR]

theorem kronR_cartesian {α : Type} (z : α) (st : Fin d → List α) (f : Fin d → α → ℝ) :
    kronR (List.ofFn fun a => (st a).map (f a)) = (cartesian (List.ofFn st)).map fun l => ∏ a : Fin d, f a (l.getD a z) := by
  induction d with
  | zero => simp [kronR, cartesian]
  | succ d ih =>
    rw [List.ofFn_succ, List.ofFn_succ, kronR, cartesian, ih (fun a => st a.succ) (fun a => f a.succ)]
    simp only [kron, List.flatMap_map, List.map_flatMap, List.map_map]
    congr 1
    funext x
    apply List.map_congr_left
    intro l _
    simp only [Function.comp_apply, Fin.prod_univ_succ]
    rfl

theorem kronR_ofFn (st : Fin d → List ℝ) (f : Fin d → ℝ → ℝ) :
    kronR (List.ofFn fun a => (st a).map (f a)) = (stencilPoints st).map fun x => ∏ a, f a (x a) := by
  unfold stencilPoints
  rw [List.map_map]
  exact kronR_cartesian 0 st f

/-! ### derivatives and averages of polynomials -/

theorem iterate_pderiv_monomial (a : Fin d) (k : ℕ) (s : Fin d →₀ ℕ) (c : ℝ) :
    (MvPolynomial.pderiv a)^[k] (MvPolynomial.monomial s c) =
      MvPolynomial.monomial (s - Finsupp.single a k) (c * ((s a).descFactorial k : ℕ)) := by
  induction k with
  | zero => simp
  | succ k ih =>
    rw [Function.iterate_succ_apply', ih, MvPolynomial.pderiv_monomial]
    congr 1
    · rw [tsub_tsub, ← Finsupp.single_add]
    · rw [Nat.descFactorial_succ]
      simp only [Finsupp.coe_tsub, Pi.sub_apply, Finsupp.single_eq_same, Nat.cast_mul]
      ring

theorem foldr_pderiv_monomial (m : Fin d → ℕ) (l : List (Fin d)) (hl : l.Nodup) (s : Fin d →₀ ℕ) (c : ℝ) :
    ∃ s' : Fin d →₀ ℕ, l.foldr (fun a q => (MvPolynomial.pderiv a)^[m a] q) (MvPolynomial.monomial s c) =
      MvPolynomial.monomial s' (c * (l.map fun a => (((s a).descFactorial (m a) : ℕ) : ℝ)).prod) ∧
      ∀ a, s' a = if a ∈ l then s a - m a else s a := by
  induction l with
  | nil => exact ⟨s, by simp, fun a => by simp⟩
  | cons b l ih =>
    obtain ⟨hb, hl⟩ := List.nodup_cons.1 hl
    obtain ⟨s', h1, h2⟩ := ih hl
    refine ⟨s' - Finsupp.single b (m b), ?_, ?_⟩
    · rw [List.foldr_cons, h1, iterate_pderiv_monomial, h2 b, if_neg hb, List.map_cons, List.prod_cons]
      congr 1
      ring
    · intro a
      rw [Finsupp.coe_tsub, Pi.sub_apply, h2 a]
      by_cases hab : a = b
      · subst hab
        simp [hb]
      · rw [Finsupp.single_eq_of_ne hab]
        simp [hab]

theorem derivAtZero_monomial (m : Fin d → ℕ) (s : Fin d →₀ ℕ) (c : ℝ) :
    derivAtZero m (MvPolynomial.monomial s c) = c * ∏ a, rhsTerm (s a) (m a) := by
  unfold derivAtZero
  obtain ⟨s', h1, h2⟩ := foldr_pderiv_monomial m (List.finRange d) (List.nodup_finRange d) s c
  rw [h1, MvPolynomial.eval_monomial]
  simp only [List.mem_finRange, if_true] at h2
  have hl : ((List.finRange d).map fun a => (((s a).descFactorial (m a) : ℕ) : ℝ)).prod = ∏ a, (((s a).descFactorial (m a) : ℕ) : ℝ) := by
    rw [← List.ofFn_eq_map, List.prod_ofFn]
  rw [hl, Finsupp.prod_fintype _ _ (fun i => pow_zero _), mul_assoc, ← Finset.prod_mul_distrib]
  congr 1
  apply Finset.prod_congr rfl
  intro a _
  rw [h2 a]
  unfold rhsTerm
  simp only [Pi.zero_apply]
  rcases lt_trichotomy (s a) (m a) with h | h | h
  · rw [Nat.descFactorial_of_lt h, if_neg (by omega)]; simp
  · rw [h, Nat.descFactorial_self, if_pos rfl]; simp
  · rw [if_neg (by omega), zero_pow (by omega), mul_zero]

theorem derivAtZero_add (m : Fin d → ℕ) (p q : MvPolynomial (Fin d) ℝ) : derivAtZero m (p + q) = derivAtZero m p + derivAtZero m q := by
  unfold derivAtZero
  have : ∀ l : List (Fin d), l.foldr (fun a q => (MvPolynomial.pderiv a)^[m a] q) (p + q) =
      l.foldr (fun a q => (MvPolynomial.pderiv a)^[m a] q) p + l.foldr (fun a q => (MvPolynomial.pderiv a)^[m a] q) q := by
    intro l
    induction l with
    | nil => rfl
    | cons a l ih =>
      simp only [List.foldr_cons, ih]
      generalize l.foldr _ p = u
      generalize l.foldr _ q = v
      induction m a generalizing u v with
      | zero => rfl
      | succ k ihk => simp only [Function.iterate_succ_apply, map_add, ihk]
  rw [this, map_add]

theorem derivAtZero_zero (m : Fin d → ℕ) : derivAtZero m (0 : MvPolynomial (Fin d) ℝ) = 0 := by
  have := derivAtZero_add m 0 0
  simpa using this

theorem derivAtZero_sum (m : Fin d → ℕ) {ι : Type} (S : Finset ι) (p : ι → MvPolynomial (Fin d) ℝ) :
    derivAtZero m (∑ i ∈ S, p i) = ∑ i ∈ S, derivAtZero m (p i) := by
  classical
  induction S using Finset.induction_on with
  | empty => simp [derivAtZero_zero]
  | insert a S ha ih => rw [Finset.sum_insert ha, Finset.sum_insert ha, derivAtZero_add, ih]

/-! ### the constraints -/

/-- One axis of a constraint as a function of the position. -/
noncomputable def termFn (method : Method) (h : ℝ) (e : ℕ) (s : ℝ) : ℝ :=
  match method with
  | .finiteVolume => 1 / h * ((s + h / 2) ^ (e + 1) - (s - h / 2) ^ (e + 1)) / ((e : ℝ) + 1)
  | .finiteDifference => s ^ e

theorem lhsTerm_ok (method : Method) (h : ℝ) (e : ℕ) (st : List ℝ) : lhsTerm method (some h) e st = .ok (st.map (termFn method h e)) := by
  cases method <;> rfl

theorem lhsTerm_fd (h : Option ℝ) (e : ℕ) (st : List ℝ) : lhsTerm .finiteDifference h e st = .ok (st.map (termFn .finiteDifference 0 e)) := rfl

theorem constraintTerms_ok (method : Method) (h : Option ℝ) (g : ℕ → ℝ → ℝ) (hg : ∀ e st, lhsTerm method h e st = .ok (st.map (g e)))
    (e o : Fin d → ℕ) (st : Fin d → List ℝ) :
    constraintTerms method h (List.ofFn e) (List.ofFn st) (List.ofFn o) =
      .ok (List.ofFn fun a => (st a).map (g (e a)), List.ofFn fun a => rhsTerm (e a) (o a)) := by
  induction d with
  | zero => simp [constraintTerms]
  | succ d ih =>
    simp only [List.ofFn_succ, constraintTerms, hg, ih, bind, Except.bind, pure, Except.pure]

theorem addConstraint_mem {all all' : List (List ℝ × ℝ)} {l : List ℝ} {r : ℝ} (h : addConstraint all l r = .ok all') :
    (l, r) ∈ all' ∧ (∀ q ∈ all, q ∈ all') ∧ ∀ q ∈ all', q ∈ all ∨ q = (l, r) := by
  unfold addConstraint at h
  split at h
  · rename_i q hq
    split_ifs at h with hr
    injection h with h
    subst h
    have h1 := List.find?_some hq
    have h2 := List.mem_of_find?_eq_some hq
    simp only [decide_eq_true_eq] at h1
    push Not at hr
    refine ⟨?_, fun q h => h, fun q h => Or.inl h⟩
    rw [← h1, ← hr]
    exact h2
  · injection h with h
    subst h
    refine ⟨by simp, fun q h => by simp [h], fun q h => by simpa using h⟩

/-- Every exponent contributes its constraint, and nothing else is required. -/
theorem constraints_mem {stencils : List (List ℝ)} {method : Method} {orders : List ℕ} {acc : ℤ} {h : Option ℝ} {rows : List (List ℝ × ℝ)}
    (hr : polynomialAccuracyConstraints stencils method orders acc h = .ok rows) :
    stencils.length = orders.length ∧ 1 ≤ acc ∧
    (∀ e ∈ exponentsUpToDegree (acc + (orders.sum : ℕ) - 1).toNat stencils.length,
      ∃ t l, constraintTerms method h e stencils orders = .ok t ∧ kroneckerProduct t.1 = .ok l ∧ (l, t.2.prod) ∈ rows) ∧
    ∀ q ∈ rows, ∃ e ∈ exponentsUpToDegree (acc + (orders.sum : ℕ) - 1).toNat stencils.length,
      ∃ t l, constraintTerms method h e stencils orders = .ok t ∧ kroneckerProduct t.1 = .ok l ∧ q = (l, t.2.prod) := by
  unfold polynomialAccuracyConstraints at hr
  split_ifs at hr with h1 h2
  push Not at h1 h2
  refine ⟨h1, h2, ?_⟩
  obtain ⟨all, hall, hs⟩ := Except.bind_eq_ok.1 hr
  simp only [pure, Except.pure] at hs
  injection hs with hs
  have key : ∀ (es : List (List ℕ)) (init all : List (List ℝ × ℝ)),
      es.foldlM (fun all exponents => do
        let t ← constraintTerms method h exponents stencils orders
        let lhs ← kroneckerProduct t.1
        addConstraint all lhs t.2.prod) init = .ok all →
      (∀ q ∈ init, q ∈ all) ∧
      (∀ e ∈ es, ∃ t l, constraintTerms method h e stencils orders = .ok t ∧ kroneckerProduct t.1 = .ok l ∧ (l, t.2.prod) ∈ all) ∧
      ∀ q ∈ all, q ∈ init ∨ ∃ e ∈ es, ∃ t l, constraintTerms method h e stencils orders = .ok t ∧ kroneckerProduct t.1 = .ok l ∧ q = (l, t.2.prod) := by
    intro es
    induction es with
    | nil =>
      intro init all h0
      injection h0 with h0
      subst h0
      exact ⟨fun q h => h, by simp, fun q h => Or.inl h⟩
    | cons e es ih =>
      intro init all h0
      rw [List.foldlM_cons] at h0
      obtain ⟨mid, hm, h0⟩ := Except.bind_eq_ok.1 h0
      obtain ⟨t, ht, hm⟩ := Except.bind_eq_ok.1 hm
      obtain ⟨l, hl, hm⟩ := Except.bind_eq_ok.1 hm
      obtain ⟨m1, m2, m3⟩ := addConstraint_mem hm
      obtain ⟨i1, i2, i3⟩ := ih mid all h0
      refine ⟨fun q hq => i1 q (m2 q hq), ?_, ?_⟩
      · intro e' he'
        rcases List.mem_cons.1 he' with rfl | he'
        · exact ⟨t, l, ht, hl, i1 _ m1⟩
        · exact i2 e' he'
      · intro q hq
        rcases i3 q hq with hq | ⟨e', he', hx⟩
        · rcases m3 q hq with hq | hq
          · exact Or.inl hq
          · exact Or.inr ⟨e, by simp, t, l, ht, hl, hq⟩
        · exact Or.inr ⟨e', by simp [he'], hx⟩
  obtain ⟨-, k2, k3⟩ := key _ _ _ hall
  have hmem : ∀ q, q ∈ rows ↔ q ∈ all := fun q => by rw [← hs]; exact List.mem_mergeSort
  refine ⟨?_, ?_⟩
  · intro e he
    obtain ⟨t, l, a1, a2, a3⟩ := k2 e he
    exact ⟨t, l, a1, a2, (hmem _).2 a3⟩
  · intro q hq
    rcases k3 q ((hmem _).1 hq) with hq | hx
    · simp at hq
    · exact hx

/-- The constraints in closed form. -/
theorem constraints_iff {st : Fin d → List ℝ} {method : Method} {o : Fin d → ℕ} {acc : ℤ} {h : Option ℝ} {rows : List (List ℝ × ℝ)} (hd : 0 < d)
    (g : ℕ → ℝ → ℝ) (hg : ∀ e st, lhsTerm method h e st = .ok (st.map (g e)))
    (hr : polynomialAccuracyConstraints (List.ofFn st) method (List.ofFn o) acc h = .ok rows) (q : List ℝ × ℝ) :
    q ∈ rows ↔ ∃ e : Fin d → ℕ, (∑ a, e a : ℕ) ≤ acc + (∑ a, o a : ℕ) - 1 ∧
      q = ((stencilPoints st).map fun x => ∏ a, g (e a) (x a), ∏ a, rhsTerm (e a) (o a)) := by
  obtain ⟨-, ha, h1, h2⟩ := constraints_mem hr
  have hsum : (List.ofFn o).sum = ∑ a, o a := by rw [List.sum_ofFn]
  have hlen : (List.ofFn st).length = d := by simp
  rw [hsum, hlen] at h1 h2
  have row : ∀ e : Fin d → ℕ, ∀ t l, constraintTerms method h (List.ofFn e) (List.ofFn st) (List.ofFn o) = .ok t → kroneckerProduct t.1 = .ok l →
      (l, t.2.prod) = ((stencilPoints st).map fun x => ∏ a, g (e a) (x a), ∏ a, rhsTerm (e a) (o a)) := by
    intro e t l ht hl
    rw [constraintTerms_ok method h g hg] at ht
    injection ht with ht
    subst ht
    rw [kroneckerProduct_ok _ (by rw [ne_eq, List.ofFn_eq_nil_iff]; omega)] at hl
    injection hl with hl
    rw [← hl, kronR_ofFn]
    simp only [List.prod_ofFn]
  constructor
  · intro hq
    obtain ⟨e, he, t, l, ht, hl, rfl⟩ := h2 q hq
    rw [mem_exponentsUpToDegree] at he
    have hee : List.ofFn (fun a : Fin d => e.getD a 0) = e := by
      apply List.ext_getElem
      · simp [he.1]
      · intro i h1 h2
        rw [List.getElem_ofFn, List.getD_eq_getElem _ _ h2]
    refine ⟨fun a => e.getD a 0, ?_, ?_⟩
    · have : (∑ a : Fin d, e.getD a 0) = e.sum := by rw [← List.sum_ofFn, hee]
      rw [this]
      have := he.2
      omega
    · rw [← hee] at ht
      exact row _ t l ht hl
  · rintro ⟨e, he, rfl⟩
    obtain ⟨t, l, ht, hl, hm⟩ := h1 (List.ofFn e) (by
      rw [mem_exponentsUpToDegree, List.sum_ofFn]
      refine ⟨by simp, by omega⟩)
    rw [row e t l ht hl] at hm
    exact hm

/-! ### linear functionals on polynomials -/

theorem dotL_add (f g : (Fin d → ℝ) → ℝ) (xs : List (Fin d → ℝ)) (c : List ℝ) :
    dotL (xs.map fun x => f x + g x) c = dotL (xs.map f) c + dotL (xs.map g) c := by
  induction xs generalizing c with
  | nil => simp [dotL]
  | cons x xs ih =>
    cases c with
    | nil => simp [dotL]
    | cons y c =>
      have := ih c
      simp only [dotL, List.map_cons, List.zipWith_cons_cons, List.sum_cons] at this ⊢
      rw [this]; ring

theorem dotL_smul (k : ℝ) (f : (Fin d → ℝ) → ℝ) (xs : List (Fin d → ℝ)) (c : List ℝ) :
    dotL (xs.map fun x => k * f x) c = k * dotL (xs.map f) c := by
  induction xs generalizing c with
  | nil => simp [dotL]
  | cons x xs ih =>
    cases c with
    | nil => simp [dotL]
    | cons y c =>
      have := ih c
      simp only [dotL, List.map_cons, List.zipWith_cons_cons, List.sum_cons] at this ⊢
      rw [this]; ring

theorem dotL_sum {ι : Type} (S : Finset ι) (f : ι → (Fin d → ℝ) → ℝ) (xs : List (Fin d → ℝ)) (c : List ℝ) :
    dotL (xs.map fun x => ∑ i ∈ S, f i x) c = ∑ i ∈ S, dotL (xs.map (f i)) c := by
  classical
  induction S using Finset.induction_on with
  | empty =>
    have := dotL_smul 0 (fun _ => 0) xs c
    simpa using this
  | insert a S ha ih =>
    rw [Finset.sum_insert ha, ← ih, ← dotL_add]
    congr 2
    funext x
    rw [Finset.sum_insert ha]

/-- Coefficients satisfying the constraints are exact on every polynomial of the stated degree, for any
linear functional `Λ x` (value, cell average) that takes products of powers to products of `g`. -/
theorem constraints_exact {st : Fin d → List ℝ} {method : Method} {o : Fin d → ℕ} {acc : ℤ} {h : Option ℝ} {rows : List (List ℝ × ℝ)} (hd : 0 < d)
    (g : ℕ → ℝ → ℝ) (hg : ∀ e st, lhsTerm method h e st = .ok (st.map (g e)))
    (hr : polynomialAccuracyConstraints (List.ofFn st) method (List.ofFn o) acc h = .ok rows)
    (c : List ℝ) (hc : ∀ q ∈ rows, dotL q.1 c = q.2)
    (Λ : MvPolynomial (Fin d) ℝ → (Fin d → ℝ) → ℝ)
    (hΛ : ∀ p x, Λ p x = ∑ s ∈ p.support, p.coeff s * ∏ a, g (s a) (x a))
    (p : MvPolynomial (Fin d) ℝ) (hp : (p.totalDegree : ℤ) ≤ acc + (∑ a, o a : ℕ) - 1) :
    dotL ((stencilPoints st).map (Λ p)) c = derivAtZero o p := by
  have e1 : Λ p = fun x => ∑ s ∈ p.support, p.coeff s * ∏ a, g (s a) (x a) := funext (hΛ p)
  rw [e1, dotL_sum]
  conv_rhs => rw [MvPolynomial.as_sum p, derivAtZero_sum]
  apply Finset.sum_congr rfl
  intro s hs
  rw [dotL_smul, derivAtZero_monomial]
  congr 1
  have hdeg : (∑ a, s a : ℕ) ≤ p.totalDegree := by
    have := MvPolynomial.le_totalDegree hs
    rwa [Finsupp.sum_fintype _ _ (fun _ => rfl)] at this
  have := hc _ ((constraints_iff hd g hg hr _).2 ⟨s, by omega, rfl⟩)
  exact this

theorem eval_sum_form (p : MvPolynomial (Fin d) ℝ) (x : Fin d → ℝ) :
    MvPolynomial.eval x p = ∑ s ∈ p.support, p.coeff s * ∏ a, x a ^ s a := by
  rw [MvPolynomial.eval_eq']

theorem cellAverage_form (h : ℝ) (hh : 0 < h) (p : MvPolynomial (Fin d) ℝ) (x : Fin d → ℝ) :
    cellAverage h p x = ∑ s ∈ p.support, p.coeff s * ∏ a, termFn .finiteVolume h (s a) (x a) := by
  unfold cellAverage
  simp only [eval_sum_form]
  have hint : ∀ s : Fin d →₀ ℕ, MeasureTheory.Integrable (fun y : Fin d → ℝ => p.coeff s * ∏ a, y a ^ s a)
      (MeasureTheory.volume.restrict (Set.pi Set.univ fun a => Set.Ioc (x a - h / 2) (x a + h / 2))) := by
    intro s
    apply MeasureTheory.Integrable.const_mul
    rw [MeasureTheory.volume_pi, MeasureTheory.Measure.restrict_pi_pi]
    apply MeasureTheory.Integrable.fintype_prod (f := fun a (t : ℝ) => t ^ s a)
    intro a
    exact ((continuous_pow (s a)).integrableOn_Ioc)
  rw [MeasureTheory.integral_finset_sum _ (fun s _ => hint s), Finset.mul_sum]
  apply Finset.sum_congr rfl
  intro s _
  rw [MeasureTheory.integral_const_mul, MeasureTheory.volume_pi, MeasureTheory.Measure.restrict_pi_pi,
    MeasureTheory.integral_fintype_prod_eq_prod (f := fun a (t : ℝ) => t ^ s a)]
  rw [mul_left_comm]
  congr 1
  have e : (1 / h ^ d : ℝ) = ∏ _a : Fin d, 1 / h := by simp
  rw [e, ← Finset.prod_mul_distrib]
  apply Finset.prod_congr rfl
  intro a _
  rw [← intervalIntegral.integral_of_le (by linarith), integral_pow]
  simp only [termFn]
  ring

/-! ### tensor products of coefficients -/

theorem dotL_append (a a' b b' : List ℝ) (h : a.length = a'.length) : dotL (a ++ b) (a' ++ b') = dotL a a' + dotL b b' := by
  unfold dotL
  rw [List.zipWith_append h, List.sum_append]

theorem dotL_map_mul (x y : ℝ) (b b' : List ℝ) : dotL (b.map fun t => x * t) (b'.map fun t => y * t) = x * y * dotL b b' := by
  induction b generalizing b' with
  | nil => simp [dotL]
  | cons u b ih =>
    cases b' with
    | nil => simp [dotL]
    | cons v b' =>
      have := ih b'
      simp only [dotL, List.map_cons, List.zipWith_cons_cons, List.sum_cons] at this ⊢
      rw [this]; ring

theorem dotL_kron (a a' b b' : List ℝ) (ha : a.length = a'.length) (hb : b.length = b'.length) :
    dotL (kron a b) (kron a' b') = dotL a a' * dotL b b' := by
  induction a generalizing a' with
  | nil => simp [dotL, kron]
  | cons x a ih =>
    cases a' with
    | nil => simp at ha
    | cons y a' =>
      simp only [kron, List.flatMap_cons]
      rw [dotL_append _ _ _ _ (by simp [hb]), dotL_map_mul]
      have := ih a' (by simpa using ha)
      unfold kron at this
      rw [this]
      simp only [dotL, List.zipWith_cons_cons, List.sum_cons]
      ring

theorem kronR_length (ls : List (List ℝ)) : (kronR ls).length = (ls.map List.length).prod := by
  induction ls with
  | nil => rfl
  | cons l ls ih =>
    simp only [kronR, kron, List.length_flatMap, List.length_map, List.map_cons, List.prod_cons, ih]
    simp

theorem dotL_kronR (u v : Fin d → List ℝ) (h : ∀ a, (u a).length = (v a).length) :
    dotL (kronR (List.ofFn u)) (kronR (List.ofFn v)) = ∏ a, dotL (u a) (v a) := by
  induction d with
  | zero => simp [kronR, dotL]
  | succ d ih =>
    rw [List.ofFn_succ, List.ofFn_succ, kronR, kronR, dotL_kron _ _ _ _ (h 0), ih (fun a => u a.succ) (fun a => v a.succ) (fun a => h a.succ),
      Fin.prod_univ_succ]
    rw [kronR_length, kronR_length, List.map_ofFn, List.map_ofFn]
    congr 2
    funext a
    exact h a.succ

theorem kronR_getD (c : Fin d → List ℝ) (i : Idx d) (hi : InR (fun a => (c a).length) i) :
    (kronR (List.ofFn c)).getD (ravelIdx (List.ofFn fun a => (c a).length) (List.ofFn i)).toNat 0 = ∏ a, (c a).getD (i a).toNat 0 := by
  have e := kronR_cartesian (d := d) 0 c (fun _ x => x)
  simp only [List.map_id'] at e
  have hl : (List.ofFn c).map List.length = List.ofFn fun a => (c a).length := by rw [List.map_ofFn]; rfl
  obtain ⟨b0, b1⟩ := ravelIdx_bounds (lInR_ofFn hi)
  set p := (ravelIdx (List.ofFn fun a => (c a).length) (List.ofFn i)).toNat with hp
  have hp' : (p : ℤ) = ravelIdx (List.ofFn fun a => (c a).length) (List.ofFn i) := Int.toNat_of_nonneg b0
  have hplt : p < ((List.ofFn c).map List.length).prod := by rw [hl]; omega
  rw [e, List.getD_eq_getElem _ _ (by rw [List.length_map, cartesian_length]; exact hplt), List.getElem_map]
  have e1 : (cartesian (List.ofFn c))[p]'(by rw [cartesian_length]; exact hplt) = (cartesian (List.ofFn c)).getD p [] := by
    rw [List.getD_eq_getElem]
  rw [e1, cartesian_getD 0 _ _ hplt, hl, hp', unravel_ravel (lInR_ofFn hi)]
  apply Finset.prod_congr rfl
  intro a _
  rw [zipWith_ofFn_getD 0 _ _ (by simp), ofFn_getD]

/-- One dimension: coefficients placed in the slice of a zero array see the slice only. -/
theorem dotL_padded (s : List ℝ) (f : ℝ → ℝ) (c : List ℝ) (lo hi : ℕ) (hlo : lo ≤ hi) (hhi : hi ≤ s.length) (hc : c.length = hi - lo) :
    dotL (s.map f) ((pyRange 0 s.length).map fun j => if (lo : ℤ) ≤ j ∧ j < (hi : ℤ) then c.getD (j - lo).toNat 0 else 0) =
      dotL (((s.take hi).drop lo).map f) c := by
  have key : ((pyRange 0 (s.length : ℤ)).map fun j => if (lo : ℤ) ≤ j ∧ j < (hi : ℤ) then c.getD (j - lo).toNat 0 else 0) =
      List.replicate lo 0 ++ (c ++ List.replicate (s.length - hi) 0) := by
    apply List.ext_getElem
    · rw [List.length_map, pyRange_length]
      simp [hc]
      omega
    · intro j h1 h2
      have hj : j < s.length := by rw [List.length_map, pyRange_length] at h1; simpa using h1
      rw [List.getElem_map]
      have : (pyRange 0 (s.length : ℤ))[j]'(by rw [pyRange_length]; simpa using hj) = j := by
        simp [pyRange]
      rw [this]
      by_cases g1 : j < lo
      · rw [if_neg (by omega), List.getElem_append_left (by simpa using g1)]
        simp
      · rw [List.getElem_append_right (by simpa using g1)]
        simp only [List.length_replicate]
        by_cases g2 : j < hi
        · rw [if_pos (by omega), List.getElem_append_left (by rw [hc]; omega)]
          have : ((j : ℤ) - lo).toNat = j - lo := by omega
          rw [this, List.getD_eq_getElem _ _ (by rw [hc]; omega)]
        · rw [if_neg (by omega), List.getElem_append_right (by rw [hc]; omega)]
          simp
  rw [key]
  have hs : s.map f = (s.take lo).map f ++ (((s.take hi).drop lo).map f ++ (s.drop hi).map f) := by
    rw [← List.map_append, ← List.map_append]
    congr 1
    conv_lhs => rw [← List.take_append_drop hi s]
    rw [← List.append_assoc]
    congr 1
    conv_lhs => rw [← List.take_append_drop lo (s.take hi)]
    rw [List.take_take, min_eq_left hlo]
  have z : ∀ (l : List ℝ) (n : ℕ), dotL l (List.replicate n 0) = 0 := by
    intro l n
    induction l generalizing n with
    | nil => simp [dotL]
    | cons x l ih =>
      cases n with
      | zero => simp [dotL]
      | succ n =>
        have := ih n
        simp only [dotL, List.replicate_succ, List.zipWith_cons_cons, List.sum_cons, mul_zero, zero_add] at this ⊢
        exact this
  rw [hs, dotL_append _ _ _ _ (by simp; omega), dotL_append _ _ _ _ (by simp [hc]; omega), z, z]
  ring

/-- One dimension: the solution of the square system is exact up to the degree of the stencil. -/
theorem highOrder_exact {solve : List (List ℝ) → List ℝ → Except Err (List ℝ)} (hs : SolvesExactly solve) {s : List ℝ} {method : Method} {o : ℕ} {h : Option ℝ}
    (g : ℕ → ℝ → ℝ) (hg : ∀ e st, lhsTerm method h e st = .ok (st.map (g e))) {c : List ℝ}
    (hc : highOrderCoefficients solve s method o h = .ok c) :
    o < s.length ∧ c.length = s.length ∧ ∀ e < s.length, dotL (s.map (g e)) c = rhsTerm e o := by
  unfold highOrderCoefficients at hc
  obtain ⟨rows, hr, hc⟩ := Except.bind_eq_ok.1 hc
  have e1 : ([s] : List (List ℝ)) = List.ofFn (fun _ : Fin 1 => s) := by simp
  have e2 : ([o] : List ℕ) = List.ofFn (fun _ : Fin 1 => o) := by simp
  rw [e1, e2] at hr
  have hlt : o < s.length := by
    have := (constraints_mem hr).2.1
    omega
  have hpts : ∀ e, (stencilPoints fun _ : Fin 1 => s).map (fun x => ∏ a : Fin 1, g ((fun _ => e) a) (x a)) = s.map (g e) := by
    intro e
    unfold stencilPoints
    rw [← e1, List.map_map]
    simp only [cartesian, List.map_cons, List.map_nil, List.map_flatMap, Function.comp_apply, Finset.univ_unique, Fin.default_eq_zero,
      Finset.prod_singleton, Fin.val_zero, List.getD_cons_zero]
    clear * -
    induction s with
    | nil => rfl
    | cons x s ih => rw [List.flatMap_cons, ih]; rfl
  have hsol := hs rows c hc
  have hmem : ∀ e < s.length, (s.map (g e), rhsTerm e o) ∈ rows := by
    intro e he
    rw [constraints_iff Nat.one_pos g hg hr]
    refine ⟨fun _ => e, ?_, ?_⟩
    · simp; omega
    · rw [hpts]; simp
  refine ⟨hlt, ?_, ?_⟩
  · have := (hsol _ (hmem 0 (by omega))).1
    simpa using this.symm
  · intro e he
    exact (hsol _ (hmem e he)).2

theorem axisCoefficients_ok {solve : List (List ℝ) → List ℝ → Except Err (List ℝ)} {method : Method} {acc : Option ℤ} {h : Option ℝ}
    {st : Fin d → List ℝ} {o : Fin d → ℕ} {cs : List (List ℝ)}
    (hc : axisCoefficients solve method acc h (List.ofFn st) (List.ofFn o) = .ok cs) :
    ∃ c : Fin d → List ℝ, cs = List.ofFn c ∧ ∀ a, highOrderCoefficients solve
      (pySliceList (st a) (coefficientSlice (st a).length (o a) acc).1 (coefficientSlice (st a).length (o a) acc).2) method (o a) h = .ok (c a) := by
  induction d generalizing cs with
  | zero =>
    simp only [List.ofFn_zero, axisCoefficients] at hc
    injection hc with hc
    exact ⟨fun _ => [], by simp [← hc], fun a => a.elim0⟩
  | succ d ih =>
    rw [List.ofFn_succ, List.ofFn_succ] at hc
    unfold axisCoefficients at hc
    obtain ⟨c0, h0, hc⟩ := Except.bind_eq_ok.1 hc
    obtain ⟨r, hr, hc⟩ := Except.bind_eq_ok.1 hc
    simp only [pure, Except.pure] at hc
    injection hc with hc
    obtain ⟨c, hc1, hc2⟩ := ih hr
    refine ⟨Fin.cons c0 c, ?_, ?_⟩
    · rw [← hc, List.ofFn_succ, hc1]
      simp
    · intro a
      refine Fin.cases ?_ (fun a => ?_) a
      · exact h0
      · exact hc2 a

theorem zipWith_ofFn {α β γ : Type} (f : α → β → γ) (u : Fin d → α) (v : Fin d → β) :
    List.zipWith f (List.ofFn u) (List.ofFn v) = List.ofFn fun a => f (u a) (v a) := by
  apply List.ext_getElem
  · simp
  · intro i h1 h2
    simp

/-- The default bias is exact, to the accuracy asked for in every direction. -/
theorem coefficients_exact {solve : List (List ℝ) → List ℝ → Except Err (List ℝ)} (hs : SolvesExactly solve) (hd : 0 < d) {method : Method} {h : Option ℝ}
    (g : ℕ → ℝ → ℝ) (hg : ∀ e st, lhsTerm method h e st = .ok (st.map (g e)))
    (st : Fin d → List ℝ) (o : Fin d → ℕ) (acc : ℤ) (hacc : 1 ≤ acc) (hlen : ∀ a, (o a : ℤ) + acc ≤ (st a).length) {bias : List ℝ}
    (hb : polynomialAccuracyCoefficients solve (List.ofFn st) method (List.ofFn o) (some acc) h = .ok bias) :
    bias.length = (stencilPoints st).length ∧
    ∀ e : Fin d → ℕ, ((∑ a, e a : ℕ) : ℤ) ≤ acc + (∑ a, o a : ℕ) - 1 →
      dotL ((stencilPoints st).map fun x => ∏ a, g (e a) (x a)) bias = ∏ a, rhsTerm (e a) (o a) := by
  unfold polynomialAccuracyCoefficients at hb
  obtain ⟨cs, hcs, hb⟩ := Except.bind_eq_ok.1 hb
  obtain ⟨block, hblock, hb⟩ := Except.bind_eq_ok.1 hb
  simp only [pure, Except.pure] at hb
  have hb2 := Except.ok.inj hb
  obtain ⟨c, rfl, hc⟩ := axisCoefficients_ok hcs
  rw [kroneckerProduct_ok _ (by rw [ne_eq, List.ofFn_eq_nil_iff]; omega)] at hblock
  injection hblock with hblock
  -- the slices
  let x : Fin d → ℤ := fun a => ((st a).length : ℤ) - o a - acc
  have hx0 : ∀ a, 0 ≤ x a := fun a => by have := hlen a; simp only [x]; omega
  have hxn : ∀ a, 2 * (x a / 2) + 1 ≤ (st a).length := fun a => by
    have h1 := hlen a
    have h2 : 2 * (x a / 2) ≤ x a := by omega
    have h3 : x a + 1 ≤ (st a).length := by simp only [x]; omega
    omega
  have hslice : ∀ a, coefficientSlice (st a).length (o a) (some acc) = (x a / 2, ((st a).length : ℤ) - x a / 2) := fun a => rfl
  have hlo : ∀ a, clipBound (st a).length (x a / 2) = x a / 2 := fun a => by
    have := hx0 a; have := hxn a
    unfold clipBound
    rw [if_neg (by omega)]
    omega
  have hhi : ∀ a, clipBound (st a).length ((st a).length - x a / 2) = (st a).length - x a / 2 := fun a => by
    have := hx0 a; have := hxn a
    unfold clipBound
    rw [if_neg (by omega)]
    omega
  have hsl : ∀ a, pySliceList (st a) (x a / 2) ((st a).length - x a / 2) = ((st a).take ((st a).length - (x a / 2).toNat)).drop (x a / 2).toNat := by
    intro a
    unfold pySliceList
    dsimp only
    rw [hlo, hhi]
    congr 2
    have := hx0 a; have := hxn a
    omega
  simp only [hslice, hsl] at hc
  have hone := fun a => highOrder_exact hs g hg (hc a)
  have hsll : ∀ a, (((st a).take ((st a).length - (x a / 2).toNat)).drop (x a / 2).toNat).length = (st a).length - (x a / 2).toNat - (x a / 2).toNat := by
    intro a
    simp
  simp only [hsll] at hone
  -- the bias as a tensor product
  have hbias : bias = kronR (List.ofFn fun a => (pyRange 0 (st a).length).map fun j =>
      if ((x a / 2).toNat : ℤ) ≤ j ∧ j < (((st a).length - (x a / 2).toNat : ℕ) : ℤ) then (c a).getD (j - (x a / 2).toNat).toNat 0 else 0) := by
    rw [kronR_cartesian 0, ← hb2]
    rw [List.map_ofFn]
    apply List.map_congr_left
    intro l hl
    rw [zipWith_ofFn, zipWith_ofFn, zipWith_ofFn]
    simp only [hslice, hlo, hhi, List.length_ofFn]
    have hll : l.length = d := by
      have : ∀ (ls : List (List ℤ)), ∀ l ∈ cartesian ls, l.length = ls.length := by
        intro ls
        induction ls with
        | nil => intro l hl; simp [cartesian] at hl; simp [hl]
        | cons m ls ih =>
          intro l hl
          simp only [cartesian, List.mem_flatMap, List.mem_map] at hl
          obtain ⟨_, _, r, hr, rfl⟩ := hl
          simp [ih r hr]
      have := this _ l hl
      simpa using this
    have hcond : (∀ a < d, (List.ofFn fun a => x a / 2).getD a 0 ≤ l.getD a 0 ∧ l.getD a 0 < (List.ofFn fun a => ((st a).length : ℤ) - x a / 2).getD a 0) ↔
        ∀ a : Fin d, ((x a / 2).toNat : ℤ) ≤ l.getD a 0 ∧ l.getD a 0 < (((st a).length - (x a / 2).toNat : ℕ) : ℤ) := by
      constructor
      · intro hh a
        have := hh a a.2
        rw [ofFn_getD, ofFn_getD] at this
        have := hx0 a; have := hxn a
        omega
      · intro hh a ha
        have := hh ⟨a, ha⟩
        have e1 := ofFn_getD (fun a => x a / 2) ⟨a, ha⟩
        have e2 := ofFn_getD (fun a => ((st a).length : ℤ) - x a / 2) ⟨a, ha⟩
        dsimp only at e1 e2 this
        rw [e1, e2]
        have := hx0 ⟨a, ha⟩; have := hxn ⟨a, ha⟩
        omega
    by_cases hin : ∀ a : Fin d, ((x a / 2).toNat : ℤ) ≤ l.getD a 0 ∧ l.getD a 0 < (((st a).length - (x a / 2).toNat : ℕ) : ℤ)
    · rw [if_pos (hcond.2 hin)]
      have e1 : List.zipWith (fun i l => i - l) l (List.ofFn fun a => x a / 2) = List.ofFn fun a : Fin d => l.getD a 0 - x a / 2 := by
        conv_lhs => rw [← ofFn_getD_list l hll]
        rw [zipWith_ofFn]
      have e2 : (List.ofFn fun a => (((st a).length : ℤ) - x a / 2 - x a / 2).toNat) = List.ofFn fun a => (c a).length := by
        congr 1
        funext a
        rw [(hone a).2.1]
        have := hx0 a; have := hxn a
        omega
      rw [e1, e2, ← hblock, kronR_getD]
      · apply Finset.prod_congr rfl
        intro a _
        rw [if_pos (hin a)]
        congr 2
        have := hx0 a
        omega
      · intro a
        have := hin a
        have := hx0 a; have := hxn a
        dsimp only
        rw [(hone a).2.1]
        omega
    · rw [if_neg (fun hh => hin (hcond.1 hh))]
      push Not at hin
      obtain ⟨a, ha⟩ := hin
      symm
      apply Finset.prod_eq_zero (Finset.mem_univ a)
      rw [if_neg]
      rintro ⟨h1, h2⟩
      have := ha h1
      omega
  constructor
  · rw [hbias, kronR_length]
    unfold stencilPoints
    rw [List.length_map, cartesian_length, List.map_ofFn, List.map_ofFn]
    congr 2
    funext a
    simp [pyRange_length]
  · intro e he
    have hax : ∀ a, dotL ((st a).map (g (e a))) ((pyRange 0 (st a).length).map fun j =>
        if ((x a / 2).toNat : ℤ) ≤ j ∧ j < (((st a).length - (x a / 2).toNat : ℕ) : ℤ) then (c a).getD (j - (x a / 2).toNat).toNat 0 else 0) =
        dotL ((((st a).take ((st a).length - (x a / 2).toNat)).drop (x a / 2).toNat).map (g (e a))) (c a) := by
      intro a
      apply dotL_padded
      · have := hx0 a; have := hxn a; omega
      · omega
      · rw [(hone a).2.1]
    rw [hbias, ← kronR_ofFn, dotL_kronR _ _ (fun a => by simp [pyRange_length])]
    simp only [hax]
    by_cases hall : ∀ a, e a < (st a).length - (x a / 2).toNat - (x a / 2).toNat
    · exact Finset.prod_congr rfl fun a _ => (hone a).2.2 (e a) (hall a)
    · push Not at hall
      obtain ⟨a, ha⟩ := hall
      -- another axis has too low an exponent
      have hea : (o a : ℤ) + acc ≤ e a := by
        have := hx0 a; have := hxn a
        have h2 : 2 * (x a / 2) ≤ x a := by omega
        have h3 : (o a : ℤ) + acc = (st a).length - x a := by simp only [x]; ring
        omega
      have hlow : ∃ b, e b < o b := by
        by_contra hno
        push Not at hno
        have h1 : ∑ b, o b + acc.toNat ≤ ∑ b, e b := by
          rw [← Finset.add_sum_erase _ _ (Finset.mem_univ a), ← Finset.add_sum_erase _ e (Finset.mem_univ a)]
          have : ∑ b ∈ Finset.univ.erase a, o b ≤ ∑ b ∈ Finset.univ.erase a, e b := Finset.sum_le_sum fun b _ => hno b
          omega
        omega
      obtain ⟨b, hb'⟩ := hlow
      have hz : rhsTerm (e b) (o b) = 0 := by unfold rhsTerm; rw [if_neg (by omega)]
      have hz' : ∏ a, rhsTerm (e a) (o a) = 0 := Finset.prod_eq_zero (Finset.mem_univ b) hz
      rw [hz']
      apply Finset.prod_eq_zero (Finset.mem_univ b)
      rw [(hone b).2.2 (e b) ((hb'.trans (hone b).1)), hz]

theorem dotL_eq_sum (xs ys : List ℝ) (h : xs.length = ys.length) :
    dotL xs ys = ∑ j ∈ Finset.range xs.length, xs.getD j 0 * ys.getD j 0 := by
  induction xs generalizing ys with
  | nil => simp [dotL]
  | cons x xs ih =>
    cases ys with
    | nil => simp at h
    | cons y ys =>
      have := ih ys (by simpa using h)
      rw [List.length_cons, Finset.sum_range_succ']
      simp only [dotL, List.zipWith_cons_cons, List.sum_cons, List.getD_cons_succ, List.getD_cons_zero] at this ⊢
      rw [this]; ring

end JaxCfd
