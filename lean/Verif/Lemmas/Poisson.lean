import Verif.Lemmas.Solvers

/-!
The Poisson problem of the pressure: the kernel of the discrete Laplacian and the pseudo-inverse.
-/

set_option linter.unusedSectionVars false

namespace JaxCfd
variable {d : ℕ}

/-- Neighbouring entries are equal, so all entries are equal. -/
theorem const_of_step {K : Type} {s : Fin d → ℕ} {f : Idx d → K}
    (h : ∀ a (i : Idx d), InR s i → i a + 1 < s a → f (Function.update i a (i a + 1)) = f i) {i j : Idx d}
    (hi : InR s i) (hj : InR s j) : f i = f j := by
  have h1 : ∀ a (i : Idx d), InR s i → ∀ k : ℕ, (k : ℤ) < s a → f (Function.update i a k) = f (Function.update i a 0) := by
    intro a i hi k
    induction k with
    | zero => intro _; rfl
    | succ k ih =>
      intro hk
      rw [← ih (by push_cast at hk; omega)]
      have hI : InR s (Function.update i a (k : ℤ)) := hi.update a (by omega) (by push_cast at hk; omega)
      have := h a _ hI (by rw [Function.update_self]; push_cast at hk; omega)
      rw [Function.update_self, Function.update_idem] at this
      rw [← this]; push_cast; rfl
  have h2 : ∀ a (i : Idx d), InR s i → ∀ k : ℤ, 0 ≤ k → k < s a → f (Function.update i a k) = f i := by
    intro a i hi k k0 k1
    obtain ⟨n, rfl⟩ := Int.eq_ofNat_of_zero_le k0
    rw [h1 a i hi n k1]
    obtain ⟨m, hm⟩ := Int.eq_ofNat_of_zero_le (hi a).1
    have := h1 a i hi m (by rw [← hm]; exact (hi a).2)
    rw [← this, ← hm, update_get]
  have h3 : ∀ S : Finset (Fin d), InR s (fun b => if b ∈ S then j b else i b) ∧ f (fun b => if b ∈ S then j b else i b) = f i := by
    intro S
    induction S using Finset.induction_on with
    | empty => simpa using hi
    | insert a S ha ih =>
      have e : (fun b => if b ∈ insert a S then j b else i b) =
          Function.update (fun b => if b ∈ S then j b else i b) a (j a) := by
        funext b
        by_cases hb : b = a
        · subst hb; simp
        · simp [hb]
      rw [e]
      refine ⟨ih.1.update a (hj a).1 (hj a).2, ?_⟩
      rw [h2 a _ ih.1 _ (hj a).1 (hj a).2, ih.2]
  have := (h3 Finset.univ).2
  simpa using this.symm

theorem kronSum_sub {K : Type} [Field K] (s : Fin d → ℕ) (M : Fin d → ℤ → ℤ → K) (x y : Idx d → K) (i : Idx d) :
    kronSum s M (fun i => x i - y i) i = kronSum s M x i - kronSum s M y i := by
  unfold kronSum
  simp only [mul_sub, Finset.sum_sub_distrib]

variable [HasNan ℝ]

namespace VelocityField
variable {g : Grid d ℝ} {v : Fin d → GridVariable d ℝ}

theorem pvar_interior (q : Idx d → ℝ) (a : Fin d) : (pvar g v q).interior a = g.shape a := by
  unfold GridVariable.interior
  rw [if_neg]
  · rfl
  · rintro ⟨h, -⟩
    rcases pbc_types v a with e | e
    · exact absurd (h.symm.trans e) (by decide)
    · exact absurd (h.symm.trans e) (by decide)

theorem pvar_homogeneous (q : Idx d → ℝ) : (pvar g v q).HomogeneousWalls := fun _ _ => rfl

/-- The matrices of the pressure problem. -/
theorem pressure_matrices (h : VelocityField g v) (hN : ∀ a, 3 ≤ g.shape a) :
    ∃ ms, laplacianMatrixWB g (fun _ => 1 / 2) (pbc v) = .ok ms ∧
      (∀ a, (ms a).rows = g.shape a ∧ (ms a).Symmetric ∧
        ((v a).bc.types a = (.periodic, .periodic) → (ms a).Circulant)) ∧
      ∀ (x : Idx d → ℝ) (i : Idx d), InR g.shape i → kronSum g.shape (fun a => (ms a).e) x i =
        ∑ a, ((pvar g v x).above a i + (pvar g v x).below a i - 2 * x i) / g.step a ^ 2 := by
  obtain ⟨ms, h1, h2, h3⟩ := matrices (u := pvar g v fun _ => 0) (h.pvar_centered _).1 hN
  refine ⟨ms, h1, fun a => ⟨(h2 a).1.trans (pvar_interior _ a), (h2 a).2.1, fun hp => (h2 a).2.2 ?_⟩, fun x i hi => ?_⟩
  · simp [pvar, pbc, homogeneousBC, hp]
  · unfold kronSum
    refine Finset.sum_congr rfl fun a _ => ?_
    have := h3 x a (fun _ => rfl) i (hi a).1 (by rw [pvar_interior]; exact (hi a).2)
    rw [pvar_interior] at this
    exact this

/-- The kernel of the Laplacian consists of the constants. -/
theorem kernel (hs : ∀ a, g.step a ≠ 0) {e : Idx d → ℝ}
    (he : ∀ i : Idx d, InR g.shape i → ∑ a, ((pvar g v e).above a i + (pvar g v e).below a i - 2 * e i) / g.step a ^ 2 = 0)
    {i j : Idx d} (hi : InR g.shape i) (hj : InR g.shape j) : e i = e j := by
  have hz : ∑ a, ∑ i ∈ box g.shape, grad g v e a i ^ 2 = 0 := by
    rw [grad_energy, neg_eq_zero]
    exact Finset.sum_eq_zero fun j hj => by rw [he j (mem_box.1 hj), mul_zero]
  refine const_of_step (s := g.shape) (fun a i hi hl => ?_) hi hj
  have h1 := (Finset.sum_eq_zero_iff_of_nonneg (fun a _ => Finset.sum_nonneg fun i _ => sq_nonneg _)).1 hz a
    (Finset.mem_univ _)
  have h2 := (Finset.sum_eq_zero_iff_of_nonneg (fun i _ => sq_nonneg _)).1 h1 i (mem_box.2 hi)
  rw [pow_eq_zero_iff two_ne_zero] at h2
  unfold grad at h2
  rw [div_eq_zero_iff, or_iff_left (hs a), sub_eq_zero, pvar_above] at h2
  by_cases hp : (v a).bc.types a = (.periodic, .periodic)
  · rw [if_pos hp] at h2
    rw [← h2]
    unfold rollIdx
    have := hi a
    rw [Int.emod_eq_of_lt (by omega) (by omega)]
  · rw [if_neg hp, if_pos hl] at h2; exact h2

theorem sum_laplacian (h : VelocityField g v) (q : Idx d → ℝ) :
    ∑ i ∈ box g.shape, ∑ a, ((pvar g v q).above a i + (pvar g v q).below a i - 2 * q i) / g.step a ^ 2 = 0 := by
  obtain ⟨r, hr, hrs, hrd⟩ := laplacian_supported (pvar g v q) (h.pvar_centered q).1
  have := C22_neumann_sum_zero (pvar g v q) (h.pvar_centered q) (pbc_types v) r hr
  rw [NArr.sum, show r.shape = g.shape from hrs] at this
  rw [← this]
  exact Finset.sum_congr rfl fun i hi => (hrd i (mem_box.1 hi)).symm

/-- The number of cells. -/
def cells (g : Grid d ℝ) : ℝ := ∏ b, (g.shape b : ℝ)

theorem cells_eq (g : Grid d ℝ) : cells g = ((box g.shape).card : ℝ) := by
  unfold cells box
  rw [Fintype.card_piFinset]
  push_cast
  exact Finset.prod_congr rfl fun b _ => by simp

theorem cells_pos (h : VelocityField g v) : 0 < cells g :=
  Finset.prod_pos fun b _ => by exact_mod_cast h.1 b

/-- The pseudo-inverse solves the Poisson problem up to the mean of the right-hand side. -/
theorem pinv_solves (h : VelocityField g v) (hN : ∀ a, 3 ≤ g.shape a) (hs : ∀ a, g.step a ≠ 0)
    {tpu : Bool} {eigh : EighFn ℝ} {cutoff : ℝ} {ms : Fin d → Mat ℝ} {circulant : Bool} {impl : Option Impl}
    {P : NArr d ℝ → Except Err (NArr d ℝ)} (hms : laplacianMatrixWB g (fun _ => 1 / 2) (pbc v) = .ok ms)
    (hT : pseudoinverse tpu eigh cutoff (List.ofFn ms) true circulant impl = .ok P)
    (hP : Promised eigh (List.ofFn ms) true circulant)
    (h0 : 0 ≤ cutoff) (hcut : ∀ z, IsEigenvalueSum d (List.ofFn ms) z → ‖z‖ ≤ cutoff → z = 0)
    (x : NArr d ℝ) (hx : x.shape = g.shape) :
    ∃ r, P x = .ok r ∧ r.shape = g.shape ∧ ∀ i : Idx d, InR g.shape i →
      ∑ a, ((pvar g v r.data).above a i + (pvar g v r.data).below a i - 2 * r.data i) / g.step a ^ 2 =
        x.data i - x.sum / cells g := by
  obtain ⟨ms', e, hm, hL⟩ := h.pressure_matrices hN
  rw [hms] at e
  injection e with e
  subst e
  have hx' : List.ofFn x.shape = (List.ofFn ms).map Mat.rows := by
    rw [List.map_ofFn, hx]
    exact congrArg List.ofFn (funext fun a => (hm a).1.symm)
  obtain ⟨p, hp⟩ := exists_poly (d := d) (List.ofFn ms) (pinvFn cutoff) (fun z _ => pinvFn_conj z)
  obtain ⟨w, vv, ev, hD⟩ := transform_diag hT hP x.shape hx'
  obtain ⟨hl, hr⟩ := opAt_rows hx'
  obtain ⟨r, b1, b2, b3⟩ := C35_function_of_operator hT hP x hx' p hp
  refine ⟨r, b1, b2.trans hx, ?_⟩
  have hsep : (separable (List.ofFn ms) : (Idx d → ℝ) → Idx d → ℝ) = kronSum g.shape fun a => (ms a).e := by
    rw [separable_eq hr, hx]
    congr 1
    funext a
    rw [opAt_ofFn]
  have pc := fun (a b : Polynomial ℝ) (x : Idx d → ℝ) h => hD.poly_congr hr a b x h
  rw [hsep] at pc b3
  rw [hx] at pc b3
  have key : ∀ i : Idx d, InR g.shape i → kronSum g.shape (fun a => (ms a).e)
      (fun i => kronSum g.shape (fun a => (ms a).e) r.data i - x.data i) i = 0 := by
    intro i hi
    rw [kronSum_sub, sub_eq_zero]
    have e1 : BoxEq g.shape (kronSum g.shape (fun a => (ms a).e) r.data) _ := kronSum_congr b3
    have e2 := kronSum_congr (M := fun a => (ms a).e) e1 i hi
    rw [e2, ← polyApply_X, ← polyApply_X, ← polyApply_mul, ← polyApply_mul, ← polyApply_X]
    refine pc _ _ _ (fun z hz => ?_) i hi
    rw [map_mul, map_mul, Polynomial.aeval_X, ← hp z hz]
    unfold pinvFn
    by_cases hz0 : z = 0
    · rw [hz0]; ring
    · rw [if_pos (by by_contra hle; exact hz0 (hcut z hz (not_lt.1 hle)))]
      field_simp
  have hk := fun {i j : Idx d} (hi : InR g.shape i) (hj : InR g.shape j) =>
    kernel (v := v) hs (e := fun i => kronSum g.shape (fun a => (ms a).e) r.data i - x.data i)
      (fun i hi => by rw [← hL _ i hi]; exact key i hi) hi hj
  intro i hi
  rw [← hL _ i hi]
  have hsum : ∑ j ∈ box g.shape, (kronSum g.shape (fun a => (ms a).e) r.data j - x.data j) = - x.sum := by
    rw [Finset.sum_sub_distrib, Finset.sum_congr rfl (fun j hj => hL r.data j (mem_box.1 hj)), h.sum_laplacian, zero_sub,
      NArr.sum, hx]
  have hc : ∑ j ∈ box g.shape, (kronSum g.shape (fun a => (ms a).e) r.data j - x.data j) =
      cells g * (kronSum g.shape (fun a => (ms a).e) r.data i - x.data i) := by
    rw [Finset.sum_congr rfl (fun j hj => hk (mem_box.1 hj) hi), Finset.sum_const, nsmul_eq_mul, cells_eq]
  have hcp := h.cells_pos
  rw [hsum] at hc
  have : kronSum g.shape (fun a => (ms a).e) r.data i - x.data i = - x.sum / cells g := by
    rw [hc]; field_simp
  linear_combination this

/-- The transformed right-hand side differs from the original by a constant, which is its mean if there is a Neumann axis. -/
theorem pressureRhs_eq (bc : BC d ℝ) (u : GridArray d ℝ) (hpos : 0 < ∏ b, (u.shape b : ℝ)) :
    (pressureRhs u bc).shape = u.shape ∧ ∃ c, (∀ i, (pressureRhs u bc).data i = u.data i - c) := by
  unfold pressureRhs
  have : ∀ (l : List (Fin d)) (x : NArr d ℝ), x.shape = u.shape → (∃ c, ∀ i, x.data i = u.data i - c) →
      (l.foldl (subtractMean bc) x).shape = u.shape ∧ ∃ c, ∀ i, (l.foldl (subtractMean bc) x).data i = u.data i - c := by
    intro l
    induction l with
    | nil => intro x h1 h2; exact ⟨h1, h2⟩
    | cons a l ih =>
      intro x h1 h2
      refine ih _ ?_ ?_
      · unfold subtractMean; split_ifs <;> exact h1
      · unfold subtractMean
        split_ifs
        · obtain ⟨c, hc⟩ := h2
          exact ⟨c + x.sum / (∏ b, (x.shape b : ℝ)), fun i => by show x.data i - _ = _; rw [hc]; ring⟩
        · exact h2
  exact this _ _ rfl ⟨0, fun i => by simp⟩

end VelocityField
end JaxCfd
