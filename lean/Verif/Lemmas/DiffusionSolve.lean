import Verif.Lemmas.Poincare

/-!
The implicit diffusion problem `(1 - ν dt ∇²) r = u` of `diffusion.solve_fast_diag`.
-/

set_option linter.unusedSectionVars false

namespace JaxCfd
variable {d : ℕ} [HasNan ℝ]

/-- The same variable with all wall values replaced by 0. -/
noncomputable def GridVariable.homogenized (u : GridVariable d ℝ) : GridVariable d ℝ :=
  ⟨u.array, ⟨u.bc.cls, u.bc.types, fun _ => (some 0, some 0)⟩⟩

/-- The stencil of the Laplacian at a point. -/
noncomputable def GridVariable.lapAt (u : GridVariable d ℝ) (x : Idx d → ℝ) (i : Idx d) : ℝ :=
  ∑ a, ((u.withData x).above a i + (u.withData x).below a i - 2 * x i) / u.array.grid.step a ^ 2

theorem GridVariable.homogenized_walls (u : GridVariable d ℝ) : u.homogenized.HomogeneousWalls := fun _ _ => rfl

theorem GridVariable.homogenized_eq {u : GridVariable d ℝ} (hu : u.Supported) (hh : u.HomogeneousWalls) (x : Idx d → ℝ) (i : Idx d) :
    u.homogenized.lapAt x i = u.lapAt x i := by
  unfold lapAt
  refine Finset.sum_congr rfl fun a _ => ?_
  by_cases hp : u.bc.types a = (.periodic, .periodic)
  · unfold above below
    simp only [withData, homogenized, hp, if_true]
  · have h1 : u.bc.constantValues a = (0, 0) := by simp [BC.constantValues, hh a hp]
    have h2 : u.homogenized.bc.constantValues a = (0, 0) := by simp [BC.constantValues, homogenized]
    unfold above below
    simp only [withData, h1, h2]
    rfl

/-- Trimming a supported variable removes the wall points. -/
theorem GridVariable.Supported.trim {u : GridVariable d ℝ} (hu : u.Supported) :
    u.bc.trimBoundary u.array = .ok ⟨⟨u.interior, u.array.data⟩, u.array.offset, u.array.grid⟩ := by
  have hon : BC.OnGrid u.bc u.array := by
    intro a
    obtain ⟨h1, h2, h3⟩ := hu a
    refine ⟨h1, h2, ?_⟩
    rcases h3 with h | ⟨h, h', ho⟩ | ⟨h, ho⟩
    · exact Or.inl h
    · refine Or.inr (Or.inl ⟨?_, ?_, ho⟩)
      · rcases h with h | h <;> rw [h] <;> decide
      · rcases h' with h | h <;> rw [h] <;> decide
    · exact Or.inr (Or.inr ⟨h, Or.inr ho⟩)
  rw [BC.trimBoundary_ok u.bc u.array hon.trimOK]
  have dp : ¬ (BCType.dirichlet = BCType.periodic) := by decide
  have np : ¬ (BCType.neumann = BCType.periodic) := by decide
  have ne : ¬ (1 / 2 : ℚ) = 1 := by norm_num
  have hlo : ∀ a, BC.axLo u.bc u.array a = 0 := by
    intro a
    unfold BC.axLo
    obtain ⟨h1, h2, h | ⟨h, h', ho⟩ | ⟨h, ho⟩⟩ := hu a
    · simp [h]
    · rw [ho, BC.trimLo_half]; simp
    · rw [ho, BC.trimLo_one]; simp
  have hsz : BC.axSize u.bc u.array = u.interior := by
    funext a
    unfold BC.axSize GridVariable.interior
    obtain ⟨h1, h2, h | ⟨h, h', ho⟩ | ⟨h, ho⟩⟩ := hu a
    · simp [h]
    · have hp : ¬ (u.bc.types a).1 = .periodic := by rcases h with h | h <;> rw [h] <;> assumption
      rw [if_neg hp, ho, h1, BC.trimLo_half, BC.trimHi_half, if_neg (fun hh => ne hh.2)]
      omega
    · rw [if_neg (by rw [h]; exact dp), if_pos ⟨h, ho⟩, ho, h1, BC.trimLo_one, BC.trimHi_one]
      omega
  simp [hlo, hsz]

/-- Padding interior data restores the shape and sets the wall points. -/
theorem GridVariable.Supported.repad {u : GridVariable d ℝ} (hu : u.Supported) (x : Idx d → ℝ) :
    ∃ r, u.bc.padAndImposeBC ⟨⟨u.interior, x⟩, u.array.offset, u.array.grid⟩ (some u.array.offset) = .ok ⟨r, u.bc⟩ ∧
      r.shape = u.array.shape ∧ r.offset = u.array.offset ∧ r.grid = u.array.grid ∧
      (∀ i : Idx d, InR u.interior i → r.data i = x i) ∧
      ∀ i : Idx d, InR u.array.shape i → ¬ InR u.interior i → ∃ a, u.bc.types a = (.dirichlet, .dirichlet) ∧
        u.array.offset a = 1 ∧ i a + 1 = u.array.shape a ∧ r.data i = (u.bc.constantValues a).2 := by
  have dp : ¬ (BCType.dirichlet = BCType.periodic) := by decide
  have np : ¬ (BCType.neumann = BCType.periodic) := by decide
  have pd : ¬ (BCType.periodic = BCType.dirichlet) := by decide
  have ne : ¬ (1 / 2 : ℚ) = 1 := by norm_num
  set t : GridArray d ℝ := ⟨⟨u.interior, x⟩, u.array.offset, u.array.grid⟩ with ht
  have hready : ∀ a ∈ List.finRange d, BC.PadReady u.bc u.array.offset t a := by
    intro a _
    obtain ⟨h1, h2, h | ⟨h, h', ho⟩ | ⟨h, ho⟩⟩ := hu a
    · have hi : t.shape a = t.grid.shape a := by
        simp only [ht, GridVariable.interior]
        rw [if_neg (by rintro ⟨e, -⟩; rw [h] at e; cases e), h1]
      refine ⟨h2, Or.inl ⟨?_, hi, rfl, by rw [h]; exact fun hh => pd hh.1⟩⟩
      unfold BC.isAligned; simp [h, hi]
    · have hi : t.shape a = t.grid.shape a := by
        simp only [ht, GridVariable.interior]
        rw [if_neg (by rintro ⟨-, e⟩; rw [ho] at e; exact ne e), h1]
      refine ⟨h2, Or.inl ⟨BC.isAligned_center _ _ _ ho hi, hi, rfl, ?_⟩⟩
      rintro ⟨-, hh⟩
      rw [ho] at hh; norm_num at hh
    · refine ⟨h2, Or.inr ⟨by rw [h], by rw [h], ho, ?_, Or.inr ho⟩⟩
      simp only [ht, GridVariable.interior]
      rw [if_pos ⟨h, ho⟩, h1]
  obtain ⟨r, hr, rs, ro, rg, rd⟩ := BC.padFold u.bc u.array.offset .extend _ (List.nodup_finRange d) t hready
  have hwall : ∀ (i : Idx d) a, BC.wallVal u.bc u.array.grid.shape u.array.offset a (i a) =
      if u.bc.types a = (.dirichlet, .dirichlet) ∧ u.array.offset a = 1 ∧ i a + 1 = u.array.shape a
        then some (u.bc.constantValues a).2 else none := by
    intro i a
    unfold BC.wallVal
    obtain ⟨h1, h2, h | ⟨h, h', ho⟩ | ⟨h, ho⟩⟩ := hu a
    · simp [h]
    · rw [ho, if_neg (by rintro ⟨-, e, -⟩; norm_num at e), if_neg (by rintro ⟨-, e, -⟩; norm_num at e),
        if_neg (by rintro ⟨-, e, -⟩; norm_num at e)]
    · rw [ho, if_neg (by rintro ⟨-, e, -⟩; norm_num at e), h, h1]
      by_cases hl : i a = (u.array.grid.shape a : ℤ) - 1
      · rw [if_pos ⟨rfl, rfl, hl⟩, if_pos ⟨rfl, rfl, by omega⟩]
      · rw [if_neg (fun e => hl e.2.2), if_neg (fun e => hl (by omega))]
  have hlo : ∀ a, BC.padLo u.bc u.array.offset a = 0 := by
    intro a
    unfold BC.padLo
    obtain ⟨h1, h2, h | ⟨h, h', ho⟩ | ⟨h, ho⟩⟩ := hu a
    · simp [h]
    · rw [ho, if_neg (by rintro ⟨-, e⟩; norm_num at e)]
    · rw [ho, if_neg (by rintro ⟨-, e⟩; norm_num at e)]
  have hrd : ∀ i : Idx d, InR u.array.shape i → r.data i =
      (List.finRange d).foldl (fun acc a => (BC.wallVal u.bc u.array.grid.shape u.array.offset a (i a)).getD acc) (x i) := by
    intro i hi
    rw [rd i (fun a _ => by have := hi a; rw [(hu a).1] at this; exact this)]
    congr 1
    simp [ht, hlo]
  refine ⟨r, ?_, ?_, ?_, rg, fun i hi => ?_, fun i hi hn => ?_⟩
  · unfold BC.padAndImposeBC
    simp only [Option.getD_some]
    rw [hr]; rfl
  · rw [rs]; funext a; simp [ht, (hu a).1]
  · rw [ro]; simp
  · rw [hrd i hi.of_interior]
    have hnone : ∀ a, BC.wallVal u.bc u.array.grid.shape u.array.offset a (i a) = none := by
      intro a
      rw [hwall, if_neg]
      rintro ⟨h, ho, hl⟩
      have h1 := hi a
      have h2 : u.interior a = u.array.shape a - 1 := if_pos ⟨h, ho⟩
      rw [h2] at h1
      omega
    have : ∀ (l : List (Fin d)) (y : ℝ), l.foldl (fun acc a =>
        (BC.wallVal u.bc u.array.grid.shape u.array.offset a (i a)).getD acc) y = y := by
      intro l
      induction l with
      | nil => intro y; rfl
      | cons a l ih => intro y; rw [List.foldl_cons, hnone a]; exact ih _
    exact this _ _
  · rw [hrd i hi]
    obtain ⟨a, ha⟩ : ∃ a, ¬ (0 ≤ i a ∧ i a < (u.interior a : ℤ)) := by
      by_contra hcon
      push Not at hcon
      exact hn fun a => ⟨(hcon a).1, (hcon a).2⟩
    have hia := hi a
    have hA : u.bc.types a = (.dirichlet, .dirichlet) ∧ u.array.offset a = 1 ∧ i a + 1 = u.array.shape a := by
      unfold GridVariable.interior at ha
      by_cases hc : u.bc.types a = (.dirichlet, .dirichlet) ∧ u.array.offset a = 1
      · rw [if_pos hc] at ha
        exact ⟨hc.1, hc.2, by omega⟩
      · rw [if_neg hc] at ha
        exact absurd ⟨hia.1, hia.2⟩ ha
    have key : ∀ (l : List (Fin d)) (y : ℝ), (a ∈ l ∨ ∃ b, u.bc.types b = (.dirichlet, .dirichlet) ∧
        u.array.offset b = 1 ∧ i b + 1 = u.array.shape b ∧ y = (u.bc.constantValues b).2) →
        ∃ b, u.bc.types b = (.dirichlet, .dirichlet) ∧ u.array.offset b = 1 ∧ i b + 1 = u.array.shape b ∧
        l.foldl (fun acc a => (BC.wallVal u.bc u.array.grid.shape u.array.offset a (i a)).getD acc) y =
          (u.bc.constantValues b).2 := by
      intro l
      induction l with
      | nil =>
        intro y h
        rcases h with h | h
        · cases h
        · exact h
      | cons c l ih =>
        intro y h
        rw [List.foldl_cons]
        refine ih _ ?_
        by_cases hc : u.bc.types c = (.dirichlet, .dirichlet) ∧ u.array.offset c = 1 ∧ i c + 1 = u.array.shape c
        · right
          rw [hwall, if_pos hc]
          exact ⟨c, hc.1, hc.2.1, hc.2.2, rfl⟩
        · rw [hwall, if_neg hc]
          rcases h with h | h
          · rcases List.mem_cons.1 h with e | e
            · subst e; exact absurd hA hc
            · exact Or.inl e
          · exact Or.inr h
    exact key _ _ (Or.inl (List.mem_finRange a))

/-- The stencil at an interior point only looks at interior points. -/
theorem GridVariable.Supported.lapAt_congr {u : GridVariable d ℝ} (hu : u.Supported) {x y : Idx d → ℝ}
    (h : ∀ i : Idx d, InR u.interior i → x i = y i) {i : Idx d} (hi : InR u.interior i) : u.lapAt x i = u.lapAt y i := by
  have dp : ¬ (BCType.dirichlet = BCType.periodic) := by decide
  have np : ¬ (BCType.neumann = BCType.periodic) := by decide
  have ne : ¬ (1 : ℚ) = 1 / 2 := by norm_num
  unfold GridVariable.lapAt
  refine Finset.sum_congr rfl fun a _ => ?_
  rw [h i hi]
  have hi' := hi a
  have hup : ∀ j : ℤ, 0 ≤ j → j < u.interior a → x (Function.update i a j) = y (Function.update i a j) :=
    fun j j0 j1 => h _ (hi.update a j0 j1)
  have hI : u.interior a = if u.bc.types a = (.dirichlet, .dirichlet) ∧ u.array.offset a = 1 then u.array.shape a - 1
    else u.array.shape a := rfl
  have hxi := h i hi
  congr 3
  · obtain ⟨h1, h2, hp | ⟨t1, t2, ho⟩ | ⟨ht, ho⟩⟩ := hu a
    · rw [if_neg (by rintro ⟨e, -⟩; rw [hp] at e; cases e)] at hI
      unfold GridVariable.above
      simp only [GridVariable.withData, hp, if_true]
      exact hup _ (Int.emod_nonneg _ (by omega)) (by rw [hI]; exact Int.emod_lt_of_pos _ (by omega))
    · rw [if_neg (by rintro ⟨-, e⟩; rw [ho] at e; exact ne e.symm)] at hI
      have h2p : ¬ (u.bc.types a).2 = .periodic := by rcases t2 with t | t <;> rw [t] <;> assumption
      unfold GridVariable.above
      simp only [GridVariable.withData, h2p, if_false, ho, if_true]
      by_cases hl : i a + 1 < u.array.shape a
      · simp only [hl, if_true]; exact hup _ (by omega) (by omega)
      · simp only [hl, if_false, hxi]; rfl
    · rw [if_pos ⟨ht, ho⟩] at hI
      unfold GridVariable.above
      simp only [GridVariable.withData, ht, dp, if_false, ho, ne]
      by_cases hl : i a + 2 < u.array.shape a
      · simp only [hl, if_true]; exact hup _ (by omega) (by omega)
      · simp only [hl, if_false]
  · obtain ⟨h1, h2, hp | ⟨t1, t2, ho⟩ | ⟨ht, ho⟩⟩ := hu a
    · rw [if_neg (by rintro ⟨e, -⟩; rw [hp] at e; cases e)] at hI
      unfold GridVariable.below
      simp only [GridVariable.withData, hp, if_true]
      exact hup _ (Int.emod_nonneg _ (by omega)) (by rw [hI]; exact Int.emod_lt_of_pos _ (by omega))
    · have h1p : ¬ (u.bc.types a).1 = .periodic := by rcases t1 with t | t <;> rw [t] <;> assumption
      unfold GridVariable.below
      simp only [GridVariable.withData, h1p, if_false, ho, if_true]
      by_cases hl : 0 < i a
      · simp only [hl, if_true]; exact hup _ (by omega) (by omega)
      · simp only [hl, if_false, hxi]; rfl
    · unfold GridVariable.below
      simp only [GridVariable.withData, ht, dp, if_false, ho, ne]
      by_cases hl : 0 < i a
      · simp only [hl, if_true]; exact hup _ (by omega) (by omega)
      · simp only [hl, if_false]

theorem diffusionFn_conj (nu dt : ℝ) (z : ℂ) : diffusionFn nu dt ((starRingEnd ℂ) z) = (starRingEnd ℂ) (diffusionFn nu dt z) := by
  unfold diffusionFn
  simp only [map_div₀, map_mul, map_sub, map_one, Complex.conj_ofReal]

theorem kronSum_add {K : Type} [Field K] (s : Fin d → ℕ) (M : Fin d → ℤ → ℤ → K) (x y : Idx d → K) (i : Idx d) :
    kronSum s M (fun i => x i + y i) i = kronSum s M x i + kronSum s M y i := by
  unfold kronSum
  simp only [mul_add, Finset.sum_add_distrib]

/-- The transform of `solve_fast_diag` solves the implicit problem with homogeneous walls. -/
theorem diffusion_core {u : GridVariable d ℝ} (hu : u.Supported) (hN : ∀ a, 3 ≤ u.array.grid.shape a) {nu dt : ℝ} (hc : 0 ≤ dt * nu)
    {tpu : Bool} {eigh : EighFn ℝ} {circulant : Bool} {impl : Option Impl} {ms : Fin d → Mat ℝ}
    {P : NArr d ℝ → Except Err (NArr d ℝ)}
    (hms : laplacianMatrixWB u.array.grid u.array.offset u.bc = .ok ms)
    (hT : transform tpu eigh (diffusionFn nu dt) (List.ofFn ms) true circulant impl = .ok P)
    (hP : Promised eigh (List.ofFn ms) true circulant) (x : NArr d ℝ) (hx : x.shape = u.interior) :
    ∃ y, P x = .ok y ∧ y.shape = u.interior ∧ ∀ i : Idx d, InR u.interior i →
      (x.data i + y.data i) - dt * nu * u.homogenized.lapAt (fun i => x.data i + y.data i) i = x.data i := by
  have hms' : laplacianMatrixWB u.homogenized.array.grid u.homogenized.array.offset u.homogenized.bc = .ok ms := hms
  obtain ⟨ms', e, hm, hact⟩ := matrices (u := u.homogenized) hu hN
  rw [hms'] at e
  injection e with e
  subst e
  have hI : u.homogenized.interior = u.interior := rfl
  rw [hI] at hm hact
  have hx' : List.ofFn x.shape = (List.ofFn ms).map Mat.rows := by
    rw [List.map_ofFn, hx]
    exact congrArg List.ofFn (funext fun a => (hm a).1.symm)
  obtain ⟨p, hp⟩ := exists_poly (d := d) (List.ofFn ms) (diffusionFn nu dt) (fun z _ => diffusionFn_conj nu dt z)
  obtain ⟨w, vv, ev, hD⟩ := transform_diag hT hP x.shape hx'
  obtain ⟨hl, hr⟩ := opAt_rows hx'
  obtain ⟨r, b1, b2, b3⟩ := C35_function_of_operator hT hP x hx' p hp
  refine ⟨r, b1, b2.trans hx, ?_⟩
  have hsep : (separable (List.ofFn ms) : (Idx d → ℝ) → Idx d → ℝ) = kronSum u.interior fun a => (ms a).e := by
    rw [separable_eq hr, hx]
    congr 1
    funext a
    rw [opAt_ofFn]
  have pc := fun (a b : Polynomial ℝ) (x : Idx d → ℝ) h => hD.poly_congr hr a b x h
  rw [hsep] at pc b3
  rw [hx] at pc b3
  intro i hi
  have hlap : ∀ z : Idx d → ℝ, u.homogenized.lapAt z i = kronSum u.interior (fun a => (ms a).e) z i := by
    intro z
    unfold GridVariable.lapAt kronSum
    refine Finset.sum_congr rfl fun a _ => ?_
    exact (hact z a (fun _ => rfl) i (hi a).1 (hi a).2).symm
  rw [hlap, kronSum_add]
  have e1 : BoxEq u.interior r.data _ := b3
  have e2 := kronSum_congr (M := fun a => (ms a).e) e1 i hi
  rw [e2, b3 i hi]
  set L := kronSum u.interior (fun a => (ms a).e) with hL
  -- (1 - c X)(1 + p) = 1 on the spectrum
  have := pc ((Polynomial.C 1 + p) + Polynomial.C (-(dt * nu)) * (Polynomial.X * (Polynomial.C 1 + p))) (Polynomial.C 1) x.data
    (fun z hz => by
    obtain ⟨l, rfl, hl0⟩ := eigenSum_nonpos (u := u.homogenized) hu hN u.homogenized_walls hms' hz
    rw [map_add, map_mul, map_mul, map_add, Polynomial.aeval_X, Polynomial.aeval_C, Polynomial.aeval_C, ← hp _ hz]
    unfold diffusionFn
    have hne : (1 : ℂ) - ((dt * nu : ℝ) : ℂ) * (l : ℂ) ≠ 0 := by
      rw [← Complex.ofReal_mul, ← Complex.ofReal_one, ← Complex.ofReal_sub, Complex.ofReal_ne_zero]
      nlinarith
    simp only [Complex.coe_algebraMap, Complex.ofReal_neg, Complex.ofReal_one]
    field_simp
    ring) i hi
  rw [polyApply_add, polyApply_mul, polyApply_mul, polyApply_C, polyApply_C, polyApply_X, polyApply_add, polyApply_C] at this
  have e3 : polyApply (Polynomial.C 1 + p) L x.data = fun i => x.data i + polyApply p L x.data i := by
    funext j
    rw [hL, polyApply_add, polyApply_C]; simp
  rw [← hL, e3, hL] at this
  dsimp only at this
  rw [kronSum_add, ← hL] at this
  linear_combination this

/-- The wall conditions seen with sign `s` do not exceed `M`; Neumann walls are insulated. -/
def GridVariable.WallsAtMost (u : GridVariable d ℝ) (s M : ℝ) : Prop :=
  ∀ a, ((u.bc.types a).1 = .dirichlet → s * (u.bc.constantValues a).1 ≤ M) ∧
    ((u.bc.types a).2 = .dirichlet → s * (u.bc.constantValues a).2 ≤ M) ∧
    ((u.bc.types a).1 = .neumann → (u.bc.constantValues a).1 = 0) ∧
    ((u.bc.types a).2 = .neumann → (u.bc.constantValues a).2 = 0)

theorem neighbours_at_max {u : GridVariable d ℝ} (hu : u.Supported) {s M : ℝ} (hw : u.WallsAtMost s M) {x : Idx d → ℝ} {k : Idx d}
    (hk : InR u.interior k) (hmax : ∀ i : Idx d, InR u.interior i → s * x i ≤ s * x k) (hM : M ≤ s * x k) (a : Fin d) :
    s * (u.withData x).above a k ≤ s * x k ∧ s * (u.withData x).below a k ≤ s * x k := by
  have dp : ¬ (BCType.dirichlet = BCType.periodic) := by decide
  have np : ¬ (BCType.neumann = BCType.periodic) := by decide
  have nd : ¬ (BCType.neumann = BCType.dirichlet) := by decide
  have ne : ¬ (1 : ℚ) = 1 / 2 := by norm_num
  have hi' := hk a
  have hup : ∀ j : ℤ, 0 ≤ j → j < u.interior a → s * x (Function.update k a j) ≤ s * x k :=
    fun j j0 j1 => hmax _ (hk.update a j0 j1)
  have hI : u.interior a = if u.bc.types a = (.dirichlet, .dirichlet) ∧ u.array.offset a = 1 then u.array.shape a - 1
    else u.array.shape a := rfl
  obtain ⟨w1, w2, w3, w4⟩ := hw a
  obtain ⟨h1, h2, hp | ⟨t1, t2, ho⟩ | ⟨ht, ho⟩⟩ := hu a
  · rw [if_neg (by rintro ⟨e, -⟩; rw [hp] at e; cases e)] at hI
    unfold GridVariable.above GridVariable.below
    simp only [GridVariable.withData, hp, if_true]
    exact ⟨hup _ (Int.emod_nonneg _ (by omega)) (by rw [hI]; exact Int.emod_lt_of_pos _ (by omega)),
      hup _ (Int.emod_nonneg _ (by omega)) (by rw [hI]; exact Int.emod_lt_of_pos _ (by omega))⟩
  · rw [if_neg (by rintro ⟨-, e⟩; rw [ho] at e; exact ne e.symm)] at hI
    have h1p : ¬ (u.bc.types a).1 = .periodic := by rcases t1 with t | t <;> rw [t] <;> assumption
    have h2p : ¬ (u.bc.types a).2 = .periodic := by rcases t2 with t | t <;> rw [t] <;> assumption
    unfold GridVariable.above GridVariable.below
    simp only [GridVariable.withData, h1p, h2p, if_false, ho, if_true]
    constructor
    · by_cases hl : k a + 1 < u.array.shape a
      · simp only [hl, if_true]; exact hup _ (by omega) (by omega)
      · simp only [hl, if_false]
        rcases t2 with t | t
        · simp only [t, if_true]
          have := w2 t
          nlinarith
        · simp only [t, nd, if_false, w4 t]; simp
    · by_cases hl : 0 < k a
      · simp only [hl, if_true]; exact hup _ (by omega) (by omega)
      · simp only [hl, if_false]
        rcases t1 with t | t
        · simp only [t, if_true]
          have := w1 t
          nlinarith
        · simp only [t, nd, if_false, w3 t]; simp
  · rw [if_pos ⟨ht, ho⟩] at hI
    unfold GridVariable.above GridVariable.below
    simp only [GridVariable.withData, ht, dp, if_false, ho, ne]
    constructor
    · by_cases hl : k a + 2 < u.array.shape a
      · simp only [hl, if_true]; exact hup _ (by omega) (by omega)
      · simp only [hl, if_false]
        exact (w2 (by rw [ht])).trans hM
    · by_cases hl : 0 < k a
      · simp only [hl, if_true]; exact hup _ (by omega) (by omega)
      · simp only [hl, if_false]
        exact (w1 (by rw [ht])).trans hM

/-- The maximum principle of the implicit problem, with sign `s`. -/
theorem implicit_max {u : GridVariable d ℝ} (hu : u.Supported) {s M c : ℝ} (hc : 0 ≤ c) (hw : u.WallsAtMost s M) {x f : Idx d → ℝ}
    (he : ∀ i : Idx d, InR u.interior i → x i - c * u.lapAt x i = f i) (hf : ∀ i : Idx d, InR u.interior i → s * f i ≤ M)
    (i : Idx d) (hi : InR u.interior i) : s * x i ≤ M := by
  obtain ⟨k, hk, hmax⟩ := Finset.exists_max_image (box u.interior) (fun j => s * x j) ⟨i, mem_box.2 hi⟩
  have hk' := mem_box.1 hk
  refine (hmax i (mem_box.2 hi)).trans ?_
  by_contra hlt
  rw [not_le] at hlt
  have hn := neighbours_at_max hu hw hk' (fun j hj => hmax j (mem_box.2 hj)) hlt.le
  have hlap : s * u.lapAt x k ≤ 0 := by
    unfold GridVariable.lapAt
    rw [Finset.mul_sum]
    refine Finset.sum_nonpos fun a _ => ?_
    rw [← mul_div_assoc]
    refine div_nonpos_of_nonpos_of_nonneg ?_ (sq_nonneg _)
    have := hn a
    nlinarith
  have h1 := he k hk'
  have h2 := hf k hk'
  have h3 : c * (s * u.lapAt x k) ≤ 0 := mul_nonpos_of_nonneg_of_nonpos hc hlap
  rw [← h1] at h2
  have h4 : s * (x k - c * u.lapAt x k) = s * x k - c * (s * u.lapAt x k) := by ring
  linarith

/-- The stencil is affine; its linear part is the homogeneous one. -/
theorem GridVariable.Supported.lapAt_sub {u : GridVariable d ℝ} (_hu : u.Supported) (x y : Idx d → ℝ) (i : Idx d) :
    u.lapAt x i - u.lapAt y i = u.homogenized.lapAt (fun i => x i - y i) i := by
  unfold GridVariable.lapAt
  rw [← Finset.sum_sub_distrib]
  refine Finset.sum_congr rfl fun a _ => ?_
  have h2 : (⟨u.bc.cls, u.bc.types, fun _ => (some 0, some 0)⟩ : BC d ℝ).constantValues a = (0, 0) := by
    simp [BC.constantValues]
  have dp : ¬ (BCType.dirichlet = BCType.periodic) := by decide
  have hA : (u.homogenized.withData fun i => x i - y i).above a i = (u.withData x).above a i - (u.withData y).above a i := by
    unfold GridVariable.above
    simp only [GridVariable.withData, GridVariable.homogenized, h2]
    by_cases c1 : (u.bc.types a).2 = .periodic
    · simp only [c1, if_true]
    · by_cases c2 : u.array.offset a = 1 / 2
      · by_cases c3 : i a + 1 < u.array.shape a
        · simp only [c1, c2, c3, if_true, if_false]
        · by_cases c4 : (u.bc.types a).2 = .dirichlet
          · simp only [c2, c3, c4, dp, if_true, if_false]; ring
          · simp only [c1, c2, c3, c4, if_true, if_false]; ring
      · by_cases c3 : i a + 2 < u.array.shape a
        · simp only [c1, c2, c3, if_true, if_false]
        · simp only [c1, c2, c3, if_false]; ring
  have hB : (u.homogenized.withData fun i => x i - y i).below a i = (u.withData x).below a i - (u.withData y).below a i := by
    unfold GridVariable.below
    simp only [GridVariable.withData, GridVariable.homogenized, h2]
    by_cases c1 : (u.bc.types a).1 = .periodic
    · simp only [c1, if_true]
    · by_cases c3 : 0 < i a
      · simp only [c1, c3, if_true, if_false]
      · by_cases c2 : u.array.offset a = 1 / 2
        · by_cases c4 : (u.bc.types a).1 = .dirichlet
          · simp only [c2, c3, c4, dp, if_true, if_false]; ring
          · simp only [c1, c2, c3, c4, if_true, if_false]; ring
        · simp only [c1, c2, c3, if_false]; ring
  rw [hA, hB]
  show _ = _ / u.array.grid.step a ^ 2
  ring

end JaxCfd
