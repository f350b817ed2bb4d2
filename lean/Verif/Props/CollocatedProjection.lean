import Verif.Props.Collocated

/-!
# C55: the pressure projection of collocated velocity fields
-/

set_option linter.unusedSectionVars false

namespace JaxCfd
variable {d : ℕ}

/-- The array is stored at the cell centres of the grid `g`. -/
def CenterArray {K : Type} [Field K] (g : Grid d K) (q : GridArray d K) : Prop :=
  q.grid = g ∧ q.shape = g.shape ∧ q.offset = fun _ => 1 / 2

namespace Collocated

section
variable {K : Type} [Field K] [HasNan K] [DecidableEq K]

/-- The starting guess `projection` passes to the solver: zero at the cell centres. -/
def zeroGuess (g : Grid d K) : GridVariable d K := ⟨⟨⟨g.shape, fun _ => 0⟩, fun _ => 1 / 2, g⟩, periodicBC d⟩

theorem pressureBC_centers (hd : d ≠ 0) {g : Grid d K} {v : Fin d → GridVariable d K} (h : ∀ a, AtCenters g (v a)) :
    pressureBCFromVelocity (List.ofFn v) = .ok (periodicBC d) := by
  rw [C15_pressure_bc]
  have hp : ∀ (b : Fin d), ∀ x ∈ List.ofFn v, PeriodicAlong x b := by
    intro b x hx
    obtain ⟨a, rfl⟩ := List.mem_ofFn.1 hx
    unfold PeriodicAlong
    rw [(h a).2.2.2]
    rfl
  refine ⟨by rw [Ne, List.ofFn_eq_nil_iff]; exact hd, fun b x _ y hy _ => hp b y hy, rfl, fun _ => rfl, fun b x hx => ⟨fun _ => rfl, fun e => ?_⟩⟩
  exact absurd (hp b x hx) e

theorem consistentGrid_centers (hd : d ≠ 0) {g : Grid d K} {v : Fin d → GridVariable d K} (h : ∀ a, AtCenters g (v a)) :
    consistentGrid (List.ofFn fun a => (v a).array) = .ok g :=
  uniqueOr_eq_ok.2 ⟨by simpa using hd, fun x hx => by
    obtain ⟨a, rfl⟩ := List.mem_ofFn.1 hx
    exact (h a).1⟩

theorem CenterArray.var {g : Grid d K} {q : GridArray d K} (h : CenterArray g q) : AtCenters g ⟨q, periodicBC d⟩ :=
  ⟨h.1, h.2.1, h.2.2, rfl⟩

theorem centralDifferences_centers {g : Grid d K} (hs : ∀ a, 0 < g.shape a) {u : GridVariable d K} (h : AtCenters g u) :
    centralDifferences u = .ok fun a => (⟨⟨g.shape, cgrad g u.array.data a⟩, fun _ => 1 / 2, g⟩ : GridArray d K) := by
  have := centralGradient_centers hs h
  unfold centralGradient at this
  rw [Except.bind_eq_ok] at this
  obtain ⟨D, hD, hE⟩ := this
  have hE := Except.ok.inj hE
  rw [hD]
  congr 1
  funext a
  exact congrArg GridVariable.array (congrFun hE a)

/-- The projection in closed form. -/
theorem projection_eq (hd : d ≠ 0) {g : Grid d K} (hs : ∀ a, 0 < g.shape a) {v : Fin d → GridVariable d K}
    (hv : ∀ a, AtCenters g (v a)) {solve : (Fin d → GridVariable d K) → GridVariable d K → Except Err (GridArray d K)}
    {q : GridArray d K} (hq : solve v (zeroGuess g) = .ok q) (hl : CenterArray g q) :
    projection v solve = .ok fun a =>
      ⟨⟨⟨g.shape, fun i => (v a).array.data i - cgrad g q.data a i⟩, fun _ => 1 / 2, g⟩, periodicBC d⟩ := by
  unfold projection
  rw [consistentGrid_centers hd hv, Except.bind_ok, pressureBC_centers hd hv, Except.bind_ok]
  have hq : solve v ⟨⟨⟨g.shape, fun _ => 0⟩, fun _ => 1 / 2, g⟩, periodicBC d⟩ = .ok q := hq
  rw [hq, Except.bind_ok, centralDifferences_centers hs (CenterArray.var hl), Except.bind_ok]
  refine seqFin_ok _ _ fun a => ?_
  rw [gmap2_ok (hv a).2.1 (hv a).2.2.1 (hv a).1, Except.bind_ok, (hv a).2.2.2]
  refine congrArg Except.ok ?_
  simp only [(hv a).2.1, (hv a).2.2.1, (hv a).1]

theorem laplacianWithBC_eq (hd : d ≠ 0) {g : Grid d K} (hs : ∀ a, 0 < g.shape a) {q : GridArray d K} (hl : CenterArray g q) :
    laplacianWithBC (zeroGuess g) q = .ok ⟨⟨g.shape, cdiv g fun a => cgrad g q.data a⟩, fun _ => 1 / 2, g⟩ := by
  unfold laplacianWithBC
  rw [if_neg (hasAllPeriodic_single (g := g) (u := zeroGuess g) ⟨rfl, rfl, rfl, rfl⟩)]
  show ((do
    let gr ← centralGradient ⟨q, periodicBC d⟩
    centeredDivergence (List.ofFn gr)) : Except Err (GridArray d K)) = _
  rw [centralGradient_centers hs (CenterArray.var hl), Except.bind_ok, divGrad hd hs]

/-- **C55.** Whatever pressure correction `q` the solver returns, `collocated.pressure.projection` subtracts its centred gradient, keeps
the layout, and the centred divergence of the result is `centered_divergence(v) - laplacian(q)`, `laplacian` being the operator
`solve_cg` inverts. -/
theorem C55_projection (hd : d ≠ 0) (g : Grid d K) (hs : ∀ a, 0 < g.shape a) (v : Fin d → GridVariable d K)
    (hv : ∀ a, AtCenters g (v a)) (solve : (Fin d → GridVariable d K) → GridVariable d K → Except Err (GridArray d K))
    (q : GridArray d K) (hq : solve v (zeroGuess g) = .ok q) (hl : CenterArray g q) :
    ∃ w G D D' L, projection v solve = .ok w ∧ (∀ a, AtCenters g (w a)) ∧ centralDifferences ⟨q, periodicBC d⟩ = .ok G ∧
      (∀ a i, (w a).array.data i = (v a).array.data i - (G a).data i) ∧
      centeredDivergence (List.ofFn v) = .ok D ∧ centeredDivergence (List.ofFn w) = .ok D' ∧
      laplacianWithBC (zeroGuess g) q = .ok L ∧ CenterArray g D ∧ CenterArray g D' ∧ CenterArray g L ∧
      ∀ i : Idx d, D'.data i = D.data i - L.data i := by
  have hw : ∀ a, AtCenters g (⟨⟨⟨g.shape, fun i => (v a).array.data i - cgrad g q.data a i⟩, fun _ => 1 / 2, g⟩, periodicBC d⟩ :
    GridVariable d K) := fun a => ⟨rfl, rfl, rfl, rfl⟩
  exact ⟨_, _, _, _, _, projection_eq hd hs hv hq hl, hw, centralDifferences_centers hs (CenterArray.var hl), fun a i => rfl,
    centeredDivergence_centers hd hs hv, centeredDivergence_centers hd hs hw, laplacianWithBC_eq hd hs hl, ⟨rfl, rfl, rfl⟩,
    ⟨rfl, rfl, rfl⟩, ⟨rfl, rfl, rfl⟩, fun i => cdiv_sub g (fun a => (v a).array.data) (fun a => cgrad g q.data a) i⟩

/-- **C55.** With `solve_cg` the divergence left over is the residual at which conjugate gradients stopped: it is handed the centred
divergence as right-hand side, zero as starting guess, and the wide Laplacian as operator. -/
theorem C55_projection_cg (hd : d ≠ 0) (g : Grid d K) (hs : ∀ a, 0 < g.shape a) (v : Fin d → GridVariable d K)
    (hv : ∀ a, AtCenters g (v a)) (cg : CGFn d K) :
    ∃ D, centeredDivergence (List.ofFn v) = .ok D ∧
      (∀ x, CenterArray g x → ∃ L, laplacianWithBC (zeroGuess g) x = .ok L ∧ CenterArray g L ∧
        ∀ i : Idx d, InR g.shape i → L.data i = ∑ a, (x.data (rollIdx g.shape a 2 i) - 2 * x.data i +
          x.data (rollIdx g.shape a (-2) i)) / (4 * g.step a ^ 2)) ∧
      ∀ q, cg (laplacianWithBC (zeroGuess g)) D (zeroGuess g).array = .ok q → CenterArray g q →
        ∃ w D' A, projection v (solveCG cg) = .ok w ∧ (∀ a, AtCenters g (w a)) ∧ centeredDivergence (List.ofFn w) = .ok D' ∧
          laplacianWithBC (zeroGuess g) q = .ok A ∧ ∀ i : Idx d, D'.data i = D.data i - A.data i := by
  have hD := centeredDivergence_centers hd hs hv
  refine ⟨_, hD, fun x hx => ⟨_, laplacianWithBC_eq hd hs hx, ⟨rfl, rfl, rfl⟩, fun i hi => cdiv_cgrad g x.data hi⟩, fun q hq hl => ?_⟩
  have hsol : solveCG cg v (zeroGuess g) = .ok q := by
    unfold solveCG
    rw [hD, Except.bind_ok, if_neg (by simp [zeroGuess])]
    exact hq
  obtain ⟨w, G, D, D', L, h1, h2, -, -, h5, h6, h7, -, -, -, h8⟩ := C55_projection hd g hs v hv (solveCG cg) q hsol hl
  rw [hD] at h5
  injection h5 with h5
  subst h5
  exact ⟨w, D', L, h1, h2, h6, h7, h8⟩

/-- **C55.** The projection with `solve_cg` refuses velocities that are not periodic along every axis (conjugate gradients applies the
operator at least to the starting guess). -/
theorem C55_projection_rejects (v : Fin d → GridVariable d K) (cg : CGFn d K)
    (hcg : ∀ A b x₀ e, A x₀ = .error e → ∃ e', cg A b x₀ = .error e') (a b : Fin d) (h : ((v a).bc.types b).1 ≠ .periodic)
    (w : Fin d → GridVariable d K) : projection v (solveCG cg) ≠ .ok w := by
  intro hw
  unfold projection at hw
  obtain ⟨g, hg, hw⟩ := Except.bind_eq_ok.1 hw
  obtain ⟨bc, hbc, hw⟩ := Except.bind_eq_ok.1 hw
  obtain ⟨q, hq, -⟩ := Except.bind_eq_ok.1 hw
  have ht := ((C15_pressure_bc _ _).1 hbc).2.2.2.2 b (v a) (List.mem_ofFn.2 ⟨a, rfl⟩)
  have ht : bc.types b = (.neumann, .neumann) := ht.2 h
  unfold solveCG at hq
  obtain ⟨rhs, -, hq⟩ := Except.bind_eq_ok.1 hq
  split_ifs at hq
  obtain ⟨e', he'⟩ := hcg (laplacianWithBC ⟨⟨⟨g.shape, fun _ => 0⟩, fun _ => 1 / 2, g⟩, bc⟩) rhs
    (⟨⟨g.shape, fun _ => 0⟩, fun _ => 1 / 2, g⟩ : GridArray d K) .value (by
      unfold laplacianWithBC
      rw [if_pos]
      rw [← Bool.not_eq_true]
      intro H
      unfold hasAllPeriodic isPeriodicBC at H
      rw [List.all_eq_true] at H
      have h1 := H _ (List.mem_singleton.2 rfl)
      rw [List.all_eq_true] at h1
      have h2 := h1 b (List.mem_finRange b)
      dsimp only at h2
      rw [ht] at h2
      simp at h2)
  rw [he'] at hq
  cases hq

end

variable [HasNan ℝ]

/-- `q` is an exact pressure correction for `v`: `solve_cg`'s operator maps it to the centred divergence of `v`. -/
def SolvesCentered (g : Grid d ℝ) (v : Fin d → GridVariable d ℝ) (q : GridArray d ℝ) : Prop :=
  CenterArray g q ∧ ∃ L D, laplacianWithBC (zeroGuess g) q = .ok L ∧ centeredDivergence (List.ofFn v) = .ok D ∧
    ∀ i : Idx d, InR g.shape i → L.data i = D.data i

theorem solvesCentered_iff (hd : d ≠ 0) {g : Grid d ℝ} (hs : ∀ a, 0 < g.shape a) {v : Fin d → GridVariable d ℝ}
    (hv : ∀ a, AtCenters g (v a)) {q : GridArray d ℝ} : SolvesCentered g v q ↔ CenterArray g q ∧
      ∀ i : Idx d, InR g.shape i → cdiv g (fun a => cgrad g q.data a) i = cdiv g (fun a => (v a).array.data) i := by
  constructor
  · rintro ⟨hl, L, D, hL, hD, h⟩
    rw [laplacianWithBC_eq hd hs hl] at hL
    rw [centeredDivergence_centers hd hs hv] at hD
    injection hL with hL
    injection hD with hD
    subst hL hD
    exact ⟨hl, h⟩
  · rintro ⟨hl, h⟩
    exact ⟨hl, _, _, laplacianWithBC_eq hd hs hl, centeredDivergence_centers hd hs hv, h⟩

/-- The centred divergence of the field vanishes at every cell. -/
def CenteredDivergenceFree (g : Grid d ℝ) (v : Fin d → GridVariable d ℝ) : Prop :=
  ∃ D, centeredDivergence (List.ofFn v) = .ok D ∧ ∀ i : Idx d, InR g.shape i → D.data i = 0

theorem centeredDivergenceFree_iff (hd : d ≠ 0) {g : Grid d ℝ} (hs : ∀ a, 0 < g.shape a) {v : Fin d → GridVariable d ℝ}
    (hv : ∀ a, AtCenters g (v a)) : CenteredDivergenceFree g v ↔
      ∀ i : Idx d, InR g.shape i → cdiv g (fun a => (v a).array.data) i = 0 := by
  constructor
  · rintro ⟨D, hD, h⟩
    rw [centeredDivergence_centers hd hs hv] at hD
    injection hD with hD
    subst hD
    exact h
  · exact fun h => ⟨_, centeredDivergence_centers hd hs hv, h⟩

/-- Kinetic energy (up to the constant factor `density * cell volume / 2`). -/
noncomputable def energy (g : Grid d ℝ) (v : Fin d → GridVariable d ℝ) : ℝ := ∑ a, ∑ i ∈ box g.shape, (v a).array.data i ^ 2

/-- **C55.** If the solver is exact the projected field has zero centred divergence at every cell, the same total momentum along every
axis, and the kinetic energy decreases by exactly that of the subtracted gradient. -/
theorem C55_projection_exact (hd : d ≠ 0) (g : Grid d ℝ) (hs : ∀ a, 0 < g.shape a) (v : Fin d → GridVariable d ℝ)
    (hv : ∀ a, AtCenters g (v a)) (solve : Solver d) (q : GridArray d ℝ) (hq : solve v (zeroGuess g) = .ok q)
    (hsol : SolvesCentered g v q) :
    ∃ w G, projection v solve = .ok w ∧ (∀ a, AtCenters g (w a)) ∧ CenteredDivergenceFree g w ∧
      centralDifferences ⟨q, periodicBC d⟩ = .ok G ∧
      (∀ a, ∑ i ∈ box g.shape, (w a).array.data i = ∑ i ∈ box g.shape, (v a).array.data i) ∧
      energy g w = energy g v - ∑ a, inner (G a).toNArr (G a).toNArr ∧ energy g w ≤ energy g v := by
  obtain ⟨hl, hsol⟩ := (solvesCentered_iff hd hs hv).1 hsol
  have hw : ∀ a, AtCenters g (⟨⟨⟨g.shape, fun i => (v a).array.data i - cgrad g q.data a i⟩, fun _ => 1 / 2, g⟩, periodicBC d⟩ :
    GridVariable d ℝ) := fun a => ⟨rfl, rfl, rfl, rfl⟩
  have hdiv : ∀ i : Idx d, InR g.shape i → cdiv g (fun a i => (v a).array.data i - cgrad g q.data a i) i = 0 := fun i hi => by
    rw [cdiv_sub g (fun a => (v a).array.data) (fun a => cgrad g q.data a) i, hsol i hi, sub_self]
  have horth : ∑ a, ∑ i ∈ box g.shape, cgrad g q.data a i * ((v a).array.data i - cgrad g q.data a i) = 0 := by
    have := cdiv_adjoint g q.data (fun a i => (v a).array.data i - cgrad g q.data a i)
    rw [Finset.sum_eq_zero (fun i hi => by rw [hdiv i (mem_box.1 hi), mul_zero])] at this
    linarith
  have hen : ∑ a, ∑ i ∈ box g.shape, ((v a).array.data i - cgrad g q.data a i) ^ 2 =
      ∑ a, ∑ i ∈ box g.shape, (v a).array.data i ^ 2 - ∑ a, ∑ i ∈ box g.shape, cgrad g q.data a i * cgrad g q.data a i := by
    have e : ∑ a, ∑ i ∈ box g.shape, (v a).array.data i ^ 2 = ∑ a, ∑ i ∈ box g.shape, ((v a).array.data i - cgrad g q.data a i) ^ 2 +
        (2 * ∑ a, ∑ i ∈ box g.shape, cgrad g q.data a i * ((v a).array.data i - cgrad g q.data a i) +
          ∑ a, ∑ i ∈ box g.shape, cgrad g q.data a i * cgrad g q.data a i) := by
      rw [Finset.mul_sum, ← Finset.sum_add_distrib, ← Finset.sum_add_distrib]
      refine Finset.sum_congr rfl fun a _ => ?_
      rw [Finset.mul_sum, ← Finset.sum_add_distrib, ← Finset.sum_add_distrib]
      exact Finset.sum_congr rfl fun i _ => by ring
    rw [e, horth]
    ring
  have hnn : (0 : ℝ) ≤ ∑ a, ∑ i ∈ box g.shape, cgrad g q.data a i * cgrad g q.data a i :=
    Finset.sum_nonneg fun a _ => Finset.sum_nonneg fun i _ => mul_self_nonneg _
  refine ⟨_, _, projection_eq hd hs hv hq hl, hw, (centeredDivergenceFree_iff hd hs hw).2 hdiv,
    centralDifferences_centers hs (CenterArray.var hl), fun a => ?_, hen, ?_⟩
  · show ∑ i ∈ box g.shape, ((v a).array.data i - cgrad g q.data a i) = _
    rw [Finset.sum_sub_distrib, sum_cgrad, sub_zero]
  · show (∑ a, ∑ i ∈ box g.shape, ((v a).array.data i - cgrad g q.data a i) ^ 2) ≤ ∑ a, ∑ i ∈ box g.shape, (v a).array.data i ^ 2
    rw [hen]
    linarith

/-- A pressure whose wide Laplacian vanishes has no gradient: it differs from a constant at most by modes centred differences do not
see. -/
theorem grad_of_lap_zero {g : Grid d ℝ} {p : Idx d → ℝ} (h : ∀ i : Idx d, InR g.shape i → cdiv g (fun a => cgrad g p a) i = 0)
    (a : Fin d) {i : Idx d} (hi : InR g.shape i) : cgrad g p a i = 0 := by
  have := cdiv_adjoint g p (fun a => cgrad g p a)
  rw [Finset.sum_eq_zero (fun i hi => by rw [h i (mem_box.1 hi), mul_zero])] at this
  have h0 : ∑ a, ∑ i ∈ box g.shape, cgrad g p a i * cgrad g p a i = 0 := by linarith
  rw [Finset.sum_eq_zero_iff_of_nonneg (fun a _ => Finset.sum_nonneg fun i _ => mul_self_nonneg _)] at h0
  have h1 := h0 a (Finset.mem_univ a)
  rw [Finset.sum_eq_zero_iff_of_nonneg (fun i _ => mul_self_nonneg _)] at h1
  exact mul_self_eq_zero.1 (h1 i (mem_box.2 hi))

/-- **C55.** Exact pressure corrections may differ (by checkerboards on grids of even size), but the projected velocity does not depend on
which of them the solver returns. -/
theorem C55_projection_unique (hd : d ≠ 0) (g : Grid d ℝ) (hs : ∀ a, 0 < g.shape a) (v : Fin d → GridVariable d ℝ)
    (hv : ∀ a, AtCenters g (v a)) (solve solve' : Solver d) (q q' : GridArray d ℝ) (hq : solve v (zeroGuess g) = .ok q)
    (hq' : solve' v (zeroGuess g) = .ok q') (hsol : SolvesCentered g v q) (hsol' : SolvesCentered g v q') :
    ∃ w w', projection v solve = .ok w ∧ projection v solve' = .ok w' ∧
      ∀ (a : Fin d) (i : Idx d), InR g.shape i → (w a).array.data i = (w' a).array.data i := by
  obtain ⟨hl, hsol⟩ := (solvesCentered_iff hd hs hv).1 hsol
  obtain ⟨hl', hsol'⟩ := (solvesCentered_iff hd hs hv).1 hsol'
  refine ⟨_, _, projection_eq hd hs hv hq hl, projection_eq hd hs hv hq' hl', fun a i hi => ?_⟩
  show (v a).array.data i - cgrad g q.data a i = (v a).array.data i - cgrad g q'.data a i
  have key : cgrad g (fun i => q.data i - q'.data i) a i = 0 := by
    refine grad_of_lap_zero (fun j hj => ?_) a hi
    rw [cdiv_congr (y := fun a i => cgrad g q.data a i - cgrad g q'.data a i) (fun a i _ => cgrad_sub g _ _ a i) hj,
      cdiv_sub g (fun a => cgrad g q.data a) (fun a => cgrad g q'.data a), hsol j hj, hsol' j hj, sub_self]
  rw [cgrad_sub] at key
  linarith

/-- **C55.** An exact solver leaves a field whose centred divergence already vanishes unchanged. -/
theorem C55_projection_fixes (hd : d ≠ 0) (g : Grid d ℝ) (hs : ∀ a, 0 < g.shape a) (v : Fin d → GridVariable d ℝ)
    (hv : ∀ a, AtCenters g (v a)) (solve : Solver d) (q : GridArray d ℝ) (hq : solve v (zeroGuess g) = .ok q)
    (hsol : SolvesCentered g v q) (hdf : CenteredDivergenceFree g v) :
    ∃ w, projection v solve = .ok w ∧ ∀ (a : Fin d) (i : Idx d), InR g.shape i → (w a).array.data i = (v a).array.data i := by
  obtain ⟨hl, hsol⟩ := (solvesCentered_iff hd hs hv).1 hsol
  have h0 := (centeredDivergenceFree_iff hd hs hv).1 hdf
  refine ⟨_, projection_eq hd hs hv hq hl, fun a i hi => ?_⟩
  show (v a).array.data i - cgrad g q.data a i = (v a).array.data i
  rw [grad_of_lap_zero (fun j hj => (hsol j hj).trans (h0 j hj)) a hi, sub_zero]

/-! ## An exact pressure correction always exists -/

/-- a function on the cells, as a function of all indices -/
noncomputable def ofCells (g : Grid d ℝ) (x : EuclideanSpace ℝ {i : Idx d // i ∈ box g.shape}) : Idx d → ℝ :=
  fun i => open Classical in if h : i ∈ box g.shape then x ⟨i, h⟩ else 0

theorem ofCells_val {g : Grid d ℝ} (x : EuclideanSpace ℝ {i : Idx d // i ∈ box g.shape}) (i : {i : Idx d // i ∈ box g.shape}) :
    ofCells g x i.1 = x i := by
  unfold ofCells
  rw [dif_pos i.2]

theorem cgrad_ofCells_add (g : Grid d ℝ) (x y : EuclideanSpace ℝ {i : Idx d // i ∈ box g.shape}) (a : Fin d) (i : Idx d) :
    cgrad g (ofCells g (x + y)) a i = cgrad g (ofCells g x) a i + cgrad g (ofCells g y) a i := by
  have e : ∀ i, ofCells g (x + y) i = ofCells g x i + ofCells g y i := by
    intro i
    unfold ofCells
    by_cases h : i ∈ box g.shape
    · simp only [dif_pos h]; rfl
    · simp only [dif_neg h, add_zero]
  unfold cgrad
  rw [e, e]
  ring

theorem cgrad_ofCells_smul (g : Grid d ℝ) (c : ℝ) (x : EuclideanSpace ℝ {i : Idx d // i ∈ box g.shape}) (a : Fin d) (i : Idx d) :
    cgrad g (ofCells g (c • x)) a i = c * cgrad g (ofCells g x) a i := by
  have e : ∀ i, ofCells g (c • x) i = c * ofCells g x i := by
    intro i
    unfold ofCells
    by_cases h : i ∈ box g.shape
    · simp only [dif_pos h]; rfl
    · simp only [dif_neg h, mul_zero]
  unfold cgrad
  rw [e, e]
  ring

theorem cdiv_add (g : Grid d ℝ) (x y : Fin d → Idx d → ℝ) (i : Idx d) :
    cdiv g (fun a i => x a i + y a i) i = cdiv g x i + cdiv g y i := by
  unfold cdiv
  rw [← Finset.sum_add_distrib]
  refine Finset.sum_congr rfl fun a _ => ?_
  unfold cgrad
  ring

/-- The wide Laplacian as a linear map on the functions of the cells. -/
noncomputable def lapMap (g : Grid d ℝ) : EuclideanSpace ℝ {i : Idx d // i ∈ box g.shape} →ₗ[ℝ]
    EuclideanSpace ℝ {i : Idx d // i ∈ box g.shape} where
  toFun x := WithLp.toLp 2 fun i => cdiv g (fun a => cgrad g (ofCells g x) a) i.1
  map_add' x y := by
    ext i
    show cdiv g (fun a => cgrad g (ofCells g (x + y)) a) i.1 =
      cdiv g (fun a => cgrad g (ofCells g x) a) i.1 + cdiv g (fun a => cgrad g (ofCells g y) a) i.1
    rw [← cdiv_add]
    congr 1
    funext a i
    exact cgrad_ofCells_add g x y a i
  map_smul' c x := by
    ext i
    show cdiv g (fun a => cgrad g (ofCells g (c • x)) a) i.1 = c * cdiv g (fun a => cgrad g (ofCells g x) a) i.1
    rw [← cdiv_smul]
    congr 1
    funext a i
    exact cgrad_ofCells_smul g c x a i

theorem inner_cells {g : Grid d ℝ} (x y : EuclideanSpace ℝ {i : Idx d // i ∈ box g.shape}) :
    Inner.inner ℝ x y = ∑ i ∈ box g.shape, ofCells g x i * ofCells g y i := by
  rw [← Finset.sum_coe_sort, PiLp.inner_apply]
  refine Finset.sum_congr rfl fun i _ => ?_
  rw [ofCells_val, ofCells_val]
  simp [mul_comm]

theorem ofCells_lap {g : Grid d ℝ} (x : EuclideanSpace ℝ {i : Idx d // i ∈ box g.shape}) {i : Idx d} (hi : i ∈ box g.shape) :
    ofCells g (lapMap g x) i = cdiv g (fun a => cgrad g (ofCells g x) a) i := by
  unfold ofCells
  rw [dif_pos hi]
  rfl

theorem lapMap_symmetric (g : Grid d ℝ) : (lapMap g).IsSymmetric := by
  intro x y
  have h1 : ∑ i ∈ box g.shape, ofCells g (lapMap g x) i * ofCells g y i =
      ∑ i ∈ box g.shape, ofCells g y i * cdiv g (fun a => cgrad g (ofCells g x) a) i :=
    Finset.sum_congr rfl fun i hi => by rw [ofCells_lap x hi, mul_comm]
  have h2 : ∑ i ∈ box g.shape, ofCells g x i * ofCells g (lapMap g y) i =
      ∑ i ∈ box g.shape, ofCells g x i * cdiv g (fun a => cgrad g (ofCells g y) a) i :=
    Finset.sum_congr rfl fun i hi => by rw [ofCells_lap y hi]
  rw [inner_cells, inner_cells, h1, h2, cdiv_adjoint, cdiv_adjoint]
  congr 1
  refine Finset.sum_congr rfl fun a _ => Finset.sum_congr rfl fun i _ => mul_comm _ _

/-- **C55.** Every velocity field at the cell centres of a periodic grid has an exact pressure correction: the system `solve_cg` hands to
conjugate gradients is solvable although its operator is singular. -/
theorem C55_pressure_exists (hd : d ≠ 0) (g : Grid d ℝ) (hs : ∀ a, 0 < g.shape a) (v : Fin d → GridVariable d ℝ)
    (hv : ∀ a, AtCenters g (v a)) : ∃ q, SolvesCentered g v q := by
  let b : EuclideanSpace ℝ {i : Idx d // i ∈ box g.shape} := WithLp.toLp 2 fun i => cdiv g (fun a => (v a).array.data) i.1
  have hb : ∀ i ∈ box g.shape, ofCells g b i = cdiv g (fun a => (v a).array.data) i := by
    intro i hi
    unfold ofCells
    rw [dif_pos hi]
  have hmem : b ∈ (lapMap g).range := by
    rw [← Submodule.orthogonal_orthogonal (lapMap g).range, (lapMap_symmetric g).orthogonal_range, Submodule.mem_orthogonal]
    intro p hp
    rw [LinearMap.mem_ker] at hp
    rw [inner_cells, Finset.sum_congr rfl (fun i hi => by rw [hb i hi]), cdiv_adjoint, neg_eq_zero]
    refine Finset.sum_eq_zero fun a _ => Finset.sum_eq_zero fun i hi => ?_
    rw [grad_of_lap_zero (fun j hj => ?_) a (mem_box.1 hi), zero_mul]
    rw [← ofCells_lap p (mem_box.2 hj), hp]
    unfold ofCells
    split_ifs <;> rfl
  obtain ⟨x, hx⟩ := hmem
  refine ⟨⟨⟨g.shape, ofCells g x⟩, fun _ => 1 / 2, g⟩, (solvesCentered_iff hd hs hv).2 ⟨⟨rfl, rfl, rfl⟩, fun i hi => ?_⟩⟩
  show cdiv g (fun a => cgrad g (ofCells g x) a) i = _
  rw [← ofCells_lap x (mem_box.2 hi), hx, hb i (mem_box.2 hi)]

/-! ## What centred differences do not see -/

/-- The checkerboard: `+1` and `-1` on alternating cells. -/
def checkerboard (g : Grid d ℝ) : GridVariable d ℝ :=
  ⟨⟨⟨g.shape, fun i => (-1 : ℝ) ^ (∑ a, i a).natAbs⟩, fun _ => 1 / 2, g⟩, periodicBC d⟩

theorem checkerboard_roll {g : Grid d ℝ} (a : Fin d) (ha : g.shape a % 2 = 0) {i : Idx d} (hi : InR g.shape i) (k : ℤ) :
    (-1 : ℝ) ^ (∑ b, rollIdx g.shape a k i b).natAbs = (-1 : ℝ) ^ (k + ∑ b, i b).natAbs := by
  have hdiv : (2 : ℤ) ∣ (∑ b, rollIdx g.shape a k i b) - (k + ∑ b, i b) := by
    have e : (∑ b, rollIdx g.shape a k i b) = ((i a + k) % (g.shape a : ℤ)) - i a + ∑ b, i b := by
      unfold rollIdx
      rw [Finset.sum_update_of_mem (Finset.mem_univ a)]
      rw [Finset.sdiff_singleton_eq_erase, Finset.sum_erase_eq_sub (Finset.mem_univ a)]
      ring
    rw [e]
    have h2 : (2 : ℤ) ∣ g.shape a := by omega
    have h3 : (g.shape a : ℤ) ∣ (i a + k) % (g.shape a : ℤ) - (i a + k) := by
      rw [Int.emod_def]
      exact ⟨-((i a + k) / (g.shape a : ℤ)), by ring⟩
    obtain ⟨c, hc⟩ := h2.trans h3
    exact ⟨c, by linarith⟩
  rcases Nat.even_or_odd (∑ b, rollIdx g.shape a k i b).natAbs with h | h <;>
    rcases Nat.even_or_odd (k + ∑ b, i b).natAbs with h' | h'
  · rw [h.neg_one_pow, h'.neg_one_pow]
  · exfalso; rw [Nat.even_iff] at h; rw [Nat.odd_iff] at h'; omega
  · exfalso; rw [Nat.odd_iff] at h; rw [Nat.even_iff] at h'; omega
  · rw [h.neg_one_pow, h'.neg_one_pow]

/-- **C55** (a limitation of the scheme). On grids of even size centred differences do not see the checkerboard: it is not diffused, and a
velocity made of checkerboards counts as divergence-free, so an exact projection keeps it. -/
theorem C55_checkerboard (hd : d ≠ 0) (g : Grid d ℝ) (hs : ∀ a, 0 < g.shape a) (he : ∀ a, g.shape a % 2 = 0) (nu : ℝ) :
    ∃ r, diffuse (checkerboard g) nu = .ok r ∧ (∀ i : Idx d, InR g.shape i → r.data i = 0) ∧
      CenteredDivergenceFree g (fun _ => checkerboard g) := by
  have hc : AtCenters g (checkerboard g) := ⟨rfl, rfl, rfl, rfl⟩
  have h0 : ∀ (a : Fin d) (i : Idx d), InR g.shape i → cgrad g (checkerboard g).array.data a i = 0 := by
    intro a i hi
    unfold cgrad
    show ((-1 : ℝ) ^ (∑ b, rollIdx g.shape a 1 i b).natAbs - (-1 : ℝ) ^ (∑ b, rollIdx g.shape a (-1) i b).natAbs) / _ = 0
    rw [checkerboard_roll a (he a) hi, checkerboard_roll a (he a) hi]
    rcases Nat.even_or_odd (1 + ∑ b, i b).natAbs with h | h <;>
      rcases Nat.even_or_odd (-1 + ∑ b, i b).natAbs with h' | h'
    · rw [h.neg_one_pow, h'.neg_one_pow, sub_self, zero_div]
    · exfalso; rw [Nat.even_iff] at h; rw [Nat.odd_iff] at h'; omega
    · exfalso; rw [Nat.odd_iff] at h; rw [Nat.even_iff] at h'; omega
    · rw [h.neg_one_pow, h'.neg_one_pow, sub_self, zero_div]
  refine ⟨gmap (fun x => nu * x) ⟨⟨g.shape, cdiv g fun a => cgrad g (checkerboard g).array.data a⟩, fun _ => 1 / 2, g⟩, ?_,
    fun i hi => ?_, (centeredDivergenceFree_iff hd hs fun _ => hc).2 fun i hi => ?_⟩
  · unfold diffuse
    rw [if_neg (hasAllPeriodic_single hc), centralGradient_centers hs hc, Except.bind_ok, divGrad hd hs]
    rfl
  · show nu * cdiv g (fun a => cgrad g (checkerboard g).array.data a) i = 0
    rw [cdiv_congr (y := fun _ _ => 0) (fun a i hi => h0 a i hi) hi]
    simp [cdiv, cgrad]
  · exact Finset.sum_eq_zero fun a _ => h0 a i hi

end Collocated
end JaxCfd
