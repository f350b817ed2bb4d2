import Verif.Model.Collocated
import Verif.Lemmas.Advection
import Verif.Props.FD
import Verif.Props.BCUtils
import Mathlib.Analysis.InnerProductSpace.Symmetric
import Mathlib.Analysis.InnerProductSpace.PiL2
import Mathlib.Analysis.InnerProductSpace.Projection.Basic

/-!
# C55: collocated velocity fields

Everything is stored at the cell centres of a periodic grid and differences are centred: they reach two cells.
-/

set_option linter.unusedSectionVars false

namespace JaxCfd
variable {d : ℕ} {K : Type} [Field K]

/-- The variable is stored at the cell centres of the periodic grid `g`. -/
def AtCenters (g : Grid d K) (u : GridVariable d K) : Prop :=
  u.array.grid = g ∧ u.array.shape = g.shape ∧ (u.array.offset = fun _ => 1 / 2) ∧ u.bc = periodicBC d

/-- The centred difference quotient along one axis of a periodic grid. -/
def cgrad (g : Grid d K) (q : Idx d → K) (a : Fin d) (i : Idx d) : K :=
  (q (rollIdx g.shape a 1 i) - q (rollIdx g.shape a (-1) i)) / (2 * g.step a)

/-- The centred divergence. -/
def cdiv (g : Grid d K) (x : Fin d → Idx d → K) (i : Idx d) : K := ∑ a, cgrad g (x a) a i

/-- The wide Laplacian: the second difference between the points two cells away. -/
def wideLap (g : Grid d K) (q : Idx d → K) (i : Idx d) : K :=
  ∑ a, (q (rollIdx g.shape a 2 i) - 2 * q i + q (rollIdx g.shape a (-2) i)) / (4 * g.step a ^ 2)

theorem cdiv_cgrad (g : Grid d K) (q : Idx d → K) {i : Idx d} (hi : InR g.shape i) :
    cdiv g (fun a => cgrad g q a) i = wideLap g q i := by
  unfold cdiv wideLap
  refine Finset.sum_congr rfl fun a _ => ?_
  unfold cgrad
  beta_reduce
  rw [rollIdx_add, rollIdx_add, rollIdx_add, rollIdx_add]
  rw [show (1 + -1 : ℤ) = 0 by norm_num, show (-1 + 1 : ℤ) = 0 by norm_num, rollIdx_zero hi,
    show (1 + 1 : ℤ) = 2 by norm_num, show (-1 + -1 : ℤ) = -2 by norm_num, div_sub_div_same, div_div]
  congr 1 <;> ring

theorem sum_cgrad (g : Grid d K) (q : Idx d → K) (a : Fin d) : ∑ i ∈ box g.shape, cgrad g q a i = 0 := by
  unfold cgrad
  rw [← Finset.sum_div, Finset.sum_sub_distrib, sum_roll, sum_roll, sub_self, zero_div]

theorem sum_cdiv (g : Grid d K) (x : Fin d → Idx d → K) : ∑ i ∈ box g.shape, cdiv g x i = 0 := by
  unfold cdiv
  rw [Finset.sum_comm]
  exact Finset.sum_eq_zero fun a _ => sum_cgrad g (x a) a

theorem sum_mul_roll' (s : Fin d → ℕ) (ax : Fin d) (k : ℤ) (f g : Idx d → K) :
    ∑ i ∈ box s, f i * g (rollIdx s ax k i) = ∑ i ∈ box s, f (rollIdx s ax (-k) i) * g i := by
  rw [← sum_roll s ax k (fun i => f (rollIdx s ax (-k) i) * g i)]
  refine Finset.sum_congr rfl fun i hi => ?_
  rw [rollIdx_add, add_neg_cancel, rollIdx_zero (mem_box.1 hi)]

/-- Summation by parts. -/
theorem cgrad_adjoint (g : Grid d K) (p q : Idx d → K) (a : Fin d) :
    ∑ i ∈ box g.shape, p i * cgrad g q a i = -∑ i ∈ box g.shape, cgrad g p a i * q i := by
  have e1 := sum_mul_roll' g.shape a 1 p q
  have e2 := sum_mul_roll' g.shape a (-1) p q
  rw [neg_neg] at e2
  have h1 : ∑ i ∈ box g.shape, p i * cgrad g q a i =
      (∑ i ∈ box g.shape, p i * q (rollIdx g.shape a 1 i) - ∑ i ∈ box g.shape, p i * q (rollIdx g.shape a (-1) i)) / (2 * g.step a) := by
    rw [← Finset.sum_sub_distrib, Finset.sum_div]
    exact Finset.sum_congr rfl fun i _ => by unfold cgrad; ring
  have h2 : ∑ i ∈ box g.shape, cgrad g p a i * q i =
      (∑ i ∈ box g.shape, p (rollIdx g.shape a 1 i) * q i - ∑ i ∈ box g.shape, p (rollIdx g.shape a (-1) i) * q i) / (2 * g.step a) := by
    rw [← Finset.sum_sub_distrib, Finset.sum_div]
    exact Finset.sum_congr rfl fun i _ => by unfold cgrad; ring
  rw [h1, h2, e1, e2]
  ring

theorem cdiv_adjoint (g : Grid d K) (q : Idx d → K) (x : Fin d → Idx d → K) :
    ∑ i ∈ box g.shape, q i * cdiv g x i = -∑ a, ∑ i ∈ box g.shape, cgrad g q a i * x a i := by
  unfold cdiv
  simp only [Finset.mul_sum]
  rw [Finset.sum_comm, ← Finset.sum_neg_distrib]
  exact Finset.sum_congr rfl fun a _ => cgrad_adjoint g q (x a) a

theorem cgrad_congr {g : Grid d K} {p q : Idx d → K} (h : ∀ i, InR g.shape i → p i = q i) (a : Fin d) {i : Idx d}
    (hi : InR g.shape i) : cgrad g p a i = cgrad g q a i := by
  unfold cgrad
  rw [h _ (rollIdx_inR hi _ _), h _ (rollIdx_inR hi _ _)]

theorem cdiv_congr {g : Grid d K} {x y : Fin d → Idx d → K} (h : ∀ a i, InR g.shape i → x a i = y a i) {i : Idx d}
    (hi : InR g.shape i) : cdiv g x i = cdiv g y i := by
  unfold cdiv
  exact Finset.sum_congr rfl fun a _ => cgrad_congr (h a) a hi

theorem cgrad_sub (g : Grid d K) (p q : Idx d → K) (a : Fin d) (i : Idx d) :
    cgrad g (fun i => p i - q i) a i = cgrad g p a i - cgrad g q a i := by
  unfold cgrad
  ring

theorem cgrad_smul (g : Grid d K) (c : K) (p : Idx d → K) (a : Fin d) (i : Idx d) :
    cgrad g (fun i => c * p i) a i = c * cgrad g p a i := by
  unfold cgrad
  ring

theorem cdiv_sub (g : Grid d K) (x y : Fin d → Idx d → K) (i : Idx d) :
    cdiv g (fun a i => x a i - y a i) i = cdiv g x i - cdiv g y i := by
  unfold cdiv
  rw [← Finset.sum_sub_distrib]
  exact Finset.sum_congr rfl fun a _ => cgrad_sub g (x a) (y a) a i

theorem cdiv_smul (g : Grid d K) (c : K) (x : Fin d → Idx d → K) (i : Idx d) :
    cdiv g (fun a i => c * x a i) i = c * cdiv g x i := by
  unfold cdiv
  rw [Finset.mul_sum]
  exact Finset.sum_congr rfl fun a _ => cgrad_smul g c (x a) a i

namespace Collocated
variable [HasNan K] [DecidableEq K]

theorem _root_.JaxCfd.AtCenters.periodic {g : Grid d K} (hs : ∀ a, 0 < g.shape a) {u : GridVariable d K} (h : AtCenters g u) :
    u.Periodic :=
  ⟨fun a => by rw [h.2.2.2]; rfl, fun a => by rw [h.1, h.2.1]; exact ⟨rfl, hs a⟩⟩

/-- `centered_divergence` of periodic variables with one layout. -/
theorem centeredDivergence_periodic (hd : d ≠ 0) {g : Grid d K} {o : Fin d → ℚ} {v : Fin d → GridVariable d K}
    (h : ∀ a, (v a).Periodic) (hl : ∀ a, (v a).array.grid = g ∧ (v a).array.offset = o) :
    centeredDivergence (List.ofFn v) = .ok ⟨⟨g.shape, cdiv g fun a => (v a).array.data⟩, o, g⟩ := by
  unfold centeredDivergence
  have hsh : ∀ a, (v a).array.shape = g.shape := fun a => by
    funext b; rw [((h a).2 b).1, (hl a).1]
  have hseq : seqFin (fun a : Fin d => centralDifference ((List.ofFn v)[a.1]'(by simp)) a) =
      .ok fun a => cenP (v a) a := by
    refine seqFin_ok _ _ fun a => ?_
    rw [List.getElem_ofFn]
    exact centralDifference_periodic (h a) a
  rw [Except.bind_eq_ok]
  refine ⟨g, uniqueOr_eq_ok.2 ⟨by simpa using hd, ?_⟩, ?_⟩
  · intro x hx
    rw [List.mem_map] at hx
    obtain ⟨y, hy, rfl⟩ := hx
    obtain ⟨a, rfl⟩ := (List.mem_ofFn' _ _).1 hy
    exact (hl a).1
  · rw [dif_pos (by simp), hseq, Except.bind_ok, sumArrays_ofFn]
    refine ⟨hd, fun a => ⟨hsh a, (hl a).2, (hl a).1⟩, ?_⟩
    funext i
    show cdiv g (fun a => (v a).array.data) i = _
    unfold cdiv
    refine Finset.sum_congr rfl fun a _ => ?_
    unfold cgrad
    show _ = ((v a).array.data (rollIdx (v a).array.shape a 1 i) - (v a).array.data (rollIdx (v a).array.shape a (-1) i)) /
      (2 * (v a).array.grid.step a)
    rw [hsh a, (hl a).1]

theorem centeredDivergence_centers (hd : d ≠ 0) {g : Grid d K} (hs : ∀ a, 0 < g.shape a) {v : Fin d → GridVariable d K}
    (h : ∀ a, AtCenters g (v a)) :
    centeredDivergence (List.ofFn v) = .ok ⟨⟨g.shape, cdiv g fun a => (v a).array.data⟩, fun _ => 1 / 2, g⟩ :=
  centeredDivergence_periodic hd (fun a => (h a).periodic hs) (fun a => ⟨(h a).1, (h a).2.2.1⟩)

theorem flux_centers {g : Grid d K} (hs : ∀ a, 0 < g.shape a) {c u : GridVariable d K} (hc : AtCenters g c) (hu : AtCenters g u)
    (dir : Fin d) : flux c u dir = .ok ⟨⟨⟨g.shape, fun i => c.array.data i * u.array.data i⟩, fun _ => 1 / 2, g⟩, periodicFluxBC d K⟩ := by
  unfold flux
  obtain ⟨hg, hsh, ho, -⟩ := hc
  rw [advectionFluxBC_periodic _ _ _ (hu.periodic hs).1, if_pos (by rw [hu.2.2.2]; rfl), Except.bind_ok,
    gmap2_ok (by rw [hsh, hu.2.1]) (by rw [ho, hu.2.2.1]) (by rw [hg, hu.1]), Except.bind_ok,
    imposeBC_periodic _ _ (by intro _; rfl) (fun b => by show c.array.shape b = c.array.grid.shape b; rw [hsh, hg])]
  simp only [hsh, ho, hg]

/-- Advection and convection in closed form. -/
theorem divergence_flux (hd : d ≠ 0) {g : Grid d K} (hs : ∀ a, 0 < g.shape a) (f : Fin d → Idx d → K) :
    centeredDivergence (List.ofFn fun a => (⟨⟨⟨g.shape, f a⟩, fun _ => 1 / 2, g⟩, periodicFluxBC d K⟩ : GridVariable d K)) =
      .ok ⟨⟨g.shape, cdiv g f⟩, fun _ => 1 / 2, g⟩ :=
  centeredDivergence_periodic hd (fun _ => ⟨fun _ => rfl, fun b => ⟨rfl, hs b⟩⟩) (fun _ => ⟨rfl, rfl⟩)

/-- **C55.** `collocated.advection.advect_linear` of a scalar at the cell centres of a periodic grid by a velocity stored there is minus
the centred divergence of the flux `c v`, so it never changes the total of `c`. -/
theorem C55_advect_linear (hd : d ≠ 0) (g : Grid d K) (hs : ∀ a, 0 < g.shape a) (c : GridVariable d K) (hc : AtCenters g c)
    (v : Fin d → GridVariable d K) (hv : ∀ a, AtCenters g (v a)) :
    ∃ r, advectLinear c v = .ok r ∧ r.shape = g.shape ∧ r.grid = g ∧ (r.offset = fun _ => 1 / 2) ∧
      (∀ i : Idx d, r.data i = -∑ a, (c.array.data (rollIdx g.shape a 1 i) * (v a).array.data (rollIdx g.shape a 1 i) -
        c.array.data (rollIdx g.shape a (-1) i) * (v a).array.data (rollIdx g.shape a (-1) i)) / (2 * g.step a)) ∧
      r.toNArr.sum = 0 := by
  refine ⟨gmap (fun x => -x) ⟨⟨g.shape, cdiv g fun a i => c.array.data i * (v a).array.data i⟩, fun _ => 1 / 2, g⟩, ?_, rfl, rfl, rfl,
    fun i => rfl, ?_⟩
  · unfold advectLinear
    rw [seqFin_ok _ (fun a => (⟨⟨⟨g.shape, fun i => c.array.data i * (v a).array.data i⟩, fun _ => 1 / 2, g⟩, periodicFluxBC d K⟩ :
      GridVariable d K)) (fun a => flux_centers hs hc (hv a) a), Except.bind_ok, divergence_flux hd hs]
    rfl
  · show ∑ i ∈ box g.shape, -cdiv g (fun a i => c.array.data i * (v a).array.data i) i = 0
    rw [Finset.sum_neg_distrib, sum_cdiv, neg_zero]

/-- **C55.** `collocated.advection.convect_linear` advects every component of the velocity: component `i` is
`advect_linear(v[i], v)`; the total momentum is not changed. -/
theorem C55_convect_linear (hd : d ≠ 0) (g : Grid d K) (hs : ∀ a, 0 < g.shape a) (v : Fin d → GridVariable d K)
    (hv : ∀ a, AtCenters g (v a)) :
    ∃ R, convectLinear v = .ok R ∧ ∀ i, advectLinear (v i) v = .ok (R i) ∧ (R i).toNArr.sum = 0 := by
  choose R hR h1 h2 h3 h4 h5 using fun i => C55_advect_linear hd g hs (v i) (hv i) v hv
  refine ⟨R, ?_, fun i => ⟨hR i, h5 i⟩⟩
  unfold convectLinear velocitiesToFlux
  rw [seqFin_ok _ (fun i j => (⟨⟨⟨g.shape, fun x => (v i).array.data x * (v j).array.data x⟩, fun _ => 1 / 2, g⟩, periodicFluxBC d K⟩ :
    GridVariable d K)) (fun i => seqFin_ok _ _ fun j => by
      by_cases hij : i ≤ j
      · rw [if_pos hij, flux_centers hs (hv i) (hv j)]
      · rw [if_neg hij, flux_centers hs (hv j) (hv i)]
        congr 4
        funext x; ring), Except.bind_ok]
  refine seqFin_ok _ _ fun i => ?_
  rw [divergence_flux hd hs, Except.bind_ok]
  refine congrArg Except.ok (GridArray.ext' (h1 i).symm ?_ (h3 i).symm (h2 i).symm)
  funext x
  rw [h4 i x]
  rfl

theorem hasAllPeriodic_single {g : Grid d K} {u : GridVariable d K} (h : AtCenters g u) : ¬ hasAllPeriodic [u] = false := by
  rw [hasAllPeriodic_of (by intro a; rw [h.2.2.2]; rfl)]
  simp

theorem centralGradient_centers {g : Grid d K} (hs : ∀ a, 0 < g.shape a) {u : GridVariable d K} (h : AtCenters g u) :
    centralGradient u = .ok fun a => ⟨⟨⟨g.shape, cgrad g u.array.data a⟩, fun _ => 1 / 2, g⟩, periodicBC d⟩ := by
  unfold centralGradient centralDifferences
  rw [seqFin_ok _ (fun a => (⟨⟨g.shape, cgrad g u.array.data a⟩, fun _ => 1 / 2, g⟩ : GridArray d K)) (fun a => by
    rw [centralDifference_periodic (h.periodic hs) a]
    refine congrArg Except.ok (GridArray.ext' h.2.1 ?_ h.2.2.1 h.1)
    funext i
    show (u.array.data (rollIdx u.array.shape a 1 i) - u.array.data (rollIdx u.array.shape a (-1) i)) / (2 * u.array.grid.step a) = _
    rw [h.1, h.2.1]
    rfl), Except.bind_ok, h.2.2.2]
  rfl

theorem divGrad (hd : d ≠ 0) {g : Grid d K} (hs : ∀ a, 0 < g.shape a) (q : Idx d → K) :
    centeredDivergence (List.ofFn fun a => (⟨⟨⟨g.shape, cgrad g q a⟩, fun _ => 1 / 2, g⟩, periodicBC d⟩ : GridVariable d K)) =
      .ok ⟨⟨g.shape, cdiv g fun a => cgrad g q a⟩, fun _ => 1 / 2, g⟩ :=
  centeredDivergence_centers hd hs fun _ => ⟨rfl, rfl, rfl, rfl⟩

/-- **C55.** `collocated.diffusion.diffuse` is `nu` times the second difference between the points two cells away, summed over the
axes; it does not change the total, and `sum(c * diffuse(c)) = -nu sum |grad c|²` with centred differences. -/
theorem C55_diffuse (hd : d ≠ 0) (g : Grid d K) (hs : ∀ a, 0 < g.shape a) (c : GridVariable d K) (hc : AtCenters g c) (nu : K) :
    ∃ r D, diffuse c nu = .ok r ∧ centralDifferences c = .ok D ∧ r.shape = g.shape ∧ r.grid = g ∧ (r.offset = fun _ => 1 / 2) ∧
      (∀ i : Idx d, InR g.shape i → r.data i = nu * ∑ a, (c.array.data (rollIdx g.shape a 2 i) - 2 * c.array.data i +
        c.array.data (rollIdx g.shape a (-2) i)) / (4 * g.step a ^ 2)) ∧
      r.toNArr.sum = 0 ∧ inner c.array.toNArr r.toNArr = -nu * ∑ a, inner (D a).toNArr (D a).toNArr := by
  have hcd : centralDifferences c = .ok fun a => (⟨⟨g.shape, cgrad g c.array.data a⟩, fun _ => 1 / 2, g⟩ : GridArray d K) := by
    have := centralGradient_centers hs hc
    unfold centralGradient at this
    rw [Except.bind_eq_ok] at this
    obtain ⟨D, hD, hE⟩ := this
    have hE := Except.ok.inj hE
    rw [hD]
    congr 1
    funext a
    exact congrArg GridVariable.array (congrFun hE a)
  refine ⟨gmap (fun x => nu * x) ⟨⟨g.shape, cdiv g fun a => cgrad g c.array.data a⟩, fun _ => 1 / 2, g⟩, _, ?_, hcd, rfl, rfl, rfl,
    fun i hi => ?_, ?_, ?_⟩
  · unfold diffuse
    rw [if_neg (hasAllPeriodic_single hc), centralGradient_centers hs hc, Except.bind_ok, divGrad hd hs]
    rfl
  · show nu * cdiv g (fun a => cgrad g c.array.data a) i = _
    rw [cdiv_cgrad g _ hi]
    rfl
  · show ∑ i ∈ box g.shape, nu * cdiv g (fun a => cgrad g c.array.data a) i = 0
    rw [← Finset.mul_sum, sum_cdiv, mul_zero]
  · show ∑ i ∈ box c.array.shape, c.array.data i * (nu * cdiv g (fun a => cgrad g c.array.data a) i) = _
    rw [hc.2.1]
    have e : ∀ i ∈ box g.shape, c.array.data i * (nu * cdiv g (fun a => cgrad g c.array.data a) i) =
        nu * (c.array.data i * cdiv g (fun a => cgrad g c.array.data a) i) := fun i _ => by ring
    rw [Finset.sum_congr rfl e, ← Finset.mul_sum, cdiv_adjoint]
    simp only [inner]
    ring

/-- **C55.** `collocated.diffusion.diffuse` refuses variables that are not periodic along every axis. -/
theorem C55_diffuse_rejects (c : GridVariable d K) (nu : K) (a : Fin d) (h : (c.bc.types a).1 ≠ .periodic) :
    diffuse c nu = .error .value := by
  unfold diffuse
  rw [if_pos]
  rw [← Bool.not_eq_true]
  intro H
  unfold hasAllPeriodic isPeriodicBC at H
  rw [List.all_eq_true] at H
  have h1 := H c (List.mem_singleton.2 rfl)
  rw [List.all_eq_true] at h1
  exact h (by simpa using h1 a (List.mem_finRange a))

/-- **C55** (a defect). At open boundaries (homogeneous Neumann for all components) the convective flux of component `i` across the
boundary normal to axis `j` keeps the Neumann condition only for `i ≤ j`; for `i > j` it is copied from the transposed entry, whose
condition along axis `j` is Dirichlet zero.  Relabelling the axes therefore changes the result. -/
theorem C55_open_boundary_defect (v : Fin d → GridVariable d K) (hv : ∀ a, (v a).bc = neumannBC d none)
    (fl : Fin d → Fin d → GridVariable d K) (h : velocitiesToFlux v = .ok fl) (i j : Fin d) :
    (i ≤ j → (fl i j).bc.types j = (.neumann, .neumann)) ∧ (j < i → (fl i j).bc.types j = (.dirichlet, .dirichlet)) := by
  have hflux : ∀ (a b c : Fin d) (r : GridVariable d K), flux (v a) (v b) c = .ok r →
      ∀ k : Fin d, r.bc.types k = if c = k then (.neumann, .neumann) else (.dirichlet, .dirichlet) := by
    intro a b c r hr k
    unfold flux at hr
    obtain ⟨bc, h1, hr⟩ := Except.bind_eq_ok.1 hr
    obtain ⟨p, h2, hr⟩ := Except.bind_eq_ok.1 hr
    have hbc : r.bc = bc := by
      unfold BC.imposeBC at hr
      obtain ⟨_, _, hr⟩ := Except.bind_eq_ok.1 hr
      unfold BC.padAndImposeBC at hr
      obtain ⟨_, _, hr⟩ := Except.bind_eq_ok.1 hr
      rw [← Except.ok.inj hr]
    unfold advectionFluxBC at h1
    rw [hv b, if_neg (by simp [neumannBC, bcWithValues, homogeneousBC])] at h1
    obtain ⟨t, h3, h1⟩ := Except.bind_eq_ok.1 h1
    rw [hbc, ← Except.ok.inj h1]
    have h4 := (seqFin_eq_ok _ _).1 h3 k
    unfold fluxAxis at h4
    rw [hv b, hv a] at h4
    show (t k).1 = _
    by_cases hck : c = k
    · rw [if_pos hck]
      rw [if_neg (by simp [neumannBC, bcWithValues, homogeneousBC]), if_neg (by simp [hck])] at h4
      simp [neumannBC, bcWithValues, homogeneousBC, fluxSide, bind, Except.bind, pure, Except.pure] at h4
      rw [← h4]
    · rw [if_neg hck]
      rw [if_neg (by simp [neumannBC, bcWithValues, homogeneousBC]), if_pos hck] at h4
      rw [← Except.ok.inj h4]
  unfold velocitiesToFlux at h
  have h1 := (seqFin_eq_ok _ _).1 ((seqFin_eq_ok _ _).1 h i) j
  constructor
  · intro hij
    rw [if_pos hij] at h1
    rw [hflux _ _ _ _ h1, if_pos rfl]
  · intro hij
    rw [if_neg (not_le.2 hij)] at h1
    rw [hflux _ _ _ _ h1, if_neg (ne_of_gt hij)]

end Collocated
end JaxCfd
