import Verif.Lemmas.CGLoop
import Verif.Props.Pressure
import Verif.Props.WallStep
import Verif.Props.ImplicitNS

/-!
# C69: conjugate gradient solvers
-/

namespace JaxCfd
open CG VelocityField
variable {d : ℕ} [HasNan ℝ]

/-! ## The pressure operator as a matrix -/

theorem extend_add (s : Fin d → ℕ) (f h : Cells s → ℝ) (i : Idx d) : extend s (f + h) i = extend s f i + extend s h i := by
  unfold extend; split_ifs <;> simp

theorem extend_smul (s : Fin d → ℕ) (c : ℝ) (f : Cells s → ℝ) (i : Idx d) : extend s (c • f) i = c * extend s f i := by
  unfold extend; split_ifs <;> simp

/-- The Laplacian of the pressure, as a matrix. -/
noncomputable def pressureMatrix (g : Grid d ℝ) (v : Fin d → GridVariable d ℝ) :
    (Cells g.shape → ℝ) →ₗ[ℝ] (Cells g.shape → ℝ) where
  toFun f := restrict g.shape fun i => ∑ a, ((pvar g v (extend g.shape f)).above a i + (pvar g v (extend g.shape f)).below a i -
    2 * extend g.shape f i) / g.step a ^ 2
  map_add' f h := by
    funext i
    simp only [restrict, Pi.add_apply, pvar_above, pvar_below, extend_add]
    rw [← Finset.sum_add_distrib]
    refine Finset.sum_congr rfl fun a _ => ?_
    split_ifs <;> ring
  map_smul' c f := by
    funext i
    simp only [restrict, Pi.smul_apply, smul_eq_mul, RingHom.id_apply, pvar_above, pvar_below, extend_smul]
    rw [Finset.mul_sum]
    refine Finset.sum_congr rfl fun a _ => ?_
    split_ifs <;> ring

theorem below_congr {g : Grid d ℝ} {v : Fin d → GridVariable d ℝ} {q q' : Idx d → ℝ} (e : ∀ i, InR g.shape i → q' i = q i)
    (a : Fin d) {i : Idx d} (hi : InR g.shape i) : (pvar g v q').below a i = (pvar g v q).below a i := by
  rw [pvar_below, pvar_below]
  by_cases hp : (v a).bc.types a = (.periodic, .periodic)
  · rw [if_pos hp, if_pos hp, e _ (rollIdx_inR hi a (-1))]
  · rw [if_neg hp, if_neg hp]
    by_cases hl : 0 < i a
    · rw [if_pos hl, if_pos hl, e _ (hi.update a (by omega) (by have := hi a; omega))]
    · rw [if_neg hl, if_neg hl, e _ hi]

theorem pressureMatrix_restrict {g : Grid d ℝ} {v : Fin d → GridVariable d ℝ} (q : Idx d → ℝ) :
    pressureMatrix g v (restrict g.shape q) = restrict g.shape fun i => ∑ a, ((pvar g v q).above a i + (pvar g v q).below a i -
      2 * q i) / g.step a ^ 2 := by
  funext i
  have hi : InR g.shape i.1 := mem_box.1 i.2
  show (∑ a : Fin d, _ : ℝ) = ∑ a : Fin d, _
  refine Finset.sum_congr rfl fun a _ => ?_
  rw [above_congr (fun j hj => extend_restrict q hj) a hi, below_congr (fun j hj => extend_restrict q hj) a hi,
    extend_restrict q hi]

theorem pressure_realizes {g : Grid d ℝ} {v : Fin d → GridVariable d ℝ} (h : VelocityField g v) :
    Realizes g.shape (fun _ => 1 / 2) g (laplacianWithBCs (pbc v)) (pressureMatrix g v) := by
  intro u hu
  obtain ⟨⟨us, ud⟩, uo, ug⟩ := u
  obtain ⟨h1, h2, h3⟩ := hu
  simp only at h1 h2 h3
  subst h1 h2 h3
  obtain ⟨q', hq', he⟩ := h.pbc_impose ud
  obtain ⟨L, hL, hLs, hLo, hLg, hLe⟩ := laplacian_supported' (h.pvar_centered q').1
  refine ⟨L, ?_, ⟨hLs, hLo, hLg⟩, ?_⟩
  · unfold laplacianWithBCs
    rw [hq', Except.bind_ok, hL]
  · rw [pressureMatrix_restrict]
    funext i
    have hi : InR ug.shape i.1 := mem_box.1 i.2
    show L.data i.1 = _
    rw [hLe i.1 hi]
    refine Finset.sum_congr rfl fun a _ => ?_
    rw [above_congr he a hi, below_congr he a hi]
    show (_ + _ - 2 * q' i.1) / ug.step a ^ 2 = _
    rw [he i.1 hi]

theorem pressureMatrix_energy {g : Grid d ℝ} {v : Fin d → GridVariable d ℝ} (f : Cells g.shape → ℝ) :
    dot f (pressureMatrix g v f) = - ∑ a, ∑ i ∈ box g.shape, grad g v (extend g.shape f) a i ^ 2 := by
  rw [grad_energy, neg_neg]
  conv_lhs => rw [← restrict_extend g.shape f, pressureMatrix_restrict, dot_restrict]

theorem pressureMatrix_kernel {g : Grid d ℝ} {v : Fin d → GridVariable d ℝ} (f : Cells g.shape → ℝ)
    (h : dot f (pressureMatrix g v f) = 0) (a : Fin d) {i : Idx d} (hi : InR g.shape i) :
    grad g v (extend g.shape f) a i = 0 := by
  rw [pressureMatrix_energy, neg_eq_zero] at h
  have h1 := (Finset.sum_eq_zero_iff_of_nonneg fun a _ => Finset.sum_nonneg fun i _ => sq_nonneg _).1 h a (Finset.mem_univ a)
  exact pow_eq_zero_iff (two_ne_zero) |>.1
    ((Finset.sum_eq_zero_iff_of_nonneg fun i _ => sq_nonneg _).1 h1 i (mem_box.2 hi))

theorem pressureMatrix_semidefinite {g : Grid d ℝ} {v : Fin d → GridVariable d ℝ} (f : Cells g.shape → ℝ)
    (h : dot f (pressureMatrix g v f) = 0) : pressureMatrix g v f = 0 := by
  have hg := fun a i hi => pressureMatrix_kernel f h a (i := i) hi
  rw [← restrict_extend g.shape f, pressureMatrix_restrict]
  funext i
  have hi : InR g.shape i.1 := mem_box.1 i.2
  show (∑ a : Fin d, _ : ℝ) = 0
  refine Finset.sum_eq_zero fun a _ => ?_
  have e1 : grad g v (extend g.shape f) a i.1 = 0 := hg a _ hi
  have e2 : (extend g.shape f i.1 - (pvar g v (extend g.shape f)).below a i.1) / g.step a = 0 := by
    rw [← grad_below _ a i.1 hi]
    by_cases hp : (v a).bc.types a = (.periodic, .periodic)
    · rw [if_pos hp]; exact hg a _ (rollIdx_inR hi a (-1))
    · rw [if_neg hp]
      by_cases h0 : 0 < i.1 a
      · rw [if_pos h0]; exact hg a _ (hi.update a (by omega) (by have := hi a; omega))
      · rw [if_neg h0]
  unfold grad at e1
  have : ((pvar g v (extend g.shape f)).above a i.1 + (pvar g v (extend g.shape f)).below a i.1 -
      2 * extend g.shape f i.1) / g.step a ^ 2 = (((pvar g v (extend g.shape f)).above a i.1 - extend g.shape f i.1) / g.step a -
      (extend g.shape f i.1 - (pvar g v (extend g.shape f)).below a i.1) / g.step a) / g.step a := by ring
  rw [this, e1, e2]; simp

theorem pressureMatrix_symmetric {g : Grid d ℝ} {v : Fin d → GridVariable d ℝ} (h : VelocityField g v) (x y : Cells g.shape → ℝ) :
    dot (pressureMatrix g v x) y = dot x (pressureMatrix g v y) := by
  obtain ⟨L, hL, hLs, -, -, hLe⟩ := laplacian_supported' (h.pvar_centered (extend g.shape x)).1
  obtain ⟨M, hM, hMs, -, -, hMe⟩ := laplacian_supported' (h.pvar_centered (extend g.shape y)).1
  have hsym := C22_laplacian_symmetric (pvar g v (extend g.shape x)) (pvar g v (extend g.shape y)) (h.pvar_centered _)
    (h.pvar_centered _) rfl rfl L M hL hM
  have e : ∀ (z : Cells g.shape → ℝ) (N : GridArray d ℝ), (∀ i, InR g.shape i → N.data i = ∑ a, ((pvar g v (extend g.shape z)).above a i +
      (pvar g v (extend g.shape z)).below a i - 2 * extend g.shape z i) / g.step a ^ 2) → pressureMatrix g v z = restrict g.shape N.data := by
    intro z N hN
    conv_lhs => rw [← restrict_extend g.shape z, pressureMatrix_restrict]
    funext i
    exact (hN i.1 (mem_box.1 i.2)).symm
  rw [e x L hLe, e y M hMe, dot_comm]
  conv_lhs => rw [← restrict_extend g.shape y]
  conv_rhs => rw [← restrict_extend g.shape x]
  rw [dot_restrict, dot_restrict]
  exact hsym

/-- In a closed or periodic domain the divergence is orthogonal to every field without gradient. -/
theorem divergence_orthogonal {g : Grid d ℝ} {v : Fin d → GridVariable d ℝ} (h : VelocityField g v) (hw : WallsStored v)
    (hclosed : ∀ a, (v a).bc.types a = (.periodic, .periodic) ∨ (v a).bc.bcValues a = (some 0, some 0))
    {D : Idx d → ℝ} (hD : ∀ i, InR g.shape i → D i = ∑ a, ((v a).array.data i - (v a).below a i) / g.step a)
    (q : Idx d → ℝ) (hq : ∀ a i, InR g.shape i → grad g v q a i = 0) : ∑ i ∈ box g.shape, q i * D i = 0 := by
  rw [Finset.sum_congr rfl fun i hi => by rw [hD i (mem_box.1 hi), Finset.mul_sum], Finset.sum_comm]
  refine Finset.sum_eq_zero fun a _ => ?_
  have hwall : ¬ (v a).bc.types a = (.periodic, .periodic) → ∀ i, InR g.shape i → i a + 1 = g.shape a → (v a).array.data i = 0 := by
    intro hp i hi hl
    have hdir : (v a).bc.types a = (.dirichlet, .dirichlet) := by
      rcases h.2.2 a with e | e
      · exact absurd (e a) hp
      · exact e.1
    rw [hw a i (by rw [(h.2.1 a).2.1]; exact hi) hdir (by rw [(h.2.1 a).2.1]; exact hl)]
    rcases hclosed a with e | e
    · exact absurd e hp
    · simp [BC.constantValues, e]
  have hbp := by_parts g.shape ((v a).bc.types a = (.periodic, .periodic)) a (v a).array.data q hwall
  simp only [← pvar_above] at hbp
  have e0 : ∑ i ∈ box g.shape, (v a).array.data i * ((pvar g v q).above a i - q i) / g.step a = 0 :=
    Finset.sum_eq_zero fun i hi => by
      have := hq a i (mem_box.1 hi)
      unfold grad at this
      rw [mul_div_assoc, this, mul_zero]
  rw [← Finset.sum_div, hbp, neg_div, neg_eq_zero, Finset.sum_div] at e0
  rw [← e0]
  refine Finset.sum_congr rfl fun i _ => ?_
  rw [h.below_normal]
  by_cases hp : (v a).bc.types a = (.periodic, .periodic)
  · simp only [hp, if_true]; ring
  · have hcv : ((v a).bc.constantValues a).1 = 0 := by
      rcases hclosed a with e | e
      · exact absurd e hp
      · simp [BC.constantValues, e]
    simp only [hp, if_false, hcv]; ring

/-! ## Pressure -/

/-- The squared norm of the divergence of a velocity field. -/
def SquaredDivergence (g : Grid d ℝ) (v : Fin d → GridVariable d ℝ) (e : ℝ) : Prop :=
  ∃ D, divergence (List.ofFn v) = .ok D ∧ D.shape = g.shape ∧ e = ∑ i ∈ box g.shape, D.data i ^ 2

/-- **C69** `pressure.solve_cg` on a staggered velocity field in a periodic or closed domain (any mixture): for every cell-centred
initial guess and all tolerances, with the default iteration limit or any limit not below the number of cells, it returns a
cell-centred `q` with `|divergence(v) - laplacian(q)|² <= max(rtol² |divergence(v)|², atol²)`, the pressure boundary condition
being passed in or inferred. -/
theorem C69_pressure_cg (hd : d ≠ 0) (g : Grid d ℝ) (v : Fin d → GridVariable d ℝ) (h : VelocityField g v) (hw : WallsStored v)
    (hclosed : ∀ a, (v a).bc.types a = (.periodic, .periodic) ∨ (v a).bc.bcValues a = (some 0, some 0))
    (bc : BC d ℝ) (hbc : pressureBCFromVelocity (List.ofFn v) = .ok bc) (arg : Option (BC d ℝ)) (harg : arg = none ∨ arg = some bc)
    (q0 : GridVariable d ℝ) (hq0 : q0.array.shape = g.shape ∧ (q0.array.offset = fun _ => 1 / 2) ∧ q0.array.grid = g)
    (opt : CGOptions) (hm : ∀ m, opt.maxiter = some m → ∏ a, g.shape a ≤ m) :
    ∃ q D L, pressureCG opt v q0 arg = .ok q ∧ q.shape = g.shape ∧ (q.offset = fun _ => 1 / 2) ∧ q.grid = g ∧
      divergence (List.ofFn v) = .ok D ∧ laplacian ⟨q, bc⟩ = .ok L ∧
      ∑ i ∈ box g.shape, (D.data i - L.data i) ^ 2 ≤ max (opt.rtol ^ 2 * ∑ i ∈ box g.shape, D.data i ^ 2) (opt.atol ^ 2) := by
  have hb := h.pressureBC hd
  rw [hbc] at hb
  injection hb with hb
  subst hb
  obtain ⟨D, hD, hDe⟩ := h.divergence_eq hd
  obtain ⟨q, w, h1, h2, h3, h4, h5⟩ := conjGrad_converges (pressure_realizes h) (pressureMatrix_symmetric h)
    pressureMatrix_semidefinite (b := ⟨⟨g.shape, D⟩, fun _ => 1 / 2, g⟩) (x0 := q0.array) ⟨rfl, rfl, rfl⟩ ⟨hq0.1, hq0.2.1, hq0.2.2⟩
    (fun y hy => by
      have hk : dot y (pressureMatrix g v y) = 0 := by rw [hy]; unfold dot; simp
      conv_lhs => rw [← restrict_extend g.shape y, dot_restrict]
      exact divergence_orthogonal h hw hclosed hDe _ fun a i hi => pressureMatrix_kernel y hk a hi) opt hm
  obtain ⟨⟨qs, qd⟩, qo, qg⟩ := q
  obtain ⟨e1, e2, e3⟩ := h2
  simp only at e1 e2 e3
  subst e1 e2 e3
  obtain ⟨q', hq', he⟩ := h.pbc_impose qd
  obtain ⟨L, hL, hLs, hLo, hLg, hLe⟩ := laplacian_supported' (h.pvar_centered qd).1
  obtain ⟨L', hL', -, -, -, hLe'⟩ := laplacian_supported' (h.pvar_centered q').1
  have hwL : ∀ i, InR qg.shape i → w.data i = L.data i := by
    unfold laplacianWithBCs at h3
    rw [hq', Except.bind_ok, hL'] at h3
    injection h3 with h3
    subst h3
    intro i hi
    rw [hLe' i hi, hLe i hi]
    refine Finset.sum_congr rfl fun a _ => ?_
    rw [above_congr he a hi, below_congr he a hi]
    show (_ + _ - 2 * q' i) / _ = (_ + _ - 2 * qd i) / _
    rw [he i hi]
    rfl
  refine ⟨_, _, L, ?_, rfl, rfl, rfl, hD, hL, ?_⟩
  · unfold pressureCG
    rw [hD, Except.bind_ok]
    rcases harg with rfl | rfl
    · simp only [Option.elim, hbc, Except.bind_ok]; exact h1
    · simp only [Option.elim, Except.bind_ok]; exact h1
  · refine le_trans (le_of_eq ?_) h5
    exact Finset.sum_congr rfl fun i hi => by rw [hwL i (mem_box.1 hi)]

theorem loop_iter {ι : Type} [Fintype ι] (A : (ι → ℝ) →ₗ[ℝ] (ι → ℝ)) (t : ℝ) (b x0 : ι → ℝ) : ∀ k n : ℕ,
    ∃ m ≤ n + k, loop A t k (iter A b x0 n) = iter A b x0 m
  | 0, n => ⟨n, le_rfl, rfl⟩
  | k + 1, n => by
      unfold loop
      split_ifs
      · rw [← iter_succ]
        obtain ⟨m, hm, e⟩ := loop_iter A t b x0 k (n + 1)
        exact ⟨m, by omega, e⟩
      · exact ⟨n, by omega, rfl⟩

/-- What the solver returns is an iterate. -/
theorem pressureCG_follows {g : Grid d ℝ} {v : Fin d → GridVariable d ℝ} (h : VelocityField g v) (opt : CGOptions) {D : Idx d → ℝ}
    (hD : divergence (List.ofFn v) = .ok ⟨⟨g.shape, D⟩, fun _ => 1 / 2, g⟩) (q0 : Idx d → ℝ) :
    ∃ q, pressureCG opt v (pvar g v q0) (some (pbc v)) = .ok q ∧ Layout g.shape (fun _ => 1 / 2) g q ∧
      ∃ n ≤ opt.maxiter.getD (10 * ∏ a, g.shape a), restrict g.shape q.data =
        (iter (pressureMatrix g v) (restrict g.shape D) (restrict g.shape q0) n).x := by
  have hA := pressure_realizes h
  have hx : Layout g.shape (fun _ => (1 / 2 : ℚ)) g (pvar g v q0).array := ⟨rfl, rfl, rfl⟩
  have hb : Layout g.shape (fun _ => (1 / 2 : ℚ)) g (⟨⟨g.shape, D⟩, fun _ => 1 / 2, g⟩ : GridArray d ℝ) := ⟨rfl, rfl, rfl⟩
  obtain ⟨ax, hax, la, ea⟩ := hA _ hx
  have lr : Layout g.shape (fun _ => (1 / 2 : ℚ)) g (⟨⟨g.shape, fun i => D i - ax.data i⟩, fun _ => 1 / 2, g⟩ : GridArray d ℝ) := ⟨rfl, rfl, rfl⟩
  have er : restrict g.shape (fun i => D i - ax.data i) = restrict g.shape D - pressureMatrix g v (restrict g.shape q0) := by
    rw [show restrict g.shape q0 = restrict g.shape (pvar g v q0).array.data from rfl, ← ea]; rfl
  obtain ⟨c, hc, hf⟩ := cgLoop_follows hA (max (opt.rtol ^ 2 * inner (⟨g.shape, D⟩ : NArr d ℝ) ⟨g.shape, D⟩) (opt.atol ^ 2))
    (opt.maxiter.getD (10 * ∏ a, g.shape a)) (c := ⟨(pvar g v q0).array, ⟨⟨g.shape, fun i => D i - ax.data i⟩, fun _ => 1 / 2, g⟩,
      inner (⟨g.shape, fun i => D i - ax.data i⟩ : NArr d ℝ) ⟨g.shape, fun i => D i - ax.data i⟩,
      ⟨⟨g.shape, fun i => D i - ax.data i⟩, fun _ => 1 / 2, g⟩⟩)
    (a := iter (pressureMatrix g v) (restrict g.shape D) (restrict g.shape q0) 0) ⟨hx, lr, lr, rfl, er, er, by
      rw [show (iter (pressureMatrix g v) (restrict g.shape D) (restrict g.shape q0) 0).r = _ from er.symm, dot_restrict]; rfl⟩
  obtain ⟨n, hn, en⟩ := loop_iter (pressureMatrix g v) (max (opt.rtol ^ 2 * inner (⟨g.shape, D⟩ : NArr d ℝ) ⟨g.shape, D⟩) (opt.atol ^ 2))
    (restrict g.shape D) (restrict g.shape q0) (opt.maxiter.getD (10 * ∏ a, g.shape a)) 0
  refine ⟨c.x, ?_, hf.lx, n, by omega, ?_⟩
  · unfold pressureCG
    rw [hD, Except.bind_ok]
    simp only [Option.elim, Except.bind_ok]
    unfold conjGrad
    rw [if_neg (by simp [pvar]), hax, Except.bind_ok, treeCombine_ok hb la, Except.bind_ok]
    dsimp only
    rw [hc]
    rfl
  · rw [hf.ex, en]

/-- **C69** Whatever the options (also with too few iterations), the divergence left by `projection` with the conjugate gradient solver is
exactly the residual of the linear system the solver was given. -/
theorem C69_projection_residual (hd : d ≠ 0) (g : Grid d ℝ) (v : Fin d → GridVariable d ℝ) (h : VelocityField g v) (hw : WallsStored v)
    (opt : CGOptions) (bc : BC d ℝ) (hbc : pressureBCFromVelocity (List.ofFn v) = .ok bc) :
    ∃ (q0 : GridVariable d ℝ) (q : GridArray d ℝ) (w : Fin d → GridVariable d ℝ) (D D' L : GridArray d ℝ),
      (q0.array.shape = g.shape ∧ (q0.array.offset = fun _ => 1 / 2) ∧ q0.array.grid = g) ∧
      Returns (fun v q0 bc => pressureCG opt v q0 (some bc)) g v bc q ∧
      pressureCG opt v q0 (some bc) = .ok q ∧ projection v (fun v q0 bc => pressureCG opt v q0 (some bc)) = .ok w ∧
      VelocityField g w ∧ WallsStored w ∧ (∀ a, (w a).bc = (v a).bc) ∧ divergence (List.ofFn v) = .ok D ∧
      divergence (List.ofFn w) = .ok D' ∧ laplacian ⟨q, bc⟩ = .ok L ∧ ∀ i, InR g.shape i → D'.data i = D.data i - L.data i := by
  have hb := h.pressureBC hd
  rw [hbc] at hb
  injection hb with hb
  subst hb
  obtain ⟨q0, hq0, -⟩ := h.pbc_impose (fun _ => 0)
  obtain ⟨D, hD, hDe⟩ := h.divergence_eq hd
  obtain ⟨q, hq, hl, -⟩ := pressureCG_follows h opt hD q0
  have hret : Returns (fun v q0 bc => pressureCG opt v q0 (some bc)) g v (pbc v) q := ⟨hbc, fun q1 hq1 => by
    rw [hq0] at hq1
    rw [← Except.ok.inj hq1]
    exact hq, hl.shape, hl.grid, hl.offset⟩
  obtain ⟨w, D1, D', L, f1, f2, f3, f4, f5, f6, f7, -, -, -, f8⟩ := C33_residual hd g v h hw _ (pbc v) q hret
  exact ⟨_, q, w, D1, D', L, ⟨rfl, rfl, rfl⟩, hret, hq, f1, f2, f3, f4, f5, f6, f7, f8⟩

/-- **C69** Projection with the conjugate gradient solver in a periodic or closed domain: with the default iteration limit, or any limit
not below the number of cells, the squared norm of the divergence of the result is at most `max(rtol² |divergence(v)|², atol²)`. -/
theorem C69_projection (hd : d ≠ 0) (g : Grid d ℝ) (v : Fin d → GridVariable d ℝ) (h : VelocityField g v) (hw : WallsStored v)
    (hclosed : ∀ a, (v a).bc.types a = (.periodic, .periodic) ∨ (v a).bc.bcValues a = (some 0, some 0))
    (opt : CGOptions) (hm : ∀ m, opt.maxiter = some m → ∏ a, g.shape a ≤ m) :
    ∃ w D D', projection v (fun v q0 bc => pressureCG opt v q0 (some bc)) = .ok w ∧ VelocityField g w ∧ WallsStored w ∧
      (∀ a, (w a).bc = (v a).bc) ∧ divergence (List.ofFn v) = .ok D ∧ divergence (List.ofFn w) = .ok D' ∧
      ∑ i ∈ box g.shape, D'.data i ^ 2 ≤ max (opt.rtol ^ 2 * ∑ i ∈ box g.shape, D.data i ^ 2) (opt.atol ^ 2) := by
  have hbc := h.pressureBC hd
  obtain ⟨q0, q, w, D, D', L, h0, -, h1, h2, h3, h4, h5, h6, h7, h8, h9⟩ := C69_projection_residual hd g v h hw opt _ hbc
  obtain ⟨q', E, M, e1, -, -, -, e5, e6, e7⟩ := C69_pressure_cg hd g v h hw hclosed _ hbc _ (Or.inr rfl) q0 h0 opt hm
  rw [h1] at e1
  have e1 := Except.ok.inj e1
  subst e1
  rw [h6] at e5
  have e5 := Except.ok.inj e5
  subst e5
  rw [h8] at e6
  have e6 := Except.ok.inj e6
  subst e6
  refine ⟨w, D, D', h2, h3, h4, h5, h6, h7, le_trans (le_of_eq ?_) e7⟩
  exact Finset.sum_congr rfl fun i hi => by rw [h9 i (mem_box.1 hi)]

/-- **C69** With both tolerances zero the conjugate gradient solver is exact: the projection is divergence-free, on closed and on
periodic domains. -/
theorem C69_projection_exact (hd : d ≠ 0) (g : Grid d ℝ) (v : Fin d → GridVariable d ℝ) (h : VelocityField g v) (hw : WallsStored v)
    (hclosed : ∀ a, (v a).bc.types a = (.periodic, .periodic) ∨ (v a).bc.bcValues a = (some 0, some 0))
    (maxiter : Option ℕ) (hm : ∀ m, maxiter = some m → ∏ a, g.shape a ≤ m) :
    ∃ w, projection v (fun v q0 bc => pressureCG ⟨0, 0, maxiter⟩ v q0 (some bc)) = .ok w ∧ VelocityField g w ∧ DivergenceFree g w := by
  obtain ⟨w, D, D', h1, h2, -, -, -, h6, h7⟩ := C69_projection hd g v h hw hclosed ⟨0, 0, maxiter⟩ hm
  refine ⟨w, h1, h2, D', h6, fun i hi => ?_⟩
  have h8 : ∑ i ∈ box g.shape, D'.data i ^ 2 = 0 := le_antisymm (by simpa using h7) (Finset.sum_nonneg fun _ _ => sq_nonneg _)
  exact pow_eq_zero_iff two_ne_zero |>.1 ((Finset.sum_eq_zero_iff_of_nonneg fun i _ => sq_nonneg _).1 h8 i (mem_box.2 hi))

/-- **C69** Hence it satisfies the hypothesis of the theorems about time steps on periodic domains (C56, C68). -/
theorem C69_exact_solver (hd : d ≠ 0) (g : Grid d ℝ) (hs : ∀ a, 0 < g.shape a) (maxiter : Option ℕ)
    (hm : ∀ m, maxiter = some m → ∏ a, g.shape a ≤ m) :
    ExactSolver g fun v q0 bc => pressureCG ⟨0, 0, maxiter⟩ v q0 (some bc) := by
  intro u hu
  have h := hu.velocity hs
  obtain ⟨q0, q, w, D, D', L, h0, hr, h1, h2, h3, h4, h5, h6, h7, h8, h9⟩ :=
    C69_projection_residual hd g u h hu.walls ⟨0, 0, maxiter⟩ _ (h.pressureBC hd)
  refine ⟨_, q, hr, L, D, h8, h6, fun i hi => ?_⟩
  obtain ⟨w', e1, -, D1, e2, e3⟩ := C69_projection_exact hd g u h hu.walls hu.closed maxiter hm
  rw [h2] at e1
  have e1 := Except.ok.inj e1
  subst e1
  rw [h7] at e2
  have e2 := Except.ok.inj e2
  subst e2
  have hi' : InR g.shape i := by rw [← hr.2.2.1]; exact hi
  have := h9 i hi'
  rw [e3 i hi'] at this
  linarith

/-- **C69** One step of the Navier-Stokes solver on a periodic domain with the conjugate gradient solver, whatever the terms and the
Runge-Kutta stepper: the divergence of the new state obeys `|div|² <= max(rtol² |div u|², atol²)`, where `u` is the
state that was last projected. -/
theorem C69_navier_stokes (hd : d ≠ 0) (g : Grid d ℝ) (hs : ∀ a, 0 < g.shape a) (density : ℝ) (viscosity : Option ℝ) (dt : ℝ)
    (opt : CGOptions) (hm : ∀ m, opt.maxiter = some m → ∏ a, g.shape a ≤ m) (C : Option (ConvectFn d)) (D : DiffuseFn d)
    (f : Option (ForcingFn d)) (s : Stepper d) (hst : RungeKutta s) (v w : Fin d → GridVariable d ℝ) (hv : PeriodicField g v)
    (hw : semiImplicitNavierStokes density viscosity dt (fun v q0 bc => pressureCG opt v q0 (some bc)) C D f s v = .ok w) :
    PeriodicField g w ∧ ∃ u E E', PeriodicField g u ∧ divergence (List.ofFn u) = .ok E ∧ divergence (List.ofFn w) = .ok E' ∧
      ∑ i ∈ box g.shape, E'.data i ^ 2 ≤ max (opt.rtol ^ 2 * ∑ i ∈ box g.shape, E.data i ^ 2) (opt.atol ^ 2) := by
  obtain ⟨hl, u, p, hu, hp, hpw⟩ := C56_step_is_projected density viscosity dt _ C D f s hst v w hw
  have hup := hu.periodicField hv
  have hwp := hl.periodicField hv
  obtain ⟨p', E, E', h1, h2, -, h4, h5, h6, h7⟩ := C69_projection hd g u (hup.velocity hs) hup.walls hup.closed opt hm
  rw [hp] at h1
  have h1 := Except.ok.inj h1
  subst h1
  have hpp : PeriodicField g p := ⟨h2.2.1, fun a => (h4 a).trans (hup.2 a)⟩
  rw [hpp.divergence hd hs] at h6
  have h6 := Except.ok.inj h6
  subst h6
  refine ⟨hwp, u, E, _, hup, h5, hwp.divergence hd hs, le_trans (le_of_eq ?_) h7⟩
  refine Finset.sum_congr rfl fun i hi => ?_
  have hi := mem_box.1 hi
  dsimp only
  congr 1
  exact Finset.sum_congr rfl fun a _ => by
    rw [hpw.2 a i (by rw [(hpp.1 a).2.1]; exact hi), hpw.2 a _ (by rw [(hpp.1 a).2.1]; exact rollIdx_inR hi a (-1))]

/-! ## Diffusion -/

/-- A periodic variable on a grid. -/
def pvarP (g : Grid d ℝ) (o : Fin d → ℚ) (bc : BC d ℝ) (q : Idx d → ℝ) : GridVariable d ℝ := ⟨⟨⟨g.shape, q⟩, o, g⟩, bc⟩

/-- The operator `u - nu dt laplacian(u)` of a periodic grid, as a matrix. -/
noncomputable def diffusionMatrix (g : Grid d ℝ) (nu dt : ℝ) : (Cells g.shape → ℝ) →ₗ[ℝ] (Cells g.shape → ℝ) where
  toFun f := restrict g.shape fun i => extend g.shape f i - dt * nu * ∑ a, (extend g.shape f (rollIdx g.shape a 1 i) +
    extend g.shape f (rollIdx g.shape a (-1) i) - 2 * extend g.shape f i) / g.step a ^ 2
  map_add' f h := by
    funext i
    simp only [restrict, Pi.add_apply, extend_add, Finset.mul_sum]
    rw [sub_add_sub_comm, ← Finset.sum_add_distrib]
    congr 1
    refine Finset.sum_congr rfl fun a _ => ?_
    ring
  map_smul' c f := by
    funext i
    simp only [restrict, Pi.smul_apply, smul_eq_mul, RingHom.id_apply, extend_smul, Finset.mul_sum]
    rw [mul_sub, Finset.mul_sum]
    congr 1
    refine Finset.sum_congr rfl fun a _ => ?_
    ring

theorem diffusionMatrix_restrict {g : Grid d ℝ} {nu dt : ℝ} (q : Idx d → ℝ) :
    diffusionMatrix g nu dt (restrict g.shape q) = restrict g.shape fun i => q i - dt * nu * ∑ a, (q (rollIdx g.shape a 1 i) +
      q (rollIdx g.shape a (-1) i) - 2 * q i) / g.step a ^ 2 := by
  funext i
  have hi : InR g.shape i.1 := mem_box.1 i.2
  show extend g.shape (restrict g.shape q) i.1 - dt * nu * (∑ a : Fin d, _ : ℝ) = q i.1 - dt * nu * ∑ a : Fin d, _
  rw [extend_restrict q hi]
  congr 2
  refine Finset.sum_congr rfl fun a _ => ?_
  rw [extend_restrict q (rollIdx_inR hi a 1), extend_restrict q (rollIdx_inR hi a (-1))]

theorem diffusion_realizes {g : Grid d ℝ} (hs : ∀ a, 0 < g.shape a) {o : Fin d → ℚ} {bc : BC d ℝ}
    (hp : ∀ a, bc.types a = (.periodic, .periodic)) (nu dt : ℝ) :
    Realizes g.shape o g (diffusionOp bc nu dt) (diffusionMatrix g nu dt) := by
  intro u hu
  obtain ⟨⟨us, ud⟩, uo, ug⟩ := u
  obtain ⟨h1, h2, h3⟩ := hu
  simp only at h1 h2 h3
  subst h1 h2 h3
  have hper : (pvarP ug uo bc ud).Periodic := ⟨hp, fun a => ⟨rfl, hs a⟩⟩
  refine ⟨_, by
    unfold diffusionOp
    rw [show laplacian ⟨⟨⟨ug.shape, ud⟩, uo, ug⟩, bc⟩ = .ok (lapP (pvarP ug uo bc ud)) from laplacian_periodic hper, Except.bind_ok]
    exact gmap2_ok rfl rfl rfl, ⟨rfl, rfl, rfl⟩, ?_⟩
  rw [diffusionMatrix_restrict]
  rfl

theorem diffusionMatrix_dot {g : Grid d ℝ} {nu dt : ℝ} (x y : Cells g.shape → ℝ) :
    dot x (diffusionMatrix g nu dt y) = dot x y - dt * nu *
      inner (⟨g.shape, extend g.shape x⟩ : NArr d ℝ) (lapP (pvarP g (fun _ => 0) (periodicBC d) (extend g.shape y))).toNArr := by
  conv_lhs => rw [← restrict_extend g.shape y, diffusionMatrix_restrict, ← restrict_extend g.shape x, dot_restrict]
  conv_rhs => rw [← restrict_extend g.shape y, ← restrict_extend g.shape x, dot_restrict]
  rw [restrict_extend, restrict_extend]
  unfold inner
  rw [Finset.mul_sum, ← Finset.sum_sub_distrib]
  refine Finset.sum_congr rfl fun i _ => ?_
  simp only [pvarP]
  ring

theorem diffusionMatrix_symmetric {g : Grid d ℝ} (hs : ∀ a, 0 < g.shape a) {nu dt : ℝ} (x y : Cells g.shape → ℝ) :
    dot (diffusionMatrix g nu dt x) y = dot x (diffusionMatrix g nu dt y) := by
  have hper : ∀ q, (pvarP g (fun _ => 0) (periodicBC d) q).Periodic := fun q => ⟨fun _ => rfl, fun a => ⟨rfl, hs a⟩⟩
  have := C18_laplacian_symmetric (pvarP g (fun _ => 0) (periodicBC d) (extend g.shape x))
    (pvarP g (fun _ => 0) (periodicBC d) (extend g.shape y)) (hper _) (hper _) rfl _ _ (laplacian_periodic (hper _)) (laplacian_periodic (hper _))
  rw [dot_comm, diffusionMatrix_dot, diffusionMatrix_dot, dot_comm y x]
  congr 2
  rw [show (⟨g.shape, extend g.shape x⟩ : NArr d ℝ) = (pvarP g (fun _ => 0) (periodicBC d) (extend g.shape x)).array.toNArr from rfl, this]
  unfold inner
  exact Finset.sum_congr rfl fun i _ => mul_comm _ _

theorem diffusionMatrix_definite {g : Grid d ℝ} (hs : ∀ a, 0 < g.shape a) {nu dt : ℝ} (hc : 0 ≤ nu * dt) (x : Cells g.shape → ℝ) :
    dot x x ≤ dot x (diffusionMatrix g nu dt x) := by
  have hper : (pvarP g (fun _ => 0) (periodicBC d) (extend g.shape x)).Periodic := ⟨fun _ => rfl, fun a => ⟨rfl, hs a⟩⟩
  have := (C18_laplacian_dissipative _ hper _ _ (laplacian_periodic hper) (forwardDifferences_periodic hper)).2
  rw [diffusionMatrix_dot]
  have h2 : dt * nu * inner (⟨g.shape, extend g.shape x⟩ : NArr d ℝ)
      (lapP (pvarP g (fun _ => 0) (periodicBC d) (extend g.shape x))).toNArr ≤ 0 :=
    mul_nonpos_of_nonneg_of_nonpos (by linarith [mul_comm nu dt]) this
  linarith

theorem dot_self_zero {ι : Type} [Fintype ι] {x : ι → ℝ} (h : dot x x ≤ 0) : x = 0 := by
  funext i
  have h0 : ∑ i, x i * x i = 0 := le_antisymm h (Finset.sum_nonneg fun _ _ => mul_self_nonneg _)
  exact mul_self_eq_zero.1 ((Finset.sum_eq_zero_iff_of_nonneg fun i _ => mul_self_nonneg _).1 h0 i (Finset.mem_univ i))

/-- The error of an approximate solution is at most its residual. -/
theorem diffusion_error {g : Grid d ℝ} (hs : ∀ a, 0 < g.shape a) {nu dt : ℝ} (hc : 0 ≤ nu * dt) (e : Cells g.shape → ℝ) :
    dot e e ≤ dot (diffusionMatrix g nu dt e) (diffusionMatrix g nu dt e) := by
  have h1 := diffusionMatrix_definite hs hc e
  have h2 : dot (diffusionMatrix g nu dt e) (diffusionMatrix g nu dt e) - 2 * dot e (diffusionMatrix g nu dt e) + dot e e =
      ∑ i, (diffusionMatrix g nu dt e i - e i) * (diffusionMatrix g nu dt e i - e i) := by
    unfold dot
    rw [Finset.mul_sum, ← Finset.sum_sub_distrib, ← Finset.sum_add_distrib]
    exact Finset.sum_congr rfl fun i _ => by ring
  have h3 : 0 ≤ ∑ i, (diffusionMatrix g nu dt e i - e i) * (diffusionMatrix g nu dt e i - e i) :=
    Finset.sum_nonneg fun _ _ => mul_self_nonneg _
  linarith

/-- **C69** One component of `diffusion.solve_cg`, periodic, `nu dt >= 0`, with the default iteration limit or any limit not below the
number of cells: it returns `x` with `|u - (x - nu dt laplacian(x))|² <= max(rtol² |u|², atol²)`, and the distance of `x`
to the exact backward Euler step obeys the same bound. -/
theorem C69_diffusion_component (u : GridVariable d ℝ) (hu : u.Periodic) (nu dt : ℝ) (hc : 0 ≤ nu * dt) (opt : CGOptions)
    (hm : ∀ m, opt.maxiter = some m → ∏ a, u.array.shape a ≤ m) :
    ∃ x L, diffusionCGOne opt nu dt u = .ok x ∧ x.shape = u.array.shape ∧ x.offset = u.array.offset ∧ x.grid = u.array.grid ∧
      laplacian ⟨x, u.bc⟩ = .ok L ∧
      ∑ i ∈ box u.array.shape, (u.array.data i - (x.data i - nu * dt * L.data i)) ^ 2 ≤
        max (opt.rtol ^ 2 * ∑ i ∈ box u.array.shape, u.array.data i ^ 2) (opt.atol ^ 2) ∧
      ∀ r, BackwardEuler u r nu dt → ∑ i ∈ box u.array.shape, (x.data i - r.array.data i) ^ 2 ≤
        max (opt.rtol ^ 2 * ∑ i ∈ box u.array.shape, u.array.data i ^ 2) (opt.atol ^ 2) := by
  obtain ⟨⟨⟨us, ud⟩, uo, g⟩, ub⟩ := u
  have hs : ∀ a, 0 < g.shape a := fun a => (hu.2 a).2
  have h1 : us = g.shape := funext fun a => (hu.2 a).1
  subst h1
  have hp : ∀ a, ub.types a = (.periodic, .periodic) := hu.1
  have hz : ∀ y : Cells g.shape → ℝ, dot y (diffusionMatrix g nu dt y) = 0 → y = 0 := fun y hy =>
    dot_self_zero (by have := diffusionMatrix_definite hs hc y; linarith)
  obtain ⟨x, w, f1, f2, f3, f4, f5⟩ := conjGrad_converges (diffusion_realizes hs (o := uo) hp nu dt) (diffusionMatrix_symmetric hs)
    (fun y hy => by rw [hz y hy]; simp) (b := ⟨⟨g.shape, ud⟩, uo, g⟩) (x0 := ⟨⟨g.shape, ud⟩, uo, g⟩) ⟨rfl, rfl, rfl⟩ ⟨rfl, rfl, rfl⟩
    (fun y hy => by
      rw [hz y (by rw [hy]; unfold dot; simp)]
      unfold dot
      simp) opt hm
  obtain ⟨⟨xs, xd⟩, xo, xg⟩ := x
  obtain ⟨e1, e2, e3⟩ := f2
  simp only at e1 e2 e3
  subst e1 e2 e3
  have hper : (pvarP xg xo ub xd).Periodic := ⟨hp, fun a => ⟨rfl, hs a⟩⟩
  have hL := laplacian_periodic hper
  have hw : ∀ i, w.data i = xd i - nu * dt * (lapP (pvarP xg xo ub xd)).data i := by
    unfold diffusionOp at f3
    rw [show laplacian ⟨⟨⟨xg.shape, xd⟩, xo, xg⟩, ub⟩ = .ok (lapP (pvarP xg xo ub xd)) from hL, Except.bind_ok] at f3
    have f3 := (gmap2_ok (f := fun x y : ℝ => x - y) (u := ⟨⟨xg.shape, xd⟩, xo, xg⟩) (v := gmap (fun y => dt * nu * y) (lapP (pvarP xg xo ub xd))) rfl rfl rfl).symm.trans f3
    rw [← Except.ok.inj f3]
    intro i
    show xd i - dt * nu * (lapP (pvarP xg xo ub xd)).data i = _
    rw [mul_comm dt nu]
  have hres : ∑ i ∈ box xg.shape, (ud i - (xd i - nu * dt * (lapP (pvarP xg xo ub xd)).data i)) ^ 2 ≤
        max (opt.rtol ^ 2 * ∑ i ∈ box xg.shape, ud i ^ 2) (opt.atol ^ 2) := by
    refine le_trans (le_of_eq ?_) f5
    exact Finset.sum_congr rfl fun i _ => by rw [hw i]
  refine ⟨_, _, f1, rfl, rfl, rfl, hL, hres, fun r hr => le_trans ?_ hres⟩
  have hre := fun i hi => (BackwardEuler.periodic hu hr i hi).2
  have key := diffusion_error hs hc (restrict xg.shape fun i => xd i - r.array.data i)
  rw [diffusionMatrix_restrict, dot_restrict, dot_restrict] at key
  refine (le_of_eq (Finset.sum_congr rfl fun i _ => sq _)).trans (key.trans (le_of_eq ?_))
  refine Finset.sum_congr rfl fun i hi => ?_
  rw [show ud i = _ from (hre i (mem_box.1 hi)).symm]
  have e : ∀ z : ℝ, z ^ 2 = (-z) * (-z) := fun z => by ring
  rw [e]
  have e4 : (xd i - r.array.data i) - dt * nu * ∑ a, ((xd (rollIdx xg.shape a 1 i) - r.array.data (rollIdx xg.shape a 1 i)) +
      (xd (rollIdx xg.shape a (-1) i) - r.array.data (rollIdx xg.shape a (-1) i)) - 2 * (xd i - r.array.data i)) / xg.step a ^ 2 =
      -(r.array.data i - nu * dt * ∑ a, (r.array.data (rollIdx xg.shape a 1 i) + r.array.data (rollIdx xg.shape a (-1) i) -
        2 * r.array.data i) / xg.step a ^ 2 - (xd i - nu * dt * (lapP (pvarP xg xo ub xd)).data i)) := by
    have : ∑ a, ((xd (rollIdx xg.shape a 1 i) - r.array.data (rollIdx xg.shape a 1 i)) +
      (xd (rollIdx xg.shape a (-1) i) - r.array.data (rollIdx xg.shape a (-1) i)) - 2 * (xd i - r.array.data i)) / xg.step a ^ 2 =
      (lapP (pvarP xg xo ub xd)).data i - ∑ a, (r.array.data (rollIdx xg.shape a 1 i) + r.array.data (rollIdx xg.shape a (-1) i) -
        2 * r.array.data i) / xg.step a ^ 2 := by
      show _ = ∑ a : Fin d, _ - _
      rw [← Finset.sum_sub_distrib]
      refine Finset.sum_congr rfl fun a _ => ?_
      simp only [pvarP]
      ring
    rw [this]
    ring
  rw [e4]

/-- **C69** `diffusion.solve_cg`: if some boundary is not periodic it raises ValueError; if all are periodic, `nu dt >= 0` and the
iteration limit is the default one or not below the number of cells, it returns for every component an approximate backward Euler step,
whose distance to the exact one (which exists) is at most `max(rtol |u|, atol)`. -/
theorem C69_diffusion_cg (v : Fin d → GridVariable d ℝ) (nu dt : ℝ) (opt : CGOptions) :
    ((∃ a b, ((v a).bc.types b).1 ≠ .periodic) → diffusionSolveCG opt v nu dt = .error .value) ∧
    ((∀ a, (v a).Periodic) → 0 ≤ nu * dt → (∀ a m, opt.maxiter = some m → ∏ b, (v a).array.shape b ≤ m) →
      ∃ r, diffusionSolveCG opt v nu dt = .ok r ∧ ∀ a, (r a).bc = (v a).bc ∧ (r a).array.shape = (v a).array.shape ∧
        (r a).array.offset = (v a).array.offset ∧ (r a).array.grid = (v a).array.grid ∧
        (∃ s, BackwardEuler (v a) s nu dt) ∧ ∀ s, BackwardEuler (v a) s nu dt →
        ∑ i ∈ box (v a).array.shape, ((r a).array.data i - s.array.data i) ^ 2 ≤
          max (opt.rtol ^ 2 * ∑ i ∈ box (v a).array.shape, (v a).array.data i ^ 2) (opt.atol ^ 2)) := by
  constructor
  · rintro ⟨a, b, h⟩
    exact C36_diffusion_cg_rejects _ v a b h
  · intro hv hc hm
    obtain ⟨x, hx⟩ := Classical.axiom_of_choice fun a => C69_diffusion_component (v a) (hv a) nu dt hc opt (hm a)
    obtain ⟨y, hy⟩ := Classical.axiom_of_choice fun a => C69_diffusion_component (v a) (hv a) nu dt hc ⟨0, 0, none⟩ (fun m h => nomatch h)
    refine ⟨fun a => ⟨x a, (v a).bc⟩, ?_, fun a => ?_⟩
    · unfold diffusionSolveCG diffusionCG
      rw [if_neg]
      · refine seqFin_ok _ _ fun a => ?_
        obtain ⟨L, h1, -⟩ := hx a
        rw [h1]
        rfl
      · rw [Bool.not_eq_false]
        unfold hasAllPeriodic isPeriodicBC
        rw [List.all_eq_true]
        intro u hu
        obtain ⟨a, rfl⟩ := List.mem_ofFn.1 hu
        rw [List.all_eq_true]
        intro b _
        rw [(hv a).1 b]
        rfl
    · obtain ⟨L, h1, h2, h3, h4, h5, h6, h7⟩ := hx a
      obtain ⟨M, k1, k2, k3, k4, k5, k6, -⟩ := hy a
      refine ⟨rfl, h2, h3, h4, ⟨⟨y a, (v a).bc⟩, rfl, k2, k3, k4, ⟨M, k5, fun i hi => ?_⟩, fun i hi hni => ?_⟩, h7⟩
      · rw [periodic_interior (hv a)] at hi
        have h8 : ∑ i ∈ box (v a).array.shape, ((v a).array.data i - ((y a).data i - nu * dt * M.data i)) ^ 2 = 0 :=
          le_antisymm (by simpa using k6) (Finset.sum_nonneg fun _ _ => sq_nonneg _)
        have := pow_eq_zero_iff two_ne_zero |>.1 ((Finset.sum_eq_zero_iff_of_nonneg fun i _ => sq_nonneg _).1 h8 i (mem_box.2 hi))
        show (y a).data i - nu * dt * M.data i = _
        linarith
      · rw [periodic_interior (hv a)] at hni
        exact absurd hi hni

/-- **C69** With both tolerances zero it takes exact backward Euler steps, so the theorems about the step with implicit diffusion
(C56, C68) apply to it. -/
theorem C69_exact_diffusion (g : Grid d ℝ) (hs : ∀ a, 0 < g.shape a) (maxiter : Option ℕ)
    (hm : ∀ m, maxiter = some m → ∏ a, g.shape a ≤ m) : ExactDiffusion g fun v nu dt => diffusionSolveCG ⟨0, 0, maxiter⟩ v nu dt := by
  intro u nu dt hu hc
  have hper := fun a => hu.periodic hs a
  obtain ⟨r, h1, h2⟩ := (C69_diffusion_cg u nu dt ⟨0, 0, maxiter⟩).2 hper hc (fun a m h => by rw [(hu.1 a).2.1]; exact hm m h)
  refine ⟨r, h1, fun a => ?_⟩
  obtain ⟨e1, e2, e3, e4, ⟨s, hs'⟩, e5⟩ := h2 a
  have h8 : ∑ i ∈ box (u a).array.shape, ((r a).array.data i - s.array.data i) ^ 2 = 0 :=
    le_antisymm (by simpa using e5 s hs') (Finset.sum_nonneg fun _ _ => sq_nonneg _)
  have heq : ∀ i, InR (u a).array.shape i → (r a).array.data i = s.array.data i := fun i hi => by
    have := pow_eq_zero_iff two_ne_zero |>.1 ((Finset.sum_eq_zero_iff_of_nonneg fun i _ => sq_nonneg _).1 h8 i (mem_box.2 hi))
    linarith
  have hrp : (r a).Periodic := ⟨by rw [e1]; exact (hper a).1, by rw [e2, e4]; exact (hper a).2⟩
  refine ⟨e1, e2, e3, e4, ⟨_, laplacian_periodic hrp, fun i hi => ?_⟩, fun i hi hni => ?_⟩
  · rw [periodic_interior (hper a)] at hi
    rw [← (BackwardEuler.periodic (hper a) hs' i hi).2, heq i hi]
    congr 2
    show (∑ b : Fin d, _ : ℝ) = _
    refine Finset.sum_congr rfl fun b _ => ?_
    rw [e2, heq _ (rollIdx_inR hi b 1), heq _ (rollIdx_inR hi b (-1)), heq i hi, e4]
  · rw [periodic_interior (hper a)] at hni
    exact absurd hi hni

/-! ## Finite propagation -/

theorem iter_support {ι : Type} [Fintype ι] (A : (ι → ℝ) →ₗ[ℝ] (ι → ℝ)) (ρ : ι → ℕ)
    (hA : ∀ (f : ι → ℝ) (n : ℕ), (∀ i, n < ρ i → f i = 0) → ∀ i, n + 1 < ρ i → A f i = 0) (b : ι → ℝ) (hb : ∀ i, 0 < ρ i → b i = 0) :
    ∀ n : ℕ, (∀ i, n ≤ ρ i → (iter A b 0 n).x i = 0) ∧ (∀ i, n < ρ i → (iter A b 0 n).r i = 0) ∧ ∀ i, n < ρ i → (iter A b 0 n).p i = 0
  | 0 => by
      have e : iter A b 0 0 = ⟨0, b, b⟩ := by unfold iter; simp
      rw [e]
      exact ⟨fun _ _ => rfl, hb, hb⟩
  | n + 1 => by
      obtain ⟨h1, h2, h3⟩ := iter_support A ρ hA b hb n
      rw [iter_succ]
      have hr : ∀ i, n + 1 < ρ i → (step A (iter A b 0 n)).r i = 0 := fun i hi => by
        simp only [step, Pi.sub_apply, Pi.smul_apply, smul_eq_mul]
        rw [h2 i (by omega), hA _ n h3 i hi]; simp
      refine ⟨fun i hi => ?_, hr, fun i hi => ?_⟩
      · simp only [step, Pi.add_apply, Pi.smul_apply, smul_eq_mul]
        rw [h1 i (by omega), h3 i (by omega)]; simp
      · show (step A (iter A b 0 n)).r i + _ * (iter A b 0 n).p i = 0
        rw [hr i hi, h3 i (by omega)]; simp

theorem pressureMatrix_local {g : Grid d ℝ} {v : Fin d → GridVariable d ℝ} (ρ : Idx d → ℕ)
    (hρ : ∀ i a k, InR g.shape i → (k = 1 ∨ k = -1) → ρ i ≤ ρ (rollIdx g.shape a k i) + 1)
    (f : Cells g.shape → ℝ) (n : ℕ) (hf : ∀ i : Cells g.shape, n < ρ i.1 → f i = 0) (i : Cells g.shape) (hn : n + 1 < ρ i.1) :
    pressureMatrix g v f i = 0 := by
  have hi : InR g.shape i.1 := mem_box.1 i.2
  have hx : ∀ j, InR g.shape j → n < ρ j → extend g.shape f j = 0 := fun j hj h => by
    unfold extend; rw [dif_pos (mem_box.2 hj)]; exact hf ⟨j, mem_box.2 hj⟩ h
  have h0 := hx i.1 hi (by omega)
  have hr : ∀ a k, (k = 1 ∨ k = -1) → extend g.shape f (rollIdx g.shape a k i.1) = 0 := fun a k hk =>
    hx _ (rollIdx_inR hi a k) (by have := hρ i.1 a k hi hk; omega)
  show (∑ a : Fin d, _ : ℝ) = 0
  refine Finset.sum_eq_zero fun a _ => ?_
  have ha := hi a
  have hu : ∀ k : ℤ, 0 ≤ i.1 a + k → i.1 a + k < g.shape a → Function.update i.1 a (i.1 a + k) = rollIdx g.shape a k i.1 := fun k h1 h2 => by
    unfold rollIdx
    rw [Int.emod_eq_of_lt h1 h2]
  rw [pvar_above, pvar_below, h0]
  by_cases hp : (v a).bc.types a = (.periodic, .periodic)
  · rw [if_pos hp, if_pos hp, hr a 1 (Or.inl rfl), hr a (-1) (Or.inr rfl)]; simp
  · rw [if_neg hp, if_neg hp]
    have e1 : (if i.1 a + 1 < g.shape a then extend g.shape f (Function.update i.1 a (i.1 a + 1)) else (0 : ℝ)) = 0 := by
      split_ifs with h
      · rw [hu 1 (by omega) h]; exact hr a 1 (Or.inl rfl)
      · rfl
    have e2 : (if 0 < i.1 a then extend g.shape f (Function.update i.1 a (i.1 a - 1)) else (0 : ℝ)) = 0 := by
      split_ifs with h
      · rw [sub_eq_add_neg, hu (-1) (by omega) (by omega)]; exact hr a (-1) (Or.inr rfl)
      · rfl
    rw [h0] at *
    rw [e1, e2]; simp

/-- **C69** Each iteration spreads the pressure by at most one cell: if the divergence is zero at every cell at positive distance (for any
distance function that changes by at most one between neighbours) then `projection` with `maxiter = m` changes no velocity more than
`m` cells away.  So with a fixed `maxiter` (32 in `ml.pressures`) no tolerance is guaranteed on a large grid. -/
theorem C69_finite_propagation (hd : d ≠ 0) (g : Grid d ℝ) (v : Fin d → GridVariable d ℝ) (h : VelocityField g v) (hw : WallsStored v)
    (ρ : Idx d → ℕ) (hρ : ∀ i a k, InR g.shape i → (k = 1 ∨ k = -1) → ρ i ≤ ρ (rollIdx g.shape a k i) + 1)
    (D : GridArray d ℝ) (hD : divergence (List.ofFn v) = .ok D) (hD0 : ∀ i, InR g.shape i → 0 < ρ i → D.data i = 0)
    (opt : CGOptions) (m : ℕ) (hm : opt.maxiter = some m) (w : Fin d → GridVariable d ℝ)
    (hp : projection v (fun v q0 bc => pressureCG opt v q0 (some bc)) = .ok w) (a : Fin d) (i : Idx d) (hi : InR g.shape i)
    (hfar : m < ρ i) : (w a).array.data i = (v a).array.data i := by
  obtain ⟨q0, hq0, e0⟩ := h.pbc_impose (fun _ => 0)
  obtain ⟨E, hE, hEe⟩ := h.divergence_eq hd
  rw [hE] at hD
  have hD := Except.ok.inj hD
  subst hD
  obtain ⟨q, hq, hl, n, hn, en⟩ := pressureCG_follows h opt hE q0
  rw [hm] at hn
  have hn : n ≤ m := hn
  have hret : Returns (fun v q0 bc => pressureCG opt v q0 (some bc)) g v (pbc v) q := ⟨h.pressureBC hd, fun q1 hq1 => by
    rw [hq0] at hq1
    rw [← Except.ok.inj hq1]
    exact hq, hl.shape, hl.grid, hl.offset⟩
  obtain ⟨x, hx, hxe⟩ := projection_eq hd h hw hret
  rw [hp] at hx
  have hx := Except.ok.inj hx
  subst hx
  have hz : restrict g.shape q0 = 0 := funext fun i => e0 i.1 (mem_box.1 i.2)
  rw [hz] at en
  have hq : ∀ j, InR g.shape j → n ≤ ρ j → q.data j = 0 := fun j hj hjn => by
    have := (iter_support (pressureMatrix g v) (fun i => ρ i.1) (fun f n hf i hi => pressureMatrix_local ρ hρ f n hf i hi)
      (restrict g.shape E) (fun i hi => hD0 i.1 (mem_box.1 i.2) hi) n).1 ⟨j, mem_box.2 hj⟩ hjn
    rw [← en] at this
    exact this
  show x a i = _
  rw [hxe a i hi]
  have hup : (pvar g v q.data).above a i = 0 := by
    have ha := hi a
    have hr : q.data (rollIdx g.shape a 1 i) = 0 := hq _ (rollIdx_inR hi a 1) (by have := hρ i a 1 hi (Or.inl rfl); omega)
    rw [pvar_above]
    split_ifs with h1 h2
    · exact hr
    · unfold rollIdx at hr
      rw [Int.emod_eq_of_lt (by omega) h2] at hr
      exact hr
    · exact hq i hi (by omega)
  unfold grad
  rw [hup, hq i hi (by omega)]
  simp

/-- **C69** (a limitation of the defaults of `jax_cfd/ml`).  For every iteration limit `m` and every periodic line of more than `2 m + 2` cells
there is a velocity field which `projection` with `maxiter = m` does not make divergence-free, however small the tolerances. -/
theorem C69_too_few_iterations (g : Grid 1 ℝ) (m : ℕ) (hN : 2 * m + 3 ≤ g.shape 0) (hstep : g.step 0 ≠ 0) :
    ∃ v, PeriodicField g v ∧ ∀ opt : CGOptions, opt.maxiter = some m → ∃ w,
      projection v (fun v q0 bc => pressureCG opt v q0 (some bc)) = .ok w ∧ ¬ DivergenceFree g w := by
  have hs : ∀ a, 0 < g.shape a := fun a => by fin_cases a; show 0 < g.shape 0; omega
  let v : Fin 1 → GridVariable 1 ℝ := fun a => ⟨⟨⟨g.shape, fun i => if i 0 = 0 then 1 else 0⟩, fun b => if b = a then 1 else 1 / 2, g⟩, periodicBC 1⟩
  have hv : PeriodicField g v := ⟨fun a => ⟨rfl, rfl, fun b => rfl⟩, fun a => rfl⟩
  refine ⟨v, hv, fun opt hm => ?_⟩
  have hvel := hv.velocity hs
  obtain ⟨q0, q, w, D, D', L, -, hret, -, hp, -⟩ := C69_projection_residual one_ne_zero g v hvel hv.walls opt _ (hvel.pressureBC one_ne_zero)
  refine ⟨w, hp, fun hdf => ?_⟩
  obtain ⟨x, hx, hxe⟩ := projection_eq one_ne_zero hvel hv.walls hret
  rw [hp] at hx
  have hx := Except.ok.inj hx
  subst hx
  have hwp : PeriodicField g (withData v g x) := ⟨fun a => ⟨rfl, rfl, fun b => rfl⟩, fun a => rfl⟩
  -- the total is preserved
  have htot : ∑ i ∈ box g.shape, x 0 i = ∑ i ∈ box g.shape, (v 0).array.data i := by
    rw [Finset.sum_congr rfl fun i hi => hxe 0 i (mem_box.1 hi), Finset.sum_sub_distrib]
    have : ∑ i ∈ box g.shape, grad g v q.data 0 i = 0 := by
      unfold grad
      simp only [pvar_above, show (v 0).bc.types 0 = (.periodic, .periodic) from rfl, if_true]
      rw [← Finset.sum_div, Finset.sum_sub_distrib, sum_roll, sub_self, zero_div]
    rw [this, sub_zero]
  -- the far cell is unchanged
  have hN0 : ((g.shape 0 : ℕ) : ℤ) ≥ 2 * m + 3 := by exact_mod_cast hN
  have hfar : x 0 (fun _ => (m : ℤ) + 2) = 0 := by
    have hi : InR g.shape (fun _ : Fin 1 => (m : ℤ) + 2) := fun a => by fin_cases a; exact ⟨by positivity, by show (m : ℤ) + 2 < g.shape 0; omega⟩
    have := C69_finite_propagation one_ne_zero g v hvel hv.walls
      (fun i => (min (i 0 - 1) (g.shape 0 - i 0)).toNat) (fun i a k hi hk => by
        have ha : a = 0 := Subsingleton.elim _ _
        subst ha
        have h0 := hi 0
        unfold rollIdx
        simp only [Function.update_self]
        rcases hk with rfl | rfl
        · rcases lt_or_ge (i 0 + 1) (g.shape 0) with h | h
          · rw [Int.emod_eq_of_lt (by omega) h]; omega
          · rw [show i 0 + 1 = ((g.shape 0 : ℕ) : ℤ) by omega, Int.emod_self]; omega
        · rcases le_or_gt 0 (i 0 + -1) with h | h
          · rw [Int.emod_eq_of_lt h (by omega)]; omega
          · rw [show i 0 + -1 = -1 by omega]
            have : (-1 : ℤ) % (g.shape 0 : ℤ) = g.shape 0 - 1 := by
              rw [Int.emod_def, show (-1 : ℤ) / (g.shape 0 : ℤ) = -1 from Int.ediv_eq_neg_one_of_neg_of_le (by omega) (by omega)]; ring
            rw [this]; omega) _ (hv.divergence one_ne_zero hs) (fun i hi hpos => by
        have h0 := hi 0
        simp only [Fin.sum_univ_one]
        have h1 : i 0 ≠ 0 ∧ i 0 - 1 ≠ 0 := by omega
        have h2 : rollIdx g.shape 0 (-1) i 0 = i 0 - 1 := by
          unfold rollIdx
          rw [Function.update_self, Int.emod_eq_of_lt (by omega) (by omega)]; ring
        show ((if i 0 = 0 then (1 : ℝ) else 0) - (if rollIdx g.shape 0 (-1) i 0 = 0 then 1 else 0)) / _ = 0
        rw [h2, if_neg h1.1, if_neg h1.2]; simp) opt m hm _ hp 0 _ hi (by omega)
    refine Eq.trans this ?_
    show (if (m : ℤ) + 2 = 0 then (1 : ℝ) else 0) = 0
    rw [if_neg (by omega)]
  -- a divergence-free field on a line is constant
  obtain ⟨E, hE, hE0⟩ := hdf
  rw [hwp.divergence one_ne_zero hs] at hE
  have hE := Except.ok.inj hE
  subst hE
  have hstepeq : ∀ k : ℕ, (k : ℤ) + 1 < g.shape 0 → x 0 (fun _ => (k : ℤ) + 1) = x 0 (fun _ => (k : ℤ)) := fun k hk => by
    have := hE0 (fun _ : Fin 1 => (k : ℤ) + 1) (fun a => by fin_cases a; exact ⟨by positivity, hk⟩)
    simp only [Fin.sum_univ_one] at this
    have h2 : rollIdx g.shape 0 (-1) (fun _ : Fin 1 => (k : ℤ) + 1) = fun _ => (k : ℤ) := by
      funext a
      fin_cases a
      show (((k : ℤ) + 1 + -1) % (g.shape 0 : ℤ)) = k
      rw [Int.emod_eq_of_lt (by omega) (by omega)]; ring
    rw [h2] at this
    have h3 : x 0 (fun _ => (k : ℤ) + 1) - x 0 (fun _ => (k : ℤ)) = 0 := (div_eq_zero_iff.1 this).resolve_right hstep
    linarith
  have hconst : ∀ k : ℕ, (k : ℤ) < g.shape 0 → x 0 (fun _ => (k : ℤ)) = x 0 (fun _ => 0) := by
    intro k
    induction k with
    | zero => intro _; rfl
    | succ k ih =>
      intro hk
      push_cast at hk ⊢
      rw [hstepeq k hk]
      exact ih (by omega)
  have hzero : x 0 (fun _ => 0) = 0 := by
    rw [← hconst (m + 2) (by push_cast; omega)]
    push_cast
    exact hfar
  have hall : ∀ i, InR g.shape i → x 0 i = 0 := fun i hi => by
    have h0 := hi 0
    have : i = fun _ => ((i 0).toNat : ℤ) := funext fun a => by fin_cases a; show i 0 = _; omega
    rw [this, hconst _ (by omega), hzero]
  rw [Finset.sum_eq_zero fun i hi => hall i (mem_box.1 hi)] at htot
  have hone : ∑ i ∈ box g.shape, (v 0).array.data i = 1 := by
    rw [Finset.sum_eq_single (fun _ : Fin 1 => (0 : ℤ))]
    · show (if (0 : ℤ) = 0 then (1 : ℝ) else 0) = 1
      simp
    · intro i hi hne
      show (if i 0 = 0 then (1 : ℝ) else 0) = 0
      rw [if_neg]
      intro h
      exact hne (funext fun a => by fin_cases a; exact h)
    · intro h
      exact absurd (mem_box.2 fun a => by fin_cases a; exact ⟨le_rfl, by show (0 : ℤ) < g.shape 0; omega⟩) h
  rw [hone] at htot
  exact zero_ne_one htot

/-! ## The configurable modules -/

/-- **C69** The modules of `jax_cfd/ml` with their default arguments: `pressures.conjugate_gradient` (at most 32 iterations) leaves a squared
divergence of at most `max(10⁻¹² |divergence(v)|², 10⁻¹⁰)` on grids of at most 32 cells, and `diffusions.solve_cg` (at most 64
iterations) is within `max(10⁻⁵ |u|, 10⁻⁵)` of the backward Euler step on grids of at most 64 cells. -/
theorem C69_ml_defaults (hd : d ≠ 0) (g : Grid d ℝ) (v : Fin d → GridVariable d ℝ) :
    (VelocityField g v → WallsStored v → (∀ a, (v a).bc.types a = (.periodic, .periodic) ∨ (v a).bc.bcValues a = (some 0, some 0)) →
      ∏ a, g.shape a ≤ 32 → ∃ w D D', projection v ML.conjugateGradient = .ok w ∧ VelocityField g w ∧ WallsStored w ∧
      divergence (List.ofFn v) = .ok D ∧ divergence (List.ofFn w) = .ok D' ∧
      ∑ i ∈ box g.shape, D'.data i ^ 2 ≤ max (1 / 10 ^ 12 * ∑ i ∈ box g.shape, D.data i ^ 2) (1 / 10 ^ 10)) ∧
    (PeriodicField g v → (∀ a, 0 < g.shape a) → ∏ a, g.shape a ≤ 64 → ∀ nu dt, 0 ≤ nu * dt → ∃ r,
      ML.diffusionsSolveCG (v := v) (nu := nu) (dt := dt) = .ok r ∧ ∀ a s, BackwardEuler (v a) s nu dt →
      ∑ i ∈ box g.shape, ((r a).array.data i - s.array.data i) ^ 2 ≤
        max (1 / 10 ^ 10 * ∑ i ∈ box g.shape, (v a).array.data i ^ 2) (1 / 10 ^ 10)) := by
  constructor
  · intro h hw hclosed hN
    obtain ⟨w, D, D', h1, h2, h3, -, h5, h6, h7⟩ := C69_projection hd g v h hw hclosed ⟨CGOptions.default.rtol, 1 / 100000, some 32⟩
      (fun m hm => by injection hm with hm; subst hm; exact hN)
    refine ⟨w, D, D', h1, h2, h3, h5, h6, h7.trans_eq ?_⟩
    congr 1 <;> norm_num [CGOptions.default]
  · intro hv hs hN nu dt hc
    obtain ⟨r, h1, h2⟩ := (C69_diffusion_cg v nu dt ⟨1 / 100000, 1 / 100000, some 64⟩).2 (fun a => hv.periodic hs a) hc
      (fun a m hm => by injection hm with hm; subst hm; rw [(hv.1 a).2.1]; exact hN)
    refine ⟨r, h1, fun a s hs' => ?_⟩
    have := (h2 a).2.2.2.2.2 s hs'
    rw [(hv.1 a).2.1] at this
    refine this.trans_eq ?_
    congr 1 <;> norm_num

namespace Fixtures

/-- The theorems apply to a closed channel with a field that is not divergence-free, with the default arguments ... -/
example : ∃ w D D', projection chanR (fun v q0 bc => pressureCG CGOptions.default v q0 (some bc)) = .ok w ∧
    divergence (List.ofFn chanR) = .ok D ∧ divergence (List.ofFn w) = .ok D' ∧
    ∑ i ∈ box g34r.shape, D'.data i ^ 2 ≤ max ((1 / 1000000) ^ 2 * ∑ i ∈ box g34r.shape, D.data i ^ 2) ((1 / 1000000) ^ 2) := by
  obtain ⟨w, D, D', h1, -, -, -, h5, h6, h7⟩ := C69_projection (by norm_num) g34r chanR chanR_field chanR_walls
    (fun a => by fin_cases a <;> simp [chanR]) CGOptions.default (fun m h => nomatch h)
  exact ⟨w, D, D', h1, h5, h6, h7⟩

/-- ... and to time steps, with both solvers. -/
example : ∃ w, implicitDiffusionNavierStokes 2 3 (1 / 10) (fun v q0 bc => pressureCG ⟨0, 0, none⟩ v q0 (some bc))
    (fun u nu dt => diffusionSolveCG ⟨0, 0, none⟩ u nu dt) none none swirl = .ok w ∧ DivergenceFree g34r w := by
  obtain ⟨w, h1, -, h2, -⟩ := C56_implicit_default_step (by norm_num) g34r g34r_pos 2 3 (1 / 10) (by norm_num)
    _ (C69_exact_solver (by norm_num) g34r g34r_pos none (fun m h => nomatch h))
    _ (C69_exact_diffusion g34r g34r_pos none (fun m h => nomatch h)) swirl swirl_field
  exact ⟨w, h1, h2⟩

example : ∃ w, repeated 0 (semiImplicitNavierStokes 2 (some 3) (1 / 10) (fun v q0 bc => pressureCG ⟨0, 0, none⟩ v q0 (some bc)) none diffuse
    none classicRK4) 100 swirl = .ok w ∧ DivergenceFree g34r w := by
  obtain ⟨w, h1, -, h2, -⟩ := C56_default_trajectory (by norm_num) g34r g34r_pos 2 (some 3) (Or.inl two_ne_zero) (1 / 10)
    _ (C69_exact_solver (by norm_num) g34r g34r_pos none (fun m h => nomatch h)) classicRK4 C56_steppers.2.2.2 100 swirl swirl_field
  exact ⟨w, h1, h2 (Or.inl (by norm_num))⟩

example : (∏ a, g34r.shape a ≤ 32) ∧ ∏ a, g34r.shape a ≤ 64 := by simp [g34r, Fin.prod_univ_two]

end Fixtures

end JaxCfd
