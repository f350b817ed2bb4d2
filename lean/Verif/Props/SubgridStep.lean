import Verif.Props.Subgrid
import Verif.Props.ImplicitNS
import Verif.Props.WallStep

/-!
# C59: invariance of the Smagorinsky model, learned viscosities, implicit solves and full steps
-/

namespace JaxCfd
variable {d : ℕ}

theorem lerpAll_congr (s : Fin d → ℕ) (δ : Fin d → ℚ) (f h : Idx d → ℝ) (hf : ∀ i, InR s i → f i = h i) (i : Idx d) (hi : InR s i) :
    lerpAll s δ f i = lerpAll s δ h i := by
  have step : ∀ (a : Fin d) (f h : Idx d → ℝ), (∀ i, InR s i → f i = h i) → ∀ i, InR s i → lerp ℝ s a (δ a) f i = lerp ℝ s a (δ a) h i := by
    intro a f h hf i hi
    unfold lerp
    rw [hf i hi, hf _ (rollIdx_inR hi _ _), hf _ (rollIdx_inR hi _ _)]
  unfold lerpAll
  generalize List.finRange d = l
  induction l generalizing f h with
  | nil => exact hf i hi
  | cons a l ih => exact ih _ _ (step a f h hf)

section
variable [HasNan ℝ]

/-! ## Invariance -/

theorem strain_affine {g : Grid d ℝ} {w u : Fin d → Idx d → ℝ} {c : ℝ} {k : Fin d → ℝ}
    (h : ∀ a i, InR g.shape i → u a i = c * w a i + k a) (i j : Fin d) (p : Idx d) (hp : InR g.shape p) :
    strain g u i j p = c * strain g w i j p := by
  unfold strain fwd
  rw [h _ _ hp, h _ _ hp, h _ _ (rollIdx_inR hp _ _), h _ _ (rollIdx_inR hp _ _)]
  ring

theorem centredStrain_affine {g : Grid d ℝ} {w u : Fin d → Idx d → ℝ} {c : ℝ} {k : Fin d → ℝ}
    (h : ∀ a i, InR g.shape i → u a i = c * w a i + k a) (i j : Fin d) (p : Idx d) (hp : InR g.shape p) :
    centredStrain g u i j p = c * centredStrain g w i j p := by
  unfold centredStrain
  rw [lerpAll_congr _ _ _ (fun p => c * strain g w i j p) (fun p hp => strain_affine h i j p hp) p hp, lerpAll_smul]

theorem edgeViscosity_affine (cs : ℝ) {g : Grid d ℝ} {w u : Fin d → Idx d → ℝ} {c : ℝ} {k : Fin d → ℝ}
    (h : ∀ a i, InR g.shape i → u a i = c * w a i + k a) (i j : Fin d) (p : Idx d) (hp : InR g.shape p) :
    edgeViscosity cs g u i j p = |c| * edgeViscosity cs g w i j p := by
  unfold edgeViscosity
  rw [lerpAll_congr _ _ _ (fun p => |c| * centredViscosity cs g w p) (fun p hp => ?_) p hp, lerpAll_smul]
  unfold centredViscosity
  have : (2 * ∑ i, ∑ j, centredStrain g u i j p ^ 2) = c ^ 2 * (2 * ∑ i, ∑ j, centredStrain g w i j p ^ 2) := by
    simp only [Finset.mul_sum]
    refine Finset.sum_congr rfl fun i _ => Finset.sum_congr rfl fun j _ => ?_
    rw [centredStrain_affine h i j p hp]
    ring
  rw [this, Real.sqrt_mul (sq_nonneg c), Real.sqrt_sq_eq_abs]
  ring

/-- **C59.** Galilean invariance and scaling of the Smagorinsky model: replacing the velocity `v` by `c v + k` with constants `c` and `k`
multiplies the eddy acceleration by `c |c|`.  In particular a uniform flow feels no eddy stress (`c = 0`), and adding a uniform flow
(`c = 1`) changes nothing. -/
theorem C59_smagorinsky_covariant (hd : d ≠ 0) (g : Grid d ℝ) (hs : ∀ a, 0 < g.shape a) (cs dt : ℝ) (v v' : Fin d → GridVariable d ℝ)
    (hv : PeriodicField g v) (hv' : PeriodicField g v') (c : ℝ) (k : Fin d → ℝ)
    (h : ∀ a i, InR g.shape i → (v' a).array.data i = c * (v a).array.data i + k a) (acc acc' : Fin d → GridArray d ℝ)
    (h1 : evmModel (smagorinskyViscosity cs dt) v = .ok acc) (h2 : evmModel (smagorinskyViscosity cs dt) v' = .ok acc') :
    ∀ a i, InR g.shape i → (acc' a).data i = c * |c| * (acc a).data i := by
  intro a p hp
  rw [evm_smagorinsky_eq hd hs cs dt hv] at h1
  rw [evm_smagorinsky_eq hd hs cs dt hv'] at h2
  have e1 := Except.ok.inj h1
  have e2 := Except.ok.inj h2
  rw [← e1, ← e2]
  dsimp only
  unfold eddyForce bwd
  rw [← neg_one_mul, ← neg_one_mul (∑ j, _), Finset.mul_sum, Finset.mul_sum, Finset.mul_sum]
  refine Finset.sum_congr rfl fun j _ => ?_
  beta_reduce
  rw [edgeViscosity_affine cs h a j p hp, edgeViscosity_affine cs h a j _ (rollIdx_inR hp j (-1)), strain_affine h a j p hp,
    strain_affine h a j _ (rollIdx_inR hp j (-1))]
  ring

/-! ## Viscosities given by offset -/

theorem viscosityByOffset_symm {g : Grid d ℝ} {w : Fin d → Idx d → ℝ} {f : (Fin d → ℚ) → Except Err (NArr d ℝ)} {N : Tensor d}
    (h : viscosityByOffset f (strainTensor g w) = .ok N) (i j : Fin d) : N i j = N j i := by
  have h1 := (seqFin_eq_ok _ _).1 ((seqFin_eq_ok _ _).1 h i) j
  have h2 := (seqFin_eq_ok _ _).1 ((seqFin_eq_ok _ _).1 h j) i
  obtain ⟨x, hx, h1⟩ := Except.bind_eq_ok.1 h1
  obtain ⟨y, hy, h2⟩ := Except.bind_eq_ok.1 h2
  have e : (strainTensor g w i j).offset = (strainTensor g w j i).offset := edge_comm i j
  rw [e, hy] at hx
  have hxy := Except.ok.inj hx
  rw [← Except.ok.inj h1, ← Except.ok.inj h2, hxy, e]
  rfl

/-- **C59.** The viscosities of all models of the library — Smagorinsky with any interpolation, learned scalar with any network and
interpolation, learned tensor with any network — depend only on the position of the strain component, so the tensor is symmetric and the
eddy stress does only what `C59_evm` says. -/
theorem C59_symmetric (g : Grid d ℝ) (w : Fin d → Idx d → ℝ) (v : Fin d → GridVariable d ℝ) (N : Tensor d) (visc : ViscosityFn d)
    (hv : (∃ cs dt interp, visc = smagorinskyViscosity cs dt interp) ∨ (∃ scale g' dt net interp, visc = learnedScalarViscosity scale g' dt net interp) ∨
      ∃ scale offsets net, visc = learnedTensorViscosity scale offsets net)
    (h : visc (strainTensor g w) v = .ok N) : ∀ i j, N i j = N j i := by
  rcases hv with ⟨cs, dt, interp, rfl⟩ | ⟨scale, g', dt, net, interp, rfl⟩ | ⟨scale, offsets, net, rfl⟩
  · unfold smagorinskyViscosity at h
    split_ifs at h
    obtain ⟨-, -, h⟩ := Except.bind_eq_ok.1 h
    obtain ⟨g', -, h⟩ := Except.bind_eq_ok.1 h
    obtain ⟨c, -, h⟩ := Except.bind_eq_ok.1 h
    obtain ⟨t, -, h⟩ := Except.bind_eq_ok.1 h
    exact viscosityByOffset_symm h
  · unfold learnedScalarViscosity at h
    obtain ⟨out, -, h⟩ := Except.bind_eq_ok.1 h
    exact viscosityByOffset_symm h
  · unfold learnedTensorViscosity at h
    obtain ⟨out, -, h⟩ := Except.bind_eq_ok.1 h
    split_ifs at h
    exact viscosityByOffset_symm h

/-- **C59.** The learned tensor viscosity succeeds on every periodic strain tensor whose positions are all listed and a network output of
the right size, and returns `scale + 1e-6` times the channel belonging to the position. -/
theorem C59_learned_tensor (g : Grid d ℝ) (w : Fin d → Idx d → ℝ) (v : Fin d → GridVariable d ℝ) (scale : ℝ) (offsets : List (Fin d → ℚ))
    (net : (Fin d → GridVariable d ℝ) → Except Err (Chan d ℝ)) (out : Chan d ℝ) (hnet : net v = .ok out)
    (hchan : out.chan = offsets.length) (hoff : ∀ i j, edge i j ∈ offsets) :
    ∃ N, learnedTensorViscosity scale offsets net (strainTensor g w) v = .ok N ∧ ∀ i j, ∃ c : ℕ, offsets[c]? = some (edge i j) ∧
      (∀ c' : ℕ, c' < c → offsets[c']? ≠ some (edge i j)) ∧ N i j = ⟨⟨out.shape, fun p => (scale + 1 / 10 ^ 6) * out.data p c⟩, edge i j, g⟩ := by
  refine ⟨fun i j => ⟨⟨out.shape, fun p => (scale + 1 / 10 ^ 6) * out.data p (offsets.idxOf (edge i j))⟩, edge i j, g⟩, ?_, fun i j =>
    ⟨offsets.idxOf (edge i j), ?_, ?_, rfl⟩⟩
  · unfold learnedTensorViscosity viscosityByOffset
    rw [hnet, Except.bind_ok, if_neg (by rw [hchan]; simp)]
    refine seqFin_ok _ (fun i j => (⟨⟨out.shape, fun p => (scale + 1 / 10 ^ 6) * out.data p (offsets.idxOf (edge i j))⟩, edge i j, g⟩ :
      GridArray d ℝ)) fun i => seqFin_ok _ (fun j => (⟨⟨out.shape, fun p => (scale + 1 / 10 ^ 6) * out.data p (offsets.idxOf (edge i j))⟩,
        edge i j, g⟩ : GridArray d ℝ)) fun j => ?_
    have : (strainTensor g w i j).offset ∈ offsets := hoff i j
    beta_reduce
    rw [if_pos this]
    rfl
  · have h := List.idxOf_lt_length_iff.2 (hoff i j)
    beta_reduce
    rw [List.getElem?_eq_getElem h, List.getElem_idxOf h]
  · intro c' hc' e
    obtain ⟨hlt, e⟩ := List.getElem?_eq_some_iff.1 e
    have := List.not_of_lt_findIdx (p := fun x => x == edge i j) (xs := offsets) (i := c') (by exact hc')
    simp [e] at this

/-- **C59.** The learned scalar viscosity is, at every strain position, the interpolation (from the cell centres, with periodic
conditions) of the network's output times `scale + 1e-6`. -/
theorem C59_learned_scalar (g : Grid d ℝ) (w : Fin d → Idx d → ℝ) (v : Fin d → GridVariable d ℝ) (scale dt : ℝ) (interp : InterpFn d ℝ)
    (net : (Fin d → GridVariable d ℝ) → Except Err (NArr d ℝ)) (N : Tensor d) :
    learnedScalarViscosity scale g dt net interp (strainTensor g w) v = .ok N ↔ ∃ out, net v = .ok out ∧ ∀ i j, ∃ r,
      interp ⟨⟨⟨out.shape, fun p => (scale + 1 / 10 ^ 6) * out.data p⟩, g.cellCenter, g⟩, periodicBC d⟩ (edge i j) v dt = .ok r ∧
        N i j = ⟨⟨r.array.shape, r.array.data⟩, edge i j, g⟩ := by
  unfold learnedScalarViscosity viscosityByOffset wrappedInterp
  rw [Except.bind_eq_ok]
  refine exists_congr fun out => and_congr_right fun _ => ?_
  rw [seqFin_eq_ok]
  refine forall_congr' fun i => ?_
  rw [seqFin_eq_ok]
  refine forall_congr' fun j => ?_
  constructor
  · intro h
    obtain ⟨x, h1, h2⟩ := Except.bind_eq_ok.1 h
    obtain ⟨y, h1, h3⟩ := Except.bind_eq_ok.1 h1
    obtain ⟨r, h1, h4⟩ := Except.bind_eq_ok.1 h1
    refine ⟨r, h1, ?_⟩
    rw [← Except.ok.inj h2, ← Except.ok.inj h3, ← Except.ok.inj h4]
    rfl
  · rintro ⟨r, h1, h2⟩
    have e : interp ⟨⟨out.map fun x => (scale + 1 / 10 ^ 6) * x, g.cellCenter, g⟩, periodicBC d⟩ (strainTensor g w i j).offset v dt = .ok r := h1
    beta_reduce
    rw [e, h2]
    rfl

/-! ## The implicit solve -/

/-- `w` solves `op(w) = b`, with the labels of `b`. -/
def IsSolution (op : (Fin d → GridArray d ℝ) → Except Err (Fin d → GridArray d ℝ)) (b w : Fin d → GridArray d ℝ) : Prop :=
  ∃ r, op w = .ok r ∧ ∀ a, (r a).Eqv (b a)

theorem evmLinearOp_eq_ok {evm : (Fin d → GridVariable d ℝ) → Except Err (Fin d → GridArray d ℝ)} {bc : BC d ℝ} {nu dt : ℝ}
    {w r : Fin d → GridArray d ℝ} : evmLinearOp evm bc nu dt w = .ok r ↔
      ∃ acc, evm (fun a => ⟨w a, bc⟩) = .ok acc ∧ ∀ a, ∃ l, laplacian ⟨w a, bc⟩ = .ok l ∧
        (acc a).shape = l.shape ∧ (acc a).offset = l.offset ∧ (acc a).grid = l.grid ∧
        (w a).shape = (acc a).shape ∧ (w a).offset = (acc a).offset ∧ (w a).grid = (acc a).grid ∧
        r a = ⟨⟨(w a).shape, fun p => (w a).data p - dt * ((acc a).data p + nu * l.data p)⟩, (w a).offset, (w a).grid⟩ := by
  unfold evmLinearOp
  simp only [Except.bind_eq_ok, seqFin_eq_ok, gmap2_eq_ok]
  constructor
  · rintro ⟨acc, h1, h2⟩
    refine ⟨acc, h1, fun a => ?_⟩
    obtain ⟨l, hl, s, ⟨e1, e2, e3, hs⟩, e4, e5, e6, hr⟩ := h2 a
    subst hs
    exact ⟨l, hl, e1, e2, e3, e4, e5, e6, hr⟩
  · rintro ⟨acc, h1, h2⟩
    refine ⟨acc, h1, fun a => ?_⟩
    obtain ⟨l, hl, e1, e2, e3, e4, e5, e6, hr⟩ := h2 a
    exact ⟨l, hl, _, ⟨e1, e2, e3, rfl⟩, e4, e5, e6, hr⟩


theorem inner_eq {g : Grid d ℝ} {x y : GridArray d ℝ} (h : x.shape = g.shape) :
    inner x.toNArr y.toNArr = ∑ p ∈ box g.shape, x.data p * y.data p := by
  unfold inner
  rw [h]

/-- **C59.** `implicit_evm_solve_with_diffusion` with any viscosity model, whenever the conjugate gradient method returns a solution of
the equation it is given: the new velocity `w` satisfies `w = v + dt (evm(w) + ν Δ w)` at every point (backward Euler), the momentum is
conserved, and with nonnegative `dt`, `ν` and a symmetric nonnegative eddy viscosity the kinetic energy does not grow, however large
`dt`. -/
theorem C59_implicit (hd : d ≠ 0) (g : Grid d ℝ) (hs : ∀ a, 0 < g.shape a) (visc : ViscosityFn d) (nu dt : ℝ)
    (v : Fin d → GridVariable d ℝ) (hv : PeriodicField g v) (cg : TupleCG d)
    (hcg : ∀ w, cg (evmLinearOp (evmModel visc) (periodicBC d) nu dt) (fun a => (v a).array) = .ok w →
      IsSolution (evmLinearOp (evmModel visc) (periodicBC d) nu dt) (fun a => (v a).array) w)
    (w : Fin d → GridVariable d ℝ) (hw : implicitEvmSolve cg (evmModel visc) v nu dt = .ok w) :
    PeriodicField g w ∧
    (∃ acc, evmModel visc w = .ok acc ∧ ∀ a, ∃ l, laplacian (w a) = .ok l ∧ ∀ p, InR g.shape p →
      (w a).array.data p = (v a).array.data p + dt * ((acc a).data p + nu * l.data p)) ∧
    (∀ a, total g w a = total g v a) ∧
    (0 ≤ dt → 0 ≤ nu → (∀ N, visc (strainTensor g fun a => (w a).array.data) w = .ok N →
        (∀ i j, N i j = N j i) ∧ ∀ i j p, InR g.shape p → 0 ≤ (N i j).data p) →
      ∑ a, inner (w a).array.toNArr (w a).array.toNArr ≤ ∑ a, inner (v a).array.toNArr (v a).array.toNArr) := by
  unfold implicitEvmSolve at hw
  rw [if_neg (by rw [hv.allPeriodic]; decide)] at hw
  have hbc : uniqueBoundaryConditions (List.ofFn v) = .ok (periodicBC d) := by
    refine uniqueOr_eq_ok.2 ⟨by rw [Ne, List.ofFn_eq_nil_iff]; exact hd, fun x hx => ?_⟩
    obtain ⟨a, rfl⟩ := List.mem_ofFn.1 hx
    exact hv.2 a
  rw [hbc, Except.bind_ok] at hw
  obtain ⟨x, hx, hw⟩ := Except.bind_eq_ok.1 hw
  have hwx : w = fun a => ⟨x a, periodicBC d⟩ := by
    rw [← Except.ok.inj hw]
    funext a
    rw [hv.2 a]
  clear hw
  obtain ⟨r, hr, hrb⟩ := hcg x hx
  obtain ⟨acc, hacc, hl⟩ := evmLinearOp_eq_ok.1 hr
  have hlay : ∀ a, (x a).offset = (v a).array.offset ∧ (x a).grid = (v a).array.grid ∧ (x a).shape = (v a).array.shape := by
    intro a
    obtain ⟨l, -, -, -, -, -, -, -, e⟩ := hl a
    obtain ⟨e1, e2, e3, -⟩ := hrb a
    rw [e] at e1 e2 e3
    exact ⟨e1, e2, e3⟩
  have hwp : PeriodicField g w := by
    rw [hwx]
    exact ⟨fun a => ⟨(hlay a).2.1.trans (hv.1 a).1, (hlay a).2.2.trans (hv.1 a).2.1, fun b => by
      show (x a).offset b = _
      rw [(hlay a).1]; exact (hv.1 a).2.2 b⟩, fun a => rfl⟩
  have hwd : ∀ a, (w a).array.data = (x a).data := fun a => by rw [hwx]
  have haccw : evmModel visc w = .ok acc := by rw [hwx]; exact hacc
  have heq : ∀ a, ∃ l, laplacian (w a) = .ok l ∧ ∀ p, InR g.shape p →
      (w a).array.data p = (v a).array.data p + dt * ((acc a).data p + nu * l.data p) := by
    intro a
    obtain ⟨l, hl1, -, -, -, -, -, -, e⟩ := hl a
    refine ⟨l, by rw [hwx]; exact hl1, fun p hp => ?_⟩
    have h3 := (hrb a).2.2.2 p (by rw [e]; show InR (x a).shape p; rw [(hlay a).2.2, (hv.1 a).2.1]; exact hp)
    have h4 : (r a).data p = (x a).data p - dt * ((acc a).data p + nu * l.data p) := by rw [e]
    have h5 : (r a).data p = (v a).array.data p := h3
    rw [hwd a]
    linarith
  obtain ⟨-, hsum, N, hN, hpow⟩ := C59_evm hd g hs visc w hwp acc haccw
  refine ⟨hwp, ⟨acc, haccw, heq⟩, fun a => ?_, fun hdt hnu hvisc => ?_⟩
  · obtain ⟨l, hl1, hl2⟩ := heq a
    have h0 : ∑ p ∈ box g.shape, l.data p = 0 := by
      have e := laplacian_periodic (hwp.var hs a)
      rw [hl1] at e
      have h2 := (diffuse_total hwp hs a 1).2
      rw [← Except.ok.inj e] at h2
      simpa using h2
    unfold total
    rw [Finset.sum_congr rfl fun p hp => hl2 p (mem_box.1 hp)]
    simp only [Finset.sum_add_distrib, ← Finset.mul_sum, hsum a, h0]
    ring
  · obtain ⟨hsym, hnn⟩ := hvisc N hN
    have hp := hpow fun i j p _ => by rw [hsym i j]
    have hdis := dissipation_nonneg (s := strain g fun a => (w a).array.data) hnn
    choose l hl1 hl2 using heq
    have hlap : ∀ a, inner (w a).array.toNArr (l a).toNArr ≤ 0 := fun a =>
      (C18_laplacian_dissipative (w a) (hwp.var hs a) (l a) _ (hl1 a) (forwardDifferences_periodic (hwp.var hs a))).2
    have key : ∀ a, inner (w a).array.toNArr (w a).array.toNArr = inner (w a).array.toNArr (v a).array.toNArr +
        dt * (inner (w a).array.toNArr (acc a).toNArr + nu * inner (w a).array.toNArr (l a).toNArr) := by
      intro a
      simp only [inner_eq (g := g) (hwp.1 a).2.1, Finset.mul_sum, ← Finset.sum_add_distrib]
      refine Finset.sum_congr rfl fun p hp => ?_
      conv_lhs => rw [hl2 a p (mem_box.1 hp)]
      rw [hl2 a p (mem_box.1 hp)]
      ring
    have hyoung : ∀ a, 2 * inner (w a).array.toNArr (v a).array.toNArr ≤
        inner (w a).array.toNArr (w a).array.toNArr + inner (v a).array.toNArr (v a).array.toNArr := by
      intro a
      simp only [inner_eq (g := g) (hwp.1 a).2.1, inner_eq (g := g) (hv.1 a).2.1, Finset.mul_sum, ← Finset.sum_add_distrib]
      refine Finset.sum_le_sum fun p _ => ?_
      nlinarith [sq_nonneg ((w a).array.data p - (v a).array.data p)]
    have h1 := Finset.sum_congr (s₁ := Finset.univ) rfl fun a (_ : a ∈ Finset.univ) => key a
    have h2 : ∑ a, 2 * inner (w a).array.toNArr (v a).array.toNArr ≤
        ∑ a, (inner (w a).array.toNArr (w a).array.toNArr + inner (v a).array.toNArr (v a).array.toNArr) :=
      Finset.sum_le_sum fun a _ => hyoung a
    rw [Finset.sum_add_distrib, ← Finset.mul_sum, Finset.sum_add_distrib, ← Finset.mul_sum, hp] at h1
    rw [← Finset.mul_sum, Finset.sum_add_distrib] at h2
    have h3 : ∑ a, inner (w a).array.toNArr (l a).toNArr ≤ 0 := Finset.sum_nonpos fun a _ => hlap a
    have h4 : dt * (-2 * dissipation g (fun i j => (N i j).data) (strain g fun a => (w a).array.data) +
        nu * ∑ a, inner (w a).array.toNArr (l a).toNArr) ≤ 0 := by
      refine mul_nonpos_of_nonneg_of_nonpos hdt ?_
      have := mul_nonpos_of_nonneg_of_nonpos hnu h3
      linarith
    linarith


/-- **C59.** The Smagorinsky model in the implicit solve: its viscosity meets all the conditions of `C59_implicit`, so the step is
unconditionally energy stable. -/
theorem C59_implicit_smagorinsky (hd : d ≠ 0) (g : Grid d ℝ) (hs : ∀ a, 0 < g.shape a) (cs nu dt : ℝ) (hdt : 0 ≤ dt) (hnu : 0 ≤ nu)
    (v : Fin d → GridVariable d ℝ) (hv : PeriodicField g v) (cg : TupleCG d)
    (hcg : ∀ w, cg (evmLinearOp (evmModel (smagorinskyViscosity cs dt)) (periodicBC d) nu dt) (fun a => (v a).array) = .ok w →
      IsSolution (evmLinearOp (evmModel (smagorinskyViscosity cs dt)) (periodicBC d) nu dt) (fun a => (v a).array) w)
    (w : Fin d → GridVariable d ℝ) (hw : implicitEvmSolve cg (evmModel (smagorinskyViscosity cs dt)) v nu dt = .ok w) :
    PeriodicField g w ∧ (∀ a, total g w a = total g v a) ∧
      ∑ a, inner (w a).array.toNArr (w a).array.toNArr ≤ ∑ a, inner (v a).array.toNArr (v a).array.toNArr := by
  obtain ⟨h1, -, h3, h4⟩ := C59_implicit hd g hs _ nu dt v hv cg hcg w hw
  refine ⟨h1, h3, h4 hdt hnu fun N hN => ?_⟩
  obtain ⟨-, N', hN', -, -, h5, h6⟩ := C59_smagorinsky_viscosity hd g hs cs dt w h1
  rw [hN] at hN'
  rw [Except.ok.inj hN']
  exact ⟨h5, h6⟩

/-- **C59.** The operator handed to the conjugate gradient method is affine in the velocity only if the eddy term vanishes: with the
Smagorinsky model `op(c w) = c op(w) - dt c (|c| - 1) evm(w)`.  (The method is documented for linear operators only.) -/
theorem C59_operator_scaling (hd : d ≠ 0) (g : Grid d ℝ) (hs : ∀ a, 0 < g.shape a) (cs nu dt c : ℝ)
    (v v' : Fin d → GridVariable d ℝ) (hv : PeriodicField g v) (hv' : PeriodicField g v')
    (h : ∀ a i, InR g.shape i → (v' a).array.data i = c * (v a).array.data i) :
    ∃ acc r r', evmModel (smagorinskyViscosity cs dt) v = .ok acc ∧
      evmLinearOp (evmModel (smagorinskyViscosity cs dt)) (periodicBC d) nu dt (fun a => (v a).array) = .ok r ∧
      evmLinearOp (evmModel (smagorinskyViscosity cs dt)) (periodicBC d) nu dt (fun a => (v' a).array) = .ok r' ∧
      ∀ a p, InR g.shape p → (r' a).data p = c * (r a).data p - dt * (c * (|c| - 1)) * (acc a).data p := by
  have op : ∀ u : Fin d → GridVariable d ℝ, PeriodicField g u → ∃ acc, evmModel (smagorinskyViscosity cs dt) u = .ok acc ∧
      evmLinearOp (evmModel (smagorinskyViscosity cs dt)) (periodicBC d) nu dt (fun a => (u a).array) = .ok fun a =>
        ⟨⟨(u a).array.shape, fun p => (u a).array.data p - dt * ((acc a).data p + nu * (lapP (u a)).data p)⟩, (u a).array.offset,
          (u a).array.grid⟩ := by
    intro u hu
    obtain ⟨acc, hacc, hf, -⟩ := C59_smagorinsky hd g hs cs dt u hu
    have hub : ∀ a, (⟨(u a).array, periodicBC d⟩ : GridVariable d ℝ) = u a := fun a => by rw [← hu.2 a]
    have hue : (fun a => (⟨(u a).array, periodicBC d⟩ : GridVariable d ℝ)) = u := funext hub
    refine ⟨acc, hacc, evmLinearOp_eq_ok.2 ⟨acc, by rw [hue]; exact hacc, fun a => ⟨lapP (u a), ?_, ?_⟩⟩⟩
    · rw [hub]; exact laplacian_periodic (hu.var hs a)
    · have ho : (acc a).offset = (u a).array.offset := funext fun b => by rw [(hf a).2.2 b]; exact ((hu.1 a).2.2 b).symm
      exact ⟨(hf a).2.1.trans (hu.1 a).2.1.symm, ho, (hf a).1.trans (hu.1 a).1.symm, (hu.1 a).2.1.trans (hf a).2.1.symm, ho.symm,
        (hu.1 a).1.trans (hf a).1.symm, rfl⟩
  obtain ⟨acc, h1, h2⟩ := op v hv
  obtain ⟨acc', h1', h2'⟩ := op v' hv'
  refine ⟨acc, _, _, h1, h2, h2', fun a p hp => ?_⟩
  have hcov := C59_smagorinsky_covariant hd g hs cs dt v v' hv hv' c (fun _ => 0) (fun a i hi => by rw [h a i hi, add_zero]) acc acc' h1 h1'
    a p hp
  have hlap : (lapP (v' a)).data p = c * (lapP (v a)).data p := by
    have e : (v a).array.shape = g.shape := (hv.1 a).2.1
    have e1 : (v a).array.grid = g := (hv.1 a).1
    have e' : (v' a).array.shape = g.shape := (hv'.1 a).2.1
    have e1' : (v' a).array.grid = g := (hv'.1 a).1
    simp only [lapP, e, e1, e', e1', Finset.mul_sum]
    refine Finset.sum_congr rfl fun b _ => ?_
    rw [h a p hp, h a _ (rollIdx_inR hp _ _), h a _ (rollIdx_inR hp _ _)]
    ring
  show (v' a).array.data p - dt * ((acc' a).data p + nu * (lapP (v' a)).data p) =
    c * ((v a).array.data p - dt * ((acc a).data p + nu * (lapP (v a)).data p)) - dt * (c * (|c| - 1)) * (acc a).data p
  rw [hcov, hlap, h a p hp]
  ring

/-- **C59.** With a fixed symmetric nonnegative viscosity the operator of the implicit solve is symmetric and at least the identity, so
the conjugate gradient method applies. -/
theorem C59_frozen_spd (hd : d ≠ 0) (g : Grid d ℝ) (hs : ∀ a, 0 < g.shape a) (N : Tensor d) (hsym : ∀ i j, N i j = N j i)
    (hnn : ∀ i j p, InR g.shape p → 0 ≤ (N i j).data p) (nu dt : ℝ) (hdt : 0 ≤ dt) (hnu : 0 ≤ nu) (u w : Fin d → GridVariable d ℝ)
    (hu : PeriodicField g u) (hw : PeriodicField g w) (ru rw : Fin d → GridArray d ℝ)
    (h1 : evmLinearOp (evmModel fun _ _ => .ok N) (periodicBC d) nu dt (fun a => (u a).array) = .ok ru)
    (h2 : evmLinearOp (evmModel fun _ _ => .ok N) (periodicBC d) nu dt (fun a => (w a).array) = .ok rw) :
    ∑ a, inner (w a).array.toNArr (ru a).toNArr = ∑ a, inner (rw a).toNArr (u a).array.toNArr ∧
    ∑ a, inner (u a).array.toNArr (u a).array.toNArr ≤ ∑ a, inner (u a).array.toNArr (ru a).toNArr := by
  have op : ∀ (u : Fin d → GridVariable d ℝ) (r : Fin d → GridArray d ℝ), PeriodicField g u →
      evmLinearOp (evmModel fun _ _ => .ok N) (periodicBC d) nu dt (fun a => (u a).array) = .ok r →
      ∀ a, (r a).shape = g.shape ∧ (r a).data = fun p => (u a).array.data p - dt * (eddyForce g (fun i j => (N i j).data)
        (strain g fun a => (u a).array.data) a p + nu * (lapP (u a)).data p) := by
    intro u r hu h a
    have hub : ∀ a, (⟨(u a).array, periodicBC d⟩ : GridVariable d ℝ) = u a := fun a => by rw [← hu.2 a]
    have hue : (fun a => (⟨(u a).array, periodicBC d⟩ : GridVariable d ℝ)) = u := funext hub
    obtain ⟨acc, hacc, h⟩ := evmLinearOp_eq_ok.1 h
    obtain ⟨l, hl, -, -, -, -, -, -, e⟩ := h a
    rw [hue] at hacc
    obtain ⟨N', hN', -, hr⟩ := (evmModel_eq_ok hd hu hs).1 hacc
    have hNN := Except.ok.inj hN'
    subst hNN
    rw [hub, laplacian_periodic (hu.var hs a)] at hl
    have hl' := Except.ok.inj hl
    rw [e]
    refine ⟨(hu.1 a).2.1, ?_⟩
    rw [hr, ← hl']
  have pair : ∀ (u w : Fin d → GridVariable d ℝ) (r : Fin d → GridArray d ℝ), PeriodicField g u → PeriodicField g w →
      evmLinearOp (evmModel fun _ _ => .ok N) (periodicBC d) nu dt (fun a => (u a).array) = .ok r →
      ∑ a, inner (w a).array.toNArr (r a).toNArr = ∑ a, inner (w a).array.toNArr (u a).array.toNArr +
        2 * dt * ∑ i, ∑ j, ∑ p ∈ box g.shape, (N i j).data p * strain g (fun a => (w a).array.data) i j p *
          strain g (fun a => (u a).array.data) i j p - dt * nu * ∑ a, inner (w a).array.toNArr (lapP (u a)).toNArr := by
    intro u w r hu hw h
    have e := eddyForce_pair g (fun i j => (N i j).data) (fun a => (w a).array.data) (fun a => (u a).array.data)
      (fun i j p _ => by rw [hsym i j])
    have e2 : ∀ a, inner (w a).array.toNArr (r a).toNArr = inner (w a).array.toNArr (u a).array.toNArr -
        dt * (∑ p ∈ box g.shape, (w a).array.data p * eddyForce g (fun i j => (N i j).data) (strain g fun a => (u a).array.data) a p) -
        dt * nu * inner (w a).array.toNArr (lapP (u a)).toNArr := by
      intro a
      rw [inner_eq (g := g) (hw.1 a).2.1, inner_eq (g := g) (hw.1 a).2.1, inner_eq (g := g) (hw.1 a).2.1, Finset.mul_sum, Finset.mul_sum,
        ← Finset.sum_sub_distrib, ← Finset.sum_sub_distrib, (op u r hu h a).2]
      refine Finset.sum_congr rfl fun p _ => ?_
      ring
    rw [Finset.sum_congr rfl fun a _ => e2 a, Finset.sum_sub_distrib, Finset.sum_sub_distrib, ← Finset.mul_sum, ← Finset.mul_sum, e]
    ring
  constructor
  · have hc : ∀ a, inner (rw a).toNArr (u a).array.toNArr = inner (u a).array.toNArr (rw a).toNArr := fun a => by
      rw [inner_eq (g := g) (op w rw hw h2 a).1, inner_eq (g := g) (hu.1 a).2.1]
      exact Finset.sum_congr rfl fun p _ => mul_comm _ _
    rw [Finset.sum_congr rfl fun a _ => hc a, pair u w ru hu hw h1, pair w u rw hw hu h2]
    have hi : ∀ a, inner (w a).array.toNArr (u a).array.toNArr = inner (u a).array.toNArr (w a).array.toNArr := fun a => by
      rw [inner_eq (g := g) (hw.1 a).2.1, inner_eq (g := g) (hu.1 a).2.1]
      exact Finset.sum_congr rfl fun p _ => mul_comm _ _
    have hl : ∀ a, inner (w a).array.toNArr (lapP (u a)).toNArr = inner (u a).array.toNArr (lapP (w a)).toNArr := fun a => by
      rw [C18_laplacian_symmetric (w a) (u a) (hw.var hs a) (hu.var hs a) ((hw.1 a).1.trans (hu.1 a).1.symm) _ _
        (laplacian_periodic (hw.var hs a)) (laplacian_periodic (hu.var hs a)), inner_eq (g := g) (x := lapP (w a)) (hw.1 a).2.1,
        inner_eq (g := g) (hu.1 a).2.1]
      exact Finset.sum_congr rfl fun p _ => mul_comm _ _
    have hT : ∑ i, ∑ j, ∑ p ∈ box g.shape, (N i j).data p * strain g (fun a => (w a).array.data) i j p *
          strain g (fun a => (u a).array.data) i j p =
        ∑ i, ∑ j, ∑ p ∈ box g.shape, (N i j).data p * strain g (fun a => (u a).array.data) i j p *
          strain g (fun a => (w a).array.data) i j p :=
      Finset.sum_congr rfl fun i _ => Finset.sum_congr rfl fun j _ => Finset.sum_congr rfl fun p _ => by ring
    rw [Finset.sum_congr rfl fun a _ => hi a, Finset.sum_congr rfl fun a _ => hl a, hT]
  · rw [pair u u ru hu hu h1]
    have hD : 0 ≤ ∑ i, ∑ j, ∑ p ∈ box g.shape, (N i j).data p * strain g (fun a => (u a).array.data) i j p *
          strain g (fun a => (u a).array.data) i j p :=
      Finset.sum_nonneg fun i _ => Finset.sum_nonneg fun j _ => Finset.sum_nonneg fun p hp => by
        rw [mul_assoc]
        exact mul_nonneg (hnn i j p (mem_box.1 hp)) (mul_self_nonneg _)
    have hL : ∑ a, inner (u a).array.toNArr (lapP (u a)).toNArr ≤ 0 := Finset.sum_nonpos fun a _ =>
      (C18_laplacian_dissipative (u a) (hu.var hs a) (lapP (u a)) _ (laplacian_periodic (hu.var hs a))
        (forwardDifferences_periodic (hu.var hs a))).2
    have := mul_nonneg hdt hD
    have := mul_nonpos_of_nonneg_of_nonpos (mul_nonneg hdt hnu) hL
    linarith

/-! ## Full steps -/

/-- **C59.** `explicit_smagorinsky_navier_stokes` adds the eddy acceleration *divided by the density* to the explicit terms: for density
other than 1 it differs from the implicit variant (`C59_implicit`), which does not divide. -/
theorem C59_explicit_terms (density dt cs nu : ℝ) (C : ConvectFn d) (D : DiffuseFn d) (v T : Fin d → GridVariable d ℝ) :
    explicitTerms density (some nu) dt (some C) D (some (smagorinskyForcing cs dt none)) v = .ok T ↔
      density ≠ 0 ∧ ∃ (c e acc : Fin d → GridArray d ℝ), C v = .ok c ∧ (∀ a, D (v a) (nu / density) = .ok (e a)) ∧
        evmModel (smagorinskyViscosity cs dt) v = .ok acc ∧ ∀ a,
        (∀ u ∈ [c a, e a, acc a], u.offset = (T a).array.offset ∧ u.grid = (T a).array.grid ∧ u.shape = (T a).array.shape) ∧
        (T a).bc = (v a).bc ∧ ∀ i, (T a).array.data i = (c a).data i + (e a).data i + (acc a).data i / density :=
  (C56_explicit_terms density dt C D v T).1 nu (smagorinskyForcing cs dt none)

/-- **C59.** A user-supplied forcing is added to the eddy acceleration. -/
theorem C59_explicit_forcing (cs dt : ℝ) (f : ForcingFn d) (v : Fin d → GridVariable d ℝ) (r : Fin d → GridArray d ℝ) :
    smagorinskyForcing cs dt (some f) v = .ok r ↔ ∃ x acc, f v = .ok x ∧ evmModel (smagorinskyViscosity cs dt) v = .ok acc ∧ ∀ a,
      ((x a).offset = (r a).offset ∧ (x a).grid = (r a).grid ∧ (x a).shape = (r a).shape) ∧
      ((acc a).offset = (r a).offset ∧ (acc a).grid = (r a).grid ∧ (acc a).shape = (r a).shape) ∧
      ∀ i, (r a).data i = (x a).data i + (acc a).data i := by
  show sumForcings [f, evmModel (smagorinskyViscosity cs dt)] v = .ok r ↔ _
  unfold sumForcings
  rw [Except.bind_eq_ok]
  constructor
  · rintro ⟨outs, h1, h2⟩
    have h3 : List.Forall₂ (fun (F : ForcingFn d) o => F v = .ok o) [f, evmModel (smagorinskyViscosity cs dt)] outs := (mapM_eq_ok _ _ _).1 h1
    match outs, h3 with
    | [x, y], .cons hx (.cons hy .nil) => exact ⟨x, y, hx, hy, sumFields2.1 h2⟩
  · rintro ⟨x, acc, hx, hy, h⟩
    exact ⟨[x, acc], (mapM_eq_ok _ _ _).2 (.cons hx (.cons hy .nil)), sumFields2.2 h⟩

/-- **C59.** Every step of `explicit_smagorinsky_navier_stokes` that returns is divergence free, and without further forcing it conserves
momentum. -/
theorem C59_explicit_step (hd : d ≠ 0) (g : Grid d ℝ) (hs : ∀ a, 0 < g.shape a) (density : ℝ) (viscosity : Option ℝ) (dt cs : ℝ)
    (solve : PressureSolver d ℝ) (hex : ExactSolver g solve) (C : Option (ConvectFn d)) (s : Stepper d) (hst : RungeKutta s)
    (v w : Fin d → GridVariable d ℝ) (hv : PeriodicField g v) :
    (∀ f D, explicitSmagorinsky dt cs f density viscosity solve C D s v = .ok w → PeriodicField g w ∧ DivergenceFree g w) ∧
    ((∀ C', C = some C' → Conservative g C') → explicitSmagorinsky dt cs none density viscosity solve C diffuse s v = .ok w →
      ∀ a, total g w a = total g v a) := by
  constructor
  · intro f D h
    exact C56_divergence_free hd g hs density viscosity dt solve hex C D _ s hst v w hv h
  · intro hC h a
    have := C56_momentum hd g hs density viscosity dt solve hex C hC (some (smagorinskyForcing cs dt none)) (fun _ => 0)
      (fun f' u F hf hu hF a => by
        have hf' := Option.some.inj hf
        rw [← hf'] at hF
        exact (C59_evm hd g hs _ u hu F hF).2.1 a) (fun h => by cases h) s hst v w hv h a
    rw [this]
    ring

/-- **C59.** With the default convection and no further forcing the explicit Smagorinsky step succeeds on every periodic velocity field,
for every stepper, constant and time step. -/
theorem C59_explicit_succeeds (hd : d ≠ 0) (g : Grid d ℝ) (hs : ∀ a, 0 < g.shape a) (density : ℝ) (viscosity : Option ℝ)
    (hρ : density ≠ 0 ∨ viscosity = none) (dt cs : ℝ) (solve : PressureSolver d ℝ) (hex : ExactSolver g solve) (s : Stepper d)
    (hst : RungeKutta s) (v : Fin d → GridVariable d ℝ) (hv : PeriodicField g v) :
    ∃ w, explicitSmagorinsky dt cs none density viscosity solve none diffuse s v = .ok w := by
  obtain ⟨A, b, t, ht, hrows, hb, rfl⟩ := hst
  have hF : ∀ x, ∃ y, termsOnLeaves density viscosity dt none diffuse (some (smagorinskyForcing cs dt none)) v x = .ok y := fun x => by
    have hu := (withLeaves_layout v x).periodicField hv
    obtain ⟨T, hT, hl, -⟩ := default_terms_ok hd hs hρ dt hu
    obtain ⟨acc, hacc, hf, -⟩ := C59_smagorinsky hd g hs cs dt _ hu
    let T' : Fin d → GridVariable d ℝ := fun a =>
      ⟨⟨⟨(T a).array.shape, fun p => (T a).array.data p + (acc a).data p / density⟩, (T a).array.offset, (T a).array.grid⟩, (T a).bc⟩
    have hT' : explicitTerms density viscosity dt none diffuse (some (smagorinskyForcing cs dt none)) (withLeaves v x) = .ok T' := by
      unfold explicitTerms at hT ⊢
      obtain ⟨c, hc, hT⟩ := Except.bind_eq_ok.1 hT
      obtain ⟨y, hy, hT⟩ := Except.bind_eq_ok.1 hT
      rw [hc, Except.bind_ok, hy, Except.bind_ok]
      unfold addForcing at hT ⊢
      rw [Except.bind_ok] at hT
      have hTe := Except.ok.inj hT
      have hTa : ∀ a, (T a).array = y a := fun a => by rw [← hTe]
      dsimp only [smagorinskyForcing]
      rw [hacc, Except.bind_ok]
      have hsum : sumFields [y, fun a => gmap (fun x => x / density) (acc a)] = .ok fun a => (T' a).array := by
        refine sumFields2.2 fun a => ⟨?_, ?_, fun i => ?_⟩
        · rw [← hTa a]; exact ⟨rfl, rfl, rfl⟩
        · have hTl := (hl.periodicField hu).1 a
          exact ⟨funext fun b => by
            show (acc a).offset b = (T a).array.offset b
            rw [(hf a).2.2 b, hTl.2.2 b], (hf a).1.trans hTl.1.symm, (hf a).2.1.trans hTl.2.1.symm⟩
        · show (T a).array.data i + _ = _
          rw [hTa a]
          rfl
      rw [hsum, Except.bind_ok]
      show Except.ok _ = Except.ok _
      congr 1
      funext a
      show (⟨(T' a).array, _⟩ : GridVariable d ℝ) = T' a
      rw [← (hl a).2.2.1]
    refine ⟨leaves T', ?_⟩
    unfold termsOnLeaves
    rw [hT', Except.bind_ok]
    exact leavesLike_eq_ok.2 ⟨fun a => ⟨(hl a).1, (hl a).2.1, (hl a).2.2.1, (hl a).2.2.2⟩, rfl⟩
  have hP : ∀ x, ∃ y, projectOnLeaves solve v x = .ok y := fun x => by
    obtain ⟨p, hp, hl, -⟩ := exact_projection hd hs hex ((withLeaves_layout v x).periodicField hv)
    refine ⟨leaves p, ?_⟩
    unfold projectOnLeaves
    rw [hp, Except.bind_ok]
    exact leavesLike_eq_ok.2 ⟨hl, rfl⟩
  obtain ⟨r, hr⟩ := navierStokesRK_total ht hrows _ _ hF hP dt (leaves v)
  refine ⟨withLeaves v r, ?_⟩
  unfold explicitSmagorinsky semiImplicitNavierStokes
  rw [hr]
  rfl


/-- **C59.** The result of the implicit solve is not projected again: starting from a divergence-free field it is divergence free only if
the eddy acceleration is. -/
theorem C59_implicit_divergence (hd : d ≠ 0) (g : Grid d ℝ) (hs : ∀ a, 0 < g.shape a) (nu dt : ℝ) (hdt : dt ≠ 0)
    (v w : Fin d → GridVariable d ℝ) (hv : PeriodicField g v) (hw : PeriodicField g w) (acc : Fin d → GridArray d ℝ)
    (h : ∀ a, ∃ l, laplacian (w a) = .ok l ∧ ∀ p, InR g.shape p →
      (w a).array.data p = (v a).array.data p + dt * ((acc a).data p + nu * l.data p))
    (hdv : DivergenceFree g v) (hdw : DivergenceFree g w) (p : Idx d) (hp : InR g.shape p) :
    ∑ a, ((acc a).data p - (acc a).data (rollIdx g.shape a (-1) p)) / g.step a = 0 := by
  obtain ⟨D, hD, hv0⟩ := hdv
  rw [hv.divergence hd hs] at hD
  have hD' := Except.ok.inj hD
  obtain ⟨E, hE, hw0⟩ := hdw
  rw [hw.divergence hd hs] at hE
  have hE' := Except.ok.inj hE
  rw [← hD'] at hv0
  rw [← hE'] at hw0
  dsimp only at hv0 hw0
  have h' : ∀ a p, InR g.shape p → dt * (acc a).data p = (w a).array.data p - (v a).array.data p - dt * nu *
      ∑ b, ((w a).array.data (rollIdx g.shape b 1 p) + (w a).array.data (rollIdx g.shape b (-1) p) - 2 * (w a).array.data p) /
        g.step b ^ 2 := by
    intro a p hp
    obtain ⟨l, hl, e⟩ := h a
    rw [laplacian_periodic (hw.var hs a)] at hl
    have hl' := Except.ok.inj hl
    have e1 : (w a).array.shape = g.shape := (hw.1 a).2.1
    have e2 : (w a).array.grid = g := (hw.1 a).1
    have := e p hp
    rw [← hl'] at this
    simp only [lapP, e1, e2] at this
    linarith
  have key : dt * ∑ a, ((acc a).data p - (acc a).data (rollIdx g.shape a (-1) p)) / g.step a = 0 := by
    have e1 : ∀ a, dt * (((acc a).data p - (acc a).data (rollIdx g.shape a (-1) p)) / g.step a) =
        ((w a).array.data p - (w a).array.data (rollIdx g.shape a (-1) p)) / g.step a -
        ((v a).array.data p - (v a).array.data (rollIdx g.shape a (-1) p)) / g.step a -
        dt * nu * ∑ b, (((w a).array.data (rollIdx g.shape b 1 p) - (w a).array.data (rollIdx g.shape a (-1) (rollIdx g.shape b 1 p))) /
              g.step a +
            ((w a).array.data (rollIdx g.shape b (-1) p) - (w a).array.data (rollIdx g.shape a (-1) (rollIdx g.shape b (-1) p))) /
              g.step a -
            2 * (((w a).array.data p - (w a).array.data (rollIdx g.shape a (-1) p)) / g.step a)) / g.step b ^ 2 := by
      intro a
      have x1 := h' a p hp
      have x2 := h' a _ (rollIdx_inR hp a (-1))
      rw [show dt * (((acc a).data p - (acc a).data (rollIdx g.shape a (-1) p)) / g.step a) =
        (dt * (acc a).data p - dt * (acc a).data (rollIdx g.shape a (-1) p)) / g.step a by ring, x1, x2]
      have x3 : ∀ b, rollIdx g.shape b 1 (rollIdx g.shape a (-1) p) = rollIdx g.shape a (-1) (rollIdx g.shape b 1 p) := fun b =>
        rollIdx_comm _ _ _ _ _ _
      have x4 : ∀ b, rollIdx g.shape b (-1) (rollIdx g.shape a (-1) p) = rollIdx g.shape a (-1) (rollIdx g.shape b (-1) p) := fun b =>
        rollIdx_comm _ _ _ _ _ _
      simp only [x3, x4]
      have x5 : ∀ X Y : Fin d → ℝ, (∑ b, X b - ∑ b, Y b) / g.step a = ∑ b, (X b - Y b) / g.step a := fun X Y => by
        rw [← Finset.sum_sub_distrib, Finset.sum_div]
      have x6 : ∀ x y z t X Y : ℝ, (x - y - dt * nu * X - (z - t - dt * nu * Y)) / g.step a =
          (x - z) / g.step a - (y - t) / g.step a - dt * nu * ((X - Y) / g.step a) := fun x y z t X Y => by ring
      rw [x6, x5]
      congr 2
      refine Finset.sum_congr rfl fun b _ => ?_
      ring
    rw [Finset.mul_sum, Finset.sum_congr rfl fun a _ => e1 a, Finset.sum_sub_distrib, Finset.sum_sub_distrib, hw0 p hp, hv0 p hp,
      ← Finset.mul_sum, Finset.sum_comm]
    have e2 : ∀ b : Fin d, ∑ a, (((w a).array.data (rollIdx g.shape b 1 p) - (w a).array.data (rollIdx g.shape a (-1) (rollIdx g.shape b 1 p))) /
              g.step a +
            ((w a).array.data (rollIdx g.shape b (-1) p) - (w a).array.data (rollIdx g.shape a (-1) (rollIdx g.shape b (-1) p))) /
              g.step a -
            2 * (((w a).array.data p - (w a).array.data (rollIdx g.shape a (-1) p)) / g.step a)) / g.step b ^ 2 = 0 := by
      intro b
      rw [← Finset.sum_div, Finset.sum_sub_distrib, Finset.sum_add_distrib, ← Finset.mul_sum, hw0 p hp, hw0 _ (rollIdx_inR hp b 1),
        hw0 _ (rollIdx_inR hp b (-1))]
      simp
    rw [Finset.sum_congr rfl fun b _ => e2 b]
    simp
  exact (mul_eq_zero.1 key).resolve_left hdt

/-- **C59.** A step of `implicit_smagorinsky_navier_stokes` with the default convection and no forcing: it conserves momentum, and its
energy is at most that of the projected convected field. -/
theorem C59_implicit_step (hd : d ≠ 0) (g : Grid d ℝ) (hs : ∀ a, 0 < g.shape a) (density nu dt cs : ℝ) (hdt : 0 ≤ dt) (hnu : 0 ≤ nu)
    (solve : PressureSolver d ℝ) (hex : ExactSolver g solve) (cg : TupleCG d)
    (hcg : ∀ b w, cg (evmLinearOp (evmModel (smagorinskyViscosity cs dt)) (periodicBC d) nu dt) b = .ok w →
      IsSolution (evmLinearOp (evmModel (smagorinskyViscosity cs dt)) (periodicBC d) nu dt) b w)
    (v w : Fin d → GridVariable d ℝ) (hv : PeriodicField g v)
    (hw : implicitSmagorinsky cg dt cs density nu solve none none v = .ok w) :
    PeriodicField g w ∧ (∀ a, total g w a = total g v a) ∧
      ∃ c u p, defaultConvect dt v = .ok c ∧ PeriodicField g u ∧
        (∀ a i, InR g.shape i → (u a).array.data i = (v a).array.data i + (c a).data i * dt) ∧
        projection u solve = .ok p ∧ DivergenceFree g p ∧
        ∑ a, inner (w a).array.toNArr (w a).array.toNArr ≤ ∑ a, inner (p a).array.toNArr (p a).array.toNArr := by
  unfold implicitSmagorinsky at hw
  obtain ⟨c, u, p, hc, hu, hp, hw⟩ := ((C56_implicit_step density nu dt solve _ (defaultConvect dt) (fun _ => .error .value) v w).2).1 hw
  have hul : SameLayout v u := fun a => by
    have h := (hu a).1 (v a).array (by simp)
    exact ⟨h.1.symm, h.2.1.symm, (hu a).2.1, h.2.2.symm⟩
  have hup := hul.periodicField hv
  obtain ⟨p', hp', -, hpp, hpd, hpt, -⟩ := exact_projection hd hs hex hup
  rw [hp] at hp'
  have hpe := Except.ok.inj hp'
  subst hpe
  obtain ⟨h1, h2, h3⟩ := C59_implicit_smagorinsky hd g hs cs nu dt hdt hnu p hpp cg (fun w => hcg _ w) w hw
  refine ⟨h1, fun a => ?_, c, u, p, hc, hup, fun a i _ => (hu a).2.2 i, hp, hpd, h3⟩
  have h0 := C56_default_convection_conservative hd g hs dt v c hv hc a
  rw [h2 a, hpt a]
  unfold total
  rw [Finset.sum_congr rfl fun i _ => (hu a).2.2 i, Finset.sum_add_distrib, ← Finset.sum_mul, h0, zero_mul, add_zero]

end

/-! ## Concrete cases -/

namespace Fixtures
variable [HasNan ℝ]

example : ∃ acc, evmModel (smagorinskyViscosity (1 / 5) (1 / 10)) swirl = .ok acc ∧
    ∑ a, inner (swirl a).array.toNArr (acc a).toNArr ≤ 0 := by
  obtain ⟨acc, h, -, -, h'⟩ := C59_smagorinsky two_ne_zero g34r g34r_pos (1 / 5) (1 / 10) swirl swirl_field
  exact ⟨acc, h, h'⟩

/-- a solver that returns `swirl` for the right-hand side that it solves -/
noncomputable def swirlCG : TupleCG 2 := fun op b =>
  open Classical in if IsSolution op b (fun a => (swirl a).array) then .ok fun a => (swirl a).array else .error .runtime

/-- the hypotheses of `C59_implicit` and `C59_implicit_step` are met by a right-hand side and solver -/
example (cs nu dt : ℝ) : ∃ v : Fin 2 → GridVariable 2 ℝ, PeriodicField g34r v ∧
    implicitEvmSolve swirlCG (evmModel (smagorinskyViscosity cs dt)) v nu dt = .ok swirl ∧
    ∀ b w, swirlCG (evmLinearOp (evmModel (smagorinskyViscosity cs dt)) (periodicBC 2) nu dt) b = .ok w →
      IsSolution (evmLinearOp (evmModel (smagorinskyViscosity cs dt)) (periodicBC 2) nu dt) b w := by
  obtain ⟨acc, r, -, h1, h2, -⟩ := C59_operator_scaling two_ne_zero g34r g34r_pos cs nu dt 1 swirl swirl swirl_field swirl_field
    fun a i _ => (one_mul _).symm
  have hlay : ∀ a, (r a).offset = (swirl a).array.offset ∧ (r a).grid = g34r ∧ (r a).shape = g34r.shape := fun a => by
    obtain ⟨acc', -, h⟩ := evmLinearOp_eq_ok.1 h2
    obtain ⟨l, -, -, -, -, -, -, -, e⟩ := h a
    rw [e]
    exact ⟨rfl, rfl, rfl⟩
  have hv : PeriodicField g34r fun a => (⟨r a, periodicBC 2⟩ : GridVariable 2 ℝ) :=
    ⟨fun a => ⟨(hlay a).2.1, (hlay a).2.2, fun b => by show (r a).offset b = _; rw [(hlay a).1]; rfl⟩, fun a => rfl⟩
  refine ⟨_, hv, ?_, fun b w h => ?_⟩
  · have hbc : uniqueBoundaryConditions (List.ofFn fun a => (⟨r a, periodicBC 2⟩ : GridVariable 2 ℝ)) = .ok (periodicBC 2) := by
      refine uniqueOr_eq_ok.2 ⟨by rw [Ne, List.ofFn_eq_nil_iff]; exact two_ne_zero, fun x hx => ?_⟩
      obtain ⟨a, rfl⟩ := List.mem_ofFn.1 hx
      rfl
    unfold implicitEvmSolve
    rw [if_neg (by rw [hv.allPeriodic]; decide), hbc, Except.bind_ok]
    unfold swirlCG
    rw [if_pos ⟨r, h2, fun a => ⟨rfl, rfl, rfl, fun i _ => rfl⟩⟩, Except.bind_ok]
    rfl
  · unfold swirlCG at h
    split_ifs at h with hc
    rw [← Except.ok.inj h]
    exact hc

example : ∃ N, learnedTensorViscosity 3 [edge 0 0, edge 0 1, edge (1 : Fin 2) 1] (fun _ => .ok ⟨g34r.shape, 3, fun i c => i 0 + c⟩)
    (strainTensor g34r fun a => (swirl a).array.data) swirl = .ok N ∧ ∀ i j, N i j = N j i := by
  obtain ⟨N, h, -⟩ := C59_learned_tensor g34r (fun a => (swirl a).array.data) swirl 3 [edge 0 0, edge 0 1, edge (1 : Fin 2) 1]
    (fun _ => .ok ⟨g34r.shape, 3, fun i c => i 0 + c⟩) _ rfl rfl (by
      intro i j
      fin_cases i <;> fin_cases j
      · simp
      · simp
      · simp [edge_comm (1 : Fin 2) 0]
      · simp)
  exact ⟨N, h, C59_symmetric g34r _ swirl N _ (Or.inr (Or.inr ⟨_, _, _, rfl⟩)) h⟩

end Fixtures
end JaxCfd
