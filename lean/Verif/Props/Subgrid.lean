import Verif.Lemmas.Subgrid
import Verif.Props.Equations

/-!
# C59: eddy viscosity models
-/

namespace JaxCfd
variable {d : ℕ} [HasNan ℝ]

/-- **C59.** `evm_model`, `smagorinsky_viscosity` and `implicit_evm_solve_with_diffusion` raise ValueError as soon as one component has a
wall. -/
theorem C59_walls (v : Fin d → GridVariable d ℝ) (a b : Fin d) (h : ((v a).bc.types b).1 ≠ .periodic) :
    (∀ visc, evmModel visc v = .error .value) ∧ (∀ cs dt interp s, smagorinskyViscosity cs dt interp s v = .error .value) ∧
    ∀ cg evm nu dt, implicitEvmSolve cg evm v nu dt = .error .value := by
  have hp : hasAllPeriodic (List.ofFn v) = false := by
    rw [← Bool.not_eq_true, hasAllPeriodic_ofFn]
    exact fun e => h (e a b)
  refine ⟨fun visc => ?_, fun cs dt interp s => ?_, fun cg evm nu dt => ?_⟩
  · unfold evmModel; rw [if_pos hp]
  · unfold smagorinskyViscosity; rw [if_pos hp]
  · unfold implicitEvmSolve; rw [if_pos hp]

/-- **C59.** Whatever the viscosity model, the eddy acceleration lives on the faces of the velocity and has mean zero: momentum is
conserved.  If the viscosity is symmetric the power of the acceleration is `-2 Σ ν[i,j] s[i,j]²`. -/
theorem C59_evm (hd : d ≠ 0) (g : Grid d ℝ) (hs : ∀ a, 0 < g.shape a) (visc : ViscosityFn d) (v : Fin d → GridVariable d ℝ)
    (hv : PeriodicField g v) (acc : Fin d → GridArray d ℝ) (h : evmModel visc v = .ok acc) :
    FaceField g acc ∧ (∀ a, ∑ i ∈ box g.shape, (acc a).data i = 0) ∧
    ∃ N, visc (strainTensor g fun a => (v a).array.data) v = .ok N ∧
      ((∀ i j p, InR g.shape p → (N i j).data p = (N j i).data p) →
        ∑ a, inner (v a).array.toNArr (acc a).toNArr =
          -2 * dissipation g (fun i j => (N i j).data) (strain g fun a => (v a).array.data)) := by
  obtain ⟨N, hN, hlay, hr⟩ := (evmModel_eq_ok hd hv hs).1 h
  have hd1 : ∀ a, (acc a).data = eddyForce g (fun i j => (N i j).data) (strain g fun a => (v a).array.data) a := fun a => by rw [hr]
  refine ⟨fun a => ?_, fun a => ?_, N, hN, fun hsym => ?_⟩
  · rw [hr]
    exact ⟨rfl, rfl, fun b => by simp only [Grid.cellFaces]; split_ifs <;> norm_num⟩
  · rw [hd1 a]
    exact sum_eddyForce _ _ _ _
  · have := eddyForce_pair g (fun i j => (N i j).data) (fun a => (v a).array.data) (fun a => (v a).array.data) hsym
    have e : ∀ a, inner (v a).array.toNArr (acc a).toNArr = ∑ p ∈ box g.shape, (v a).array.data p *
        eddyForce g (fun i j => (N i j).data) (strain g fun a => (v a).array.data) a p := fun a => by
      unfold inner
      rw [hd1 a, show (v a).array.shape = g.shape from (hv.1 a).2.1]
    rw [Finset.sum_congr rfl fun a _ => e a, this]
    unfold dissipation
    congr 1
    refine Finset.sum_congr rfl fun i _ => Finset.sum_congr rfl fun j _ => Finset.sum_congr rfl fun p _ => ?_
    ring

theorem dissipation_nonneg {g : Grid d ℝ} {nu s : Fin d → Fin d → Idx d → ℝ} (h : ∀ i j p, InR g.shape p → 0 ≤ nu i j p) :
    0 ≤ dissipation g nu s :=
  Finset.sum_nonneg fun i _ => Finset.sum_nonneg fun j _ => Finset.sum_nonneg fun p hp => mul_nonneg (h i j p (mem_box.1 hp)) (sq_nonneg _)

/-- **C59.** With a constant viscosity `evm_model` is `ν (Δv + ∇ div v)`; on a divergence free field it is therefore exactly
`diffuse(v, ν)`. -/
theorem C59_constant (hd : d ≠ 0) (g : Grid d ℝ) (hs : ∀ a, 0 < g.shape a) (nu : ℝ) (v : Fin d → GridVariable d ℝ) (hv : PeriodicField g v)
    (hdiv : DivergenceFree g v) (visc : ViscosityFn d) (N : Tensor d)
    (hN : visc (strainTensor g fun a => (v a).array.data) v = .ok N)
    (hlay : ∀ i j, (N i j).shape = g.shape ∧ (N i j).offset = edge i j ∧ (N i j).grid = g)
    (hconst : ∀ i j p, InR g.shape p → (N i j).data p = nu) :
    ∃ acc, evmModel visc v = .ok acc ∧
      ∀ a, ∃ D, diffuse (v a) nu = .ok D ∧ ∀ p, InR g.shape p → (acc a).data p = D.data p := by
  refine ⟨_, (evmModel_eq_ok hd hv hs).2 ⟨N, hN, hlay, rfl⟩, fun a => ⟨gmap (fun x => nu * x) (lapP (v a)), ?_, fun p hp => ?_⟩⟩
  · unfold diffuse
    rw [laplacian_periodic (hv.var hs a), Except.bind_ok]
    rfl
  · obtain ⟨D, hD, hD0⟩ := hdiv
    rw [hv.divergence hd hs] at hD
    injection hD with hD
    subst hD
    have z0 := hD0 p hp
    have z1 := hD0 _ (rollIdx_inR hp a 1)
    have e : (v a).array.shape = g.shape := (hv.1 a).2.1
    have e' : (v a).array.grid = g := (hv.1 a).1
    show eddyForce g (fun i j => (N i j).data) (strain g fun a => (v a).array.data) a p = _
    simp only [gmap, NArr.map, lapP, e, e', eddyForce, bwd, strain, fwd]
    have hr : ∀ j : Fin d, (N a j).data p = nu ∧ (N a j).data (rollIdx g.shape j (-1) p) = nu := fun j =>
      ⟨hconst _ _ _ hp, hconst _ _ _ (rollIdx_inR hp _ _)⟩
    simp only [(hr _).1, (hr _).2]
    have hroll : ∀ j : Fin d, rollIdx g.shape j 1 (rollIdx g.shape j (-1) p) = p := fun j => by
      rw [rollIdx_add, neg_add_cancel, rollIdx_zero hp]
    have hcomm : ∀ j : Fin d, rollIdx g.shape a 1 (rollIdx g.shape j (-1) p) = rollIdx g.shape j (-1) (rollIdx g.shape a 1 p) :=
      fun j => rollIdx_comm _ _ _ _ _ _
    simp only [hroll, hcomm]
    have key : ∀ j : Fin d,
        (-2 * nu * (1 / 2 * (((v a).array.data (rollIdx g.shape j 1 p) - (v a).array.data p) / g.step j +
              ((v j).array.data (rollIdx g.shape a 1 p) - (v j).array.data p) / g.step a)) -
            -2 * nu * (1 / 2 * (((v a).array.data p - (v a).array.data (rollIdx g.shape j (-1) p)) / g.step j +
              ((v j).array.data (rollIdx g.shape j (-1) (rollIdx g.shape a 1 p)) - (v j).array.data (rollIdx g.shape j (-1) p)) /
                g.step a))) / g.step j =
        -(nu * (((v a).array.data (rollIdx g.shape j 1 p) + (v a).array.data (rollIdx g.shape j (-1) p) - 2 * (v a).array.data p) /
          g.step j ^ 2)) -
        nu / g.step a * (((v j).array.data (rollIdx g.shape a 1 p) - (v j).array.data (rollIdx g.shape j (-1) (rollIdx g.shape a 1 p))) /
          g.step j) +
        nu / g.step a * (((v j).array.data p - (v j).array.data (rollIdx g.shape j (-1) p)) / g.step j) := by
      intro j
      rcases eq_or_ne (g.step j) 0 with h | h
      · simp [h]
      · rcases eq_or_ne (g.step a) 0 with h' | h'
        · simp [h']; field_simp; ring
        · field_simp; ring
    simp only [key, Finset.sum_add_distrib, Finset.sum_sub_distrib, Finset.sum_neg_distrib, ← Finset.mul_sum]
    dsimp only at z0 z1
    rw [z0, z1]
    ring

/-! ## The Smagorinsky model -/

theorem wrappedInterp_linear {g : Grid d ℝ} (hs : ∀ a, 0 < g.shape a) (dt : ℝ) (v : Fin d → GridVariable d ℝ) (f : Idx d → ℝ)
    (o o' : Fin d → ℚ) : wrappedInterp linearFn dt v (⟨⟨g.shape, f⟩, o, g⟩ : GridArray d ℝ) o' =
      .ok ⟨⟨g.shape, lerpAll g.shape (fun a => o' a - o a) f⟩, o', g⟩ := by
  unfold wrappedInterp linearFn
  rw [linear_fold ⟨fun b => rfl, fun b => ⟨rfl, hs b⟩⟩]
  rfl

/-- The strain interpolated to the cell centres. -/
noncomputable def centredStrain (g : Grid d ℝ) (w : Fin d → Idx d → ℝ) (i j : Fin d) : Idx d → ℝ :=
  lerpAll g.shape (fun a => 1 / 2 - edge i j a) (strain g w i j)

/-- The Smagorinsky viscosity at the cell centres. -/
noncomputable def centredViscosity (cs : ℝ) (g : Grid d ℝ) (w : Fin d → Idx d → ℝ) (p : Idx d) : ℝ :=
  (cs * smagorinskyCutoff g) ^ 2 * Real.sqrt (2 * ∑ i, ∑ j, centredStrain g w i j p ^ 2)

/-- The Smagorinsky viscosity at the position of the strain component. -/
noncomputable def edgeViscosity (cs : ℝ) (g : Grid d ℝ) (w : Fin d → Idx d → ℝ) (i j : Fin d) : Idx d → ℝ :=
  lerpAll g.shape (fun a => edge i j a - 1 / 2) (centredViscosity cs g w)

theorem smagorinsky_eq (hd : d ≠ 0) {g : Grid d ℝ} (hs : ∀ a, 0 < g.shape a) (cs dt : ℝ) {v : Fin d → GridVariable d ℝ}
    (hv : PeriodicField g v) (w : Fin d → Idx d → ℝ) : smagorinskyViscosity cs dt linearFn (strainTensor g w) v =
      .ok fun i j => ⟨⟨g.shape, edgeViscosity cs g w i j⟩, edge i j, g⟩ := by
  unfold smagorinskyViscosity
  rw [if_neg (by rw [hv.allPeriodic]; decide)]
  have hbc : uniqueBoundaryConditions (List.ofFn v) = .ok (periodicBC d) := by
    refine uniqueOr_eq_ok.2 ⟨by rw [Ne, List.ofFn_eq_nil_iff]; exact hd, fun x hx => ?_⟩
    obtain ⟨a, rfl⟩ := List.mem_ofFn.1 hx
    exact hv.2 a
  have hg : consistentGrid ((List.ofFn fun i => List.ofFn fun j => strainTensor g w i j).flatten ++
      List.ofFn fun a => (v a).array) = .ok g := by
    refine uniqueOr_eq_ok.2 ⟨?_, fun x hx => ?_⟩
    · intro e
      have := (List.append_eq_nil_iff.1 e).2
      rw [List.ofFn_eq_nil_iff] at this
      exact hd this
    · rcases List.mem_append.1 hx with hx | hx
      · obtain ⟨l, hl, hx⟩ := List.mem_flatten.1 hx
        obtain ⟨i, rfl⟩ := List.mem_ofFn.1 hl
        obtain ⟨j, rfl⟩ := List.mem_ofFn.1 hx
        rfl
      · obtain ⟨a, rfl⟩ := List.mem_ofFn.1 hx
        exact (hv.1 a).1
  rw [hbc, Except.bind_ok, hg, Except.bind_ok]
  have hc : (seqFin fun i => seqFin fun j => wrappedInterp linearFn dt v (strainTensor g w i j) g.cellCenter) =
      .ok fun i j => (⟨⟨g.shape, centredStrain g w i j⟩, fun _ => 1 / 2, g⟩ : GridArray d ℝ) :=
    seqFin_ok _ (fun i j => (⟨⟨g.shape, centredStrain g w i j⟩, fun _ => 1 / 2, g⟩ : GridArray d ℝ)) fun i =>
      seqFin_ok _ (fun j => (⟨⟨g.shape, centredStrain g w i j⟩, fun _ => 1 / 2, g⟩ : GridArray d ℝ)) fun j => by
        unfold strainTensor
        rw [wrappedInterp_linear hs]
        rfl
  rw [hc, Except.bind_ok]
  have hcomm : ∀ i j, centredStrain g w i j = centredStrain g w j i := by
    intro i j
    unfold centredStrain
    rw [edge_comm i j, show strain g w i j = strain g w j i from funext fun p => strain_comm g w i j p]
  have ht : traceSquare (fun i j => (⟨⟨g.shape, centredStrain g w i j⟩, fun _ => 1 / 2, g⟩ : GridArray d ℝ)) =
      .ok ⟨⟨g.shape, fun p => ∑ i, ∑ j, centredStrain g w i j p ^ 2⟩, fun _ => 1 / 2, g⟩ := by
    unfold traceSquare
    rw [seqFin_ok _ (fun i => (⟨⟨g.shape, fun p => ∑ j, centredStrain g w i j p ^ 2⟩, fun _ => 1 / 2, g⟩ : GridArray d ℝ)) fun i => ?_,
      Except.bind_ok]
    · exact sumArrays_ofFn.2 ⟨hd, fun a => ⟨rfl, rfl, rfl⟩, rfl⟩
    · rw [seqFin_ok _ (fun j => (⟨⟨g.shape, fun p => centredStrain g w i j p ^ 2⟩, fun _ => 1 / 2, g⟩ : GridArray d ℝ)) fun j => ?_,
        Except.bind_ok]
      · exact sumArrays_ofFn.2 ⟨hd, fun a => ⟨rfl, rfl, rfl⟩, rfl⟩
      · rw [gmap2_ok (by rfl) (by rfl) (by rfl)]
        congr 1
        refine GridArray.ext' rfl ?_ rfl rfl
        funext p
        dsimp only
        rw [hcomm j i, sq]
  rw [ht, Except.bind_ok]
  unfold viscosityByOffset
  refine seqFin_ok _ (fun i j => (⟨⟨g.shape, edgeViscosity cs g w i j⟩, edge i j, g⟩ : GridArray d ℝ)) fun i =>
    seqFin_ok _ (fun j => (⟨⟨g.shape, edgeViscosity cs g w i j⟩, edge i j, g⟩ : GridArray d ℝ)) fun j => ?_
  have : wrappedInterp linearFn dt v (gmap (fun x => (cs * smagorinskyCutoff g) ^ 2 * Real.sqrt (2 * x))
      (⟨⟨g.shape, fun p => ∑ i, ∑ j, centredStrain g w i j p ^ 2⟩, fun _ => 1 / 2, g⟩ : GridArray d ℝ)) (strainTensor g w i j).offset =
      .ok ⟨⟨g.shape, edgeViscosity cs g w i j⟩, edge i j, g⟩ := wrappedInterp_linear hs dt v _ _ _
  beta_reduce
  rw [this]
  rfl

theorem edgeViscosity_comm (cs : ℝ) (g : Grid d ℝ) (w : Fin d → Idx d → ℝ) (i j : Fin d) :
    edgeViscosity cs g w i j = edgeViscosity cs g w j i := by
  unfold edgeViscosity
  rw [edge_comm]

theorem edgeViscosity_nonneg (cs : ℝ) (g : Grid d ℝ) (w : Fin d → Idx d → ℝ) (i j : Fin d) (p : Idx d) (hp : InR g.shape p) :
    0 ≤ edgeViscosity cs g w i j p :=
  lerpAll_nonneg _ _ _ (fun _ _ => mul_nonneg (sq_nonneg _) (Real.sqrt_nonneg _)) p hp

/-- **C59.** `smagorinsky_viscosity` succeeds on every periodic field.  Its value at the cell centres is `(cs Δ)² √(2 Σ S[i,j]²)`, where
`S` is the strain interpolated to the centres and `Δ` the geometric mean of the steps; the returned tensor is the interpolation of that
field to the positions of the strain.  It is symmetric and nonnegative. -/
theorem C59_smagorinsky_viscosity (hd : d ≠ 0) (g : Grid d ℝ) (hs : ∀ a, 0 < g.shape a) (cs dt : ℝ) (v : Fin d → GridVariable d ℝ)
    (hv : PeriodicField g v) :
    ∃ (S : Fin d → Fin d → Idx d → ℝ) (N : Tensor d),
      smagorinskyViscosity cs dt linearFn (strainTensor g fun a => (v a).array.data) v = .ok N ∧
      (∀ i j, linear ⟨strainTensor g (fun a => (v a).array.data) i j, periodicBC d⟩ g.cellCenter =
        .ok ⟨⟨⟨g.shape, S i j⟩, g.cellCenter, g⟩, periodicBC d⟩) ∧
      (∀ i j, linear ⟨⟨⟨g.shape, fun p => (cs * (∏ a, g.step a) ^ (1 / (d : ℝ))) ^ 2 * Real.sqrt (2 * ∑ i, ∑ j, S i j p ^ 2)⟩,
        g.cellCenter, g⟩, periodicBC d⟩ (edge i j) = .ok ⟨N i j, periodicBC d⟩) ∧
      (∀ i j, N i j = N j i) ∧ ∀ i j p, InR g.shape p → 0 ≤ (N i j).data p := by
  refine ⟨centredStrain g fun a => (v a).array.data, _, smagorinsky_eq hd hs cs dt hv _, fun i j => ?_, fun i j => ?_, fun i j => ?_,
    fun i j p hp => edgeViscosity_nonneg _ _ _ _ _ _ hp⟩
  · rw [linear_fold ⟨fun b => rfl, fun b => ⟨rfl, hs b⟩⟩]
    rfl
  · rw [linear_fold ⟨fun b => rfl, fun b => ⟨rfl, hs b⟩⟩]
    rfl
  · rw [edgeViscosity_comm, edge_comm]

/-- **C59.** The Smagorinsky acceleration exists for every periodic velocity, every constant and every time step; it conserves momentum
and never increases the kinetic energy. -/
theorem C59_smagorinsky (hd : d ≠ 0) (g : Grid d ℝ) (hs : ∀ a, 0 < g.shape a) (cs dt : ℝ) (v : Fin d → GridVariable d ℝ)
    (hv : PeriodicField g v) :
    ∃ acc, evmModel (smagorinskyViscosity cs dt) v = .ok acc ∧ FaceField g acc ∧ (∀ a, ∑ i ∈ box g.shape, (acc a).data i = 0) ∧
      ∑ a, inner (v a).array.toNArr (acc a).toNArr ≤ 0 := by
  have hN := smagorinsky_eq hd hs cs dt hv fun a => (v a).array.data
  have h := (evmModel_eq_ok hd hv hs (visc := smagorinskyViscosity cs dt)).2 ⟨_, hN, fun i j => ⟨rfl, rfl, rfl⟩, rfl⟩
  obtain ⟨h1, h2, N, h3, h4⟩ := C59_evm hd g hs _ v hv _ h
  refine ⟨_, h, h1, h2, ?_⟩
  have e := hN.symm.trans h3
  injection e with e
  subst e
  rw [h4 fun i j p _ => by dsimp only; rw [edgeViscosity_comm]]
  have := dissipation_nonneg (s := strain g fun a => (v a).array.data)
    (fun i j p hp => edgeViscosity_nonneg cs g (fun a => (v a).array.data) i j p hp)
  linarith

theorem evm_smagorinsky_eq (hd : d ≠ 0) {g : Grid d ℝ} (hs : ∀ a, 0 < g.shape a) (cs dt : ℝ) {v : Fin d → GridVariable d ℝ}
    (hv : PeriodicField g v) : evmModel (smagorinskyViscosity cs dt) v =
      .ok fun i => ⟨⟨g.shape, eddyForce g (edgeViscosity cs g fun a => (v a).array.data) (strain g fun a => (v a).array.data) i⟩,
        g.cellFaces i, g⟩ :=
  (evmModel_eq_ok hd hv hs).2 ⟨_, smagorinsky_eq hd hs cs dt hv _, fun i j => ⟨rfl, rfl, rfl⟩, rfl⟩

end JaxCfd
