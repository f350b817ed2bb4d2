import Verif.Model.Viscosities
import Verif.Props.SubgridStep

/-!
# C59: viscosities learned from velocity gradients, and the configurable modules
-/

namespace JaxCfd
variable {d : ℕ} [HasNan ℝ]

theorem forall₂_ofFn_of {α β : Type} {R : α → β → Prop} {n : ℕ} {f : Fin n → α} {h : Fin n → β} (hr : ∀ i, R (f i) (h i)) :
    List.Forall₂ R (List.ofFn f) (List.ofFn h) := by
  induction n with
  | zero => simp
  | succ n ih => rw [List.ofFn_succ, List.ofFn_succ]; exact .cons (hr 0) (ih fun i => hr i.succ)

theorem forall₂_flatten {α β : Type} {R : α → β → Prop} {xs : List (List α)} {ys : List (List β)}
    (h : List.Forall₂ (List.Forall₂ R) xs ys) : List.Forall₂ R xs.flatten ys.flatten := by
  induction h with
  | nil => exact .nil
  | cons h _ ih => rw [List.flatten_cons, List.flatten_cons]; exact List.rel_append h ih

theorem lerpAll_constant (s : Fin d → ℕ) (δ : Fin d → ℚ) (c : ℝ) (i : Idx d) : lerpAll s δ (fun _ => c) i = c := by
  unfold lerpAll
  generalize List.finRange d = l
  induction l with
  | nil => rfl
  | cons a l ih =>
    rw [List.foldl_cons]
    have : lerp ℝ s a (δ a) (fun _ => c) = fun _ => c := funext fun i => by unfold lerp; split_ifs <;> first | rfl | (push_cast; ring)
    rw [this]
    exact ih

/-- The channels the network sees: the strain components in row-major order. -/
def rowMajor (shape : Fin d → ℕ) (S : Fin d → Fin d → Idx d → ℝ) : List (NArr d ℝ) :=
  (List.ofFn fun i => List.ofFn fun j => (⟨shape, S i j⟩ : NArr d ℝ)).flatten

/-- The viscosity at the strain component `i j`. -/
noncomputable def gradientEdge (scale : ℝ) (g : Grid d ℝ) (out : Idx d → ℝ) (i j : Fin d) : Idx d → ℝ :=
  lerpAll g.shape (fun a => edge i j a - 1 / 2) fun p => (scale + 1 / 10 ^ 6) * out p

theorem gradient_eq {g : Grid d ℝ} (hs : ∀ a, 0 < g.shape a) (scale dt : ℝ) (net : List (NArr d ℝ) → Except Err (NArr d ℝ))
    (v : Fin d → GridVariable d ℝ) (w : Fin d → Idx d → ℝ) (out : Idx d → ℝ)
    (hnet : net (rowMajor g.shape (centredStrain g w)) = .ok ⟨g.shape, out⟩) :
    learnedGradientViscosity scale g dt net linearFn (strainTensor g w) v =
      .ok fun i j => ⟨⟨g.shape, gradientEdge scale g out i j⟩, edge i j, g⟩ := by
  unfold learnedGradientViscosity
  have hc : (seqFin fun i => seqFin fun j => wrappedInterp linearFn dt v (strainTensor g w i j) g.cellCenter) =
      .ok fun i j => (⟨⟨g.shape, centredStrain g w i j⟩, fun _ => 1 / 2, g⟩ : GridArray d ℝ) :=
    seqFin_ok _ (fun i j => (⟨⟨g.shape, centredStrain g w i j⟩, fun _ => 1 / 2, g⟩ : GridArray d ℝ)) fun i =>
      seqFin_ok _ (fun j => (⟨⟨g.shape, centredStrain g w i j⟩, fun _ => 1 / 2, g⟩ : GridArray d ℝ)) fun j => by
        unfold strainTensor
        rw [wrappedInterp_linear hs]
        rfl
  rw [hc, Except.bind_ok, if_neg (fun h => h fun _ _ _ _ => rfl)]
  unfold rowMajor at hnet
  rw [hnet, Except.bind_ok]
  unfold viscosityByOffset
  refine seqFin_ok _ (fun i j => (⟨⟨g.shape, gradientEdge scale g out i j⟩, edge i j, g⟩ : GridArray d ℝ)) fun i =>
    seqFin_ok _ (fun j => (⟨⟨g.shape, gradientEdge scale g out i j⟩, edge i j, g⟩ : GridArray d ℝ)) fun j => ?_
  have : wrappedInterp linearFn dt v ((⟨(⟨g.shape, out⟩ : NArr d ℝ).map fun x => (scale + 1 / 10 ^ 6) * x, g.cellCenter, g⟩ : GridArray d ℝ))
      (strainTensor g w i j).offset = .ok ⟨⟨g.shape, gradientEdge scale g out i j⟩, edge i j, g⟩ := wrappedInterp_linear hs dt v _ _ _
  beta_reduce
  rw [this]
  rfl

/-- **C59** `learned_scalar_viscosity_from_gradients` with the default interpolation: the network sees the strain components interpolated to the
cell centres, in row-major order; its output times `viscosity_scale + 10⁻⁶` is interpolated to the positions of the strain components.
The result is symmetric.  If the network only returns nonnegative values the eddy acceleration extracts energy, whatever the network;
momentum is conserved in any case. -/
theorem C59_gradient_viscosity (hd : d ≠ 0) (g : Grid d ℝ) (hs : ∀ a, 0 < g.shape a) (scale dt : ℝ)
    (net : List (NArr d ℝ) → Except Err (NArr d ℝ)) (v : Fin d → GridVariable d ℝ) (hv : PeriodicField g v) :
    ∃ S : Fin d → Fin d → Idx d → ℝ,
      (∀ i j, linear ⟨strainTensor g (fun a => (v a).array.data) i j, periodicBC d⟩ g.cellCenter =
        .ok ⟨⟨⟨g.shape, S i j⟩, g.cellCenter, g⟩, periodicBC d⟩) ∧
      ∀ out, net (List.ofFn fun i => List.ofFn fun j => (⟨g.shape, S i j⟩ : NArr d ℝ)).flatten = .ok ⟨g.shape, out⟩ →
        ∃ (N : Tensor d) (acc : Fin d → GridArray d ℝ),
          learnedGradientViscosity scale g dt net linearFn (strainTensor g fun a => (v a).array.data) v = .ok N ∧
          (∀ i j, linear ⟨⟨⟨g.shape, fun p => (scale + 1 / 10 ^ 6) * out p⟩, g.cellCenter, g⟩, periodicBC d⟩ (edge i j) =
            .ok ⟨N i j, periodicBC d⟩) ∧ (∀ i j, N i j = N j i) ∧
          evmModel (learnedGradientViscosity scale g dt net) v = .ok acc ∧ FaceField g acc ∧
          (∀ a, ∑ i ∈ box g.shape, (acc a).data i = 0) ∧
          (0 ≤ scale → (∀ p, InR g.shape p → 0 ≤ out p) → ∑ a, inner (v a).array.toNArr (acc a).toNArr ≤ 0) := by
  refine ⟨centredStrain g fun a => (v a).array.data, fun i j => ?_, fun out hnet => ?_⟩
  · rw [linear_fold ⟨fun b => rfl, fun b => ⟨rfl, hs b⟩⟩]
    rfl
  have hN := gradient_eq hs scale dt net v _ out hnet
  have h := (evmModel_eq_ok hd hv hs (visc := learnedGradientViscosity scale g dt net)).2 ⟨_, hN, fun i j => ⟨rfl, rfl, rfl⟩, rfl⟩
  obtain ⟨h1, h2, N, h3, h4⟩ := C59_evm hd g hs _ v hv _ h
  have e := hN.symm.trans h3
  injection e with e
  subst e
  have hsym : ∀ i j, gradientEdge scale g out i j = gradientEdge scale g out j i := fun i j => by
    unfold gradientEdge
    rw [edge_comm]
  refine ⟨_, _, hN, fun i j => ?_, fun i j => ?_, h, h1, h2, fun hsc hout => ?_⟩
  · rw [linear_fold ⟨fun b => rfl, fun b => ⟨rfl, hs b⟩⟩]
    rfl
  · rw [hsym, edge_comm]
  · rw [h4 fun i j p _ => by dsimp only; rw [hsym]]
    have := dissipation_nonneg (s := strain g fun a => (v a).array.data) (nu := gradientEdge scale g out) (g := g)
      (fun i j p hp => lerpAll_nonneg _ _ _ (fun p hp => mul_nonneg (by positivity) (hout p hp)) p hp)
    linarith

/-- **C59** Galilean invariance: a viscosity learned from gradients does not change when a uniform flow is added, so neither does the eddy
acceleration.  The network may be any function of the values of its channels. -/
theorem C59_gradient_galilean (hd : d ≠ 0) (g : Grid d ℝ) (hs : ∀ a, 0 < g.shape a) (scale dt : ℝ)
    (net : List (NArr d ℝ) → Except Err (NArr d ℝ))
    (hnet : ∀ xs ys, List.Forall₂ (fun x y : NArr d ℝ => x.shape = y.shape ∧ ∀ p, InR x.shape p → x.data p = y.data p) xs ys → net xs = net ys)
    (hshape : ∀ xs, (∀ x ∈ xs, x.shape = g.shape) → ∃ out, net xs = .ok ⟨g.shape, out⟩)
    (v v' : Fin d → GridVariable d ℝ) (hv : PeriodicField g v) (hv' : PeriodicField g v') (k : Fin d → ℝ)
    (h : ∀ a i, InR g.shape i → (v' a).array.data i = (v a).array.data i + k a) :
    ∃ acc acc', evmModel (learnedGradientViscosity scale g dt net) v = .ok acc ∧
      evmModel (learnedGradientViscosity scale g dt net) v' = .ok acc' ∧
      ∀ a i, InR g.shape i → (acc' a).data i = (acc a).data i := by
  obtain ⟨out, hout⟩ := hshape (rowMajor g.shape (centredStrain g fun a => (v a).array.data)) fun x hx => by
    obtain ⟨l, hl, hx⟩ := List.mem_flatten.1 hx
    obtain ⟨i, rfl⟩ := List.mem_ofFn.1 hl
    obtain ⟨j, rfl⟩ := List.mem_ofFn.1 hx
    rfl
  have haff : ∀ a i, InR g.shape i → (v' a).array.data i = 1 * (v a).array.data i + k a := fun a i hi => by rw [h a i hi, one_mul]
  have hout' : net (rowMajor g.shape (centredStrain g fun a => (v' a).array.data)) = .ok ⟨g.shape, out⟩ := by
    rw [← hout]
    refine hnet _ _ ?_
    unfold rowMajor
    refine forall₂_flatten (forall₂_ofFn_of fun i => forall₂_ofFn_of fun j => ⟨rfl, fun p hp => ?_⟩)
    exact (centredStrain_affine haff _ _ p hp).trans (one_mul _)
  have e1 := (evmModel_eq_ok hd hv hs (visc := learnedGradientViscosity scale g dt net)).2
    ⟨_, gradient_eq hs scale dt net v _ out hout, fun i j => ⟨rfl, rfl, rfl⟩, rfl⟩
  have e2 := (evmModel_eq_ok hd hv' hs (visc := learnedGradientViscosity scale g dt net)).2
    ⟨_, gradient_eq hs scale dt net v' _ out hout', fun i j => ⟨rfl, rfl, rfl⟩, rfl⟩
  refine ⟨_, _, e1, e2, fun a p hp => ?_⟩
  dsimp only
  unfold eddyForce bwd
  congr 1
  refine Finset.sum_congr rfl fun j _ => ?_
  have hst : ∀ q, InR g.shape q → strain g (fun a => (v' a).array.data) a j q = strain g (fun a => (v a).array.data) a j q :=
    fun q hq => (strain_affine haff _ _ q hq).trans (one_mul _)
  beta_reduce
  rw [hst p hp, hst _ (rollIdx_inR hp _ _)]

/-- **C59** The eddy viscosity module with its defaults is the Smagorinsky model with constant 0.2, whatever the viscosity of the fluid and the
viscosity scale: it succeeds on every periodic field, conserves momentum, extracts energy, and adding a uniform flow or scaling the
velocity by `c` scales the acceleration by `c |c|`. -/
theorem C59_eddy_viscosity_default (hd : d ≠ 0) (g : Grid d ℝ) (hs : ∀ a, 0 < g.shape a) (dt nu : ℝ) (scale : Option ℝ)
    (v : Fin d → GridVariable d ℝ) (hv : PeriodicField g v) :
    ∃ acc, ML.eddyViscosityModel nu scale (fun s => ML.smagorinskyModule dt (_viscosityScale := s)) v = .ok acc ∧ FaceField g acc ∧
      (∀ a, ∑ i ∈ box g.shape, (acc a).data i = 0) ∧ ∑ a, inner (v a).array.toNArr (acc a).toNArr ≤ 0 ∧
      evmModel (smagorinskyViscosity (2 / 10) dt) v = .ok acc := by
  obtain ⟨acc, h1, h2, h3, h4⟩ := C59_smagorinsky hd g hs (1 / 5) dt v hv
  exact ⟨acc, h1, h2, h3, h4, by rw [show (2 / 10 : ℝ) = 1 / 5 by norm_num]; exact h1⟩

/-- **C59** The scale handed to the viscosity model is the configured one, and the viscosity of the fluid when none is configured: with the
gradient model the viscosity at the cell centres is `(scale + 10⁻⁶) net`, `scale` being that number. -/
theorem C59_viscosity_scale (hd : d ≠ 0) (g : Grid d ℝ) (hs : ∀ a, 0 < g.shape a) (dt nu : ℝ) (scale : Option ℝ) (c : ℝ)
    (hc : scale = some c ∨ scale = none ∧ c = nu) (v : Fin d → GridVariable d ℝ) (hv : PeriodicField g v) (hdiv : DivergenceFree g v) :
    ∃ acc, ML.eddyViscosityModel nu scale (fun s => learnedGradientViscosity s g dt fun _ => .ok ⟨g.shape, fun _ => 1⟩) v = .ok acc ∧
      ∀ a, ∃ D, diffuse (v a) (c + 1 / 10 ^ 6) = .ok D ∧ ∀ p, InR g.shape p → (acc a).data p = D.data p := by
  have hcc : scale.getD nu = c := by
    rcases hc with rfl | ⟨rfl, rfl⟩ <;> rfl
  unfold ML.eddyViscosityModel
  rw [hcc]
  refine C59_constant hd g hs (c + 1 / 10 ^ 6) v hv hdiv _ _ (gradient_eq hs c dt _ v _ (fun _ => 1) rfl) (fun i j => ⟨rfl, rfl, rfl⟩) fun i j p hp => ?_
  dsimp only
  unfold gradientEdge
  rw [show (fun p : Idx d => (c + 1 / 10 ^ 6) * (fun _ : Idx d => (1 : ℝ)) p) = fun _ => c + 1 / 10 ^ 6 from funext fun _ => mul_one _]
  exact lerpAll_constant _ _ _ _

/-- **C59** `diffusions.implicit_evm_solve_with_diffusion` with the default viscosity module: whenever the conjugate gradient method, called with
the configured tolerance and number of iterations, returns a solution of the equation it is given, momentum is conserved and the energy
does not grow. -/
theorem C59_implicit_module (hd : d ≠ 0) (g : Grid d ℝ) (hs : ∀ a, 0 < g.shape a) (nu dt dt0 nu0 atol : ℝ) (hdt : 0 ≤ dt) (hnu : 0 ≤ nu)
    (maxiter : Option ℕ) (v : Fin d → GridVariable d ℝ) (hv : PeriodicField g v) (cg : ℝ → Option ℕ → TupleCG d)
    (hcg : ∀ w, cg atol maxiter (evmLinearOp (evmModel (smagorinskyViscosity (1 / 5) dt0)) (periodicBC d) nu dt) (fun a => (v a).array) = .ok w →
      IsSolution (evmLinearOp (evmModel (smagorinskyViscosity (1 / 5) dt0)) (periodicBC d) nu dt) (fun a => (v a).array) w)
    (w : Fin d → GridVariable d ℝ)
    (hw : ML.implicitEvmModule cg (ML.eddyViscosityModel nu0 none fun s => ML.smagorinskyModule dt0 (_viscosityScale := s)) atol maxiter v nu dt =
      .ok w) :
    PeriodicField g w ∧ (∀ a, total g w a = total g v a) ∧
      ∑ a, inner (w a).array.toNArr (w a).array.toNArr ≤ ∑ a, inner (v a).array.toNArr (v a).array.toNArr := by
  obtain ⟨h1, -, h3, h4⟩ := C59_implicit hd g hs (smagorinskyViscosity (1 / 5) dt0) nu dt v hv (cg atol maxiter) hcg w hw
  refine ⟨h1, h3, h4 hdt hnu fun N hN => ?_⟩
  obtain ⟨-, N', hN', -, -, h5, h6⟩ := C59_smagorinsky_viscosity hd g hs (1 / 5) dt0 w h1
  rw [hN] at hN'
  rw [Except.ok.inj hN']
  exact ⟨h5, h6⟩

namespace Fixtures

/-- Hypotheses met by the periodic 3×4 swirl and a network that squares one of the gradients. -/
example : ∃ acc, evmModel (learnedGradientViscosity 3 g34r (1 / 10) fun xs => match xs with
    | _ :: y :: _ => .ok ⟨g34r.shape, fun p => y.data p ^ 2⟩
    | _ => .error .value) swirl = .ok acc ∧ ∑ a, inner (swirl a).array.toNArr (acc a).toNArr ≤ 0 := by
  obtain ⟨S, -, h⟩ := C59_gradient_viscosity (by norm_num) g34r g34r_pos 3 (1 / 10) (fun xs => match xs with
    | _ :: y :: _ => .ok ⟨g34r.shape, fun p => y.data p ^ 2⟩
    | _ => .error .value) swirl swirl_field
  obtain ⟨N, acc, -, -, -, h1, -, -, h2⟩ := h (fun p => S 0 1 p ^ 2) (by simp)
  exact ⟨acc, h1, h2 (by norm_num) fun p _ => sq_nonneg _⟩

end Fixtures

end JaxCfd
