import Verif.Props.UnitsAdvection
import Verif.Props.PermutationSteps

/-!
# C77: no hidden units — projections, time steps and stability limits
-/

namespace JaxCfd
variable {d : ℕ} {l m τ : ℝ}

/-- A velocity field in other units: `l` is the factor of lengths and `τ` that of times. -/
def VelocityInUnits (l τ : ℝ) (u v : Fin d → GridVariable d ℝ) : Prop := ∀ a, (u a).InUnits l (l / τ) (v a)

/-- `f` and `f'` do the same in the two systems of units, on the fields in `Adm`. -/
def UnitsCommute (l τ : ℝ) (Adm : (Fin d → GridVariable d ℝ) → Prop) (f f' : (Fin d → GridVariable d ℝ) → Except Err (Fin d → GridVariable d ℝ)) : Prop :=
  ∀ u u', Adm u → VelocityInUnits l τ u u' → RelS (VelocityInUnits l τ) (f u) (f' u')

/-- The same for functions that return arrays; `n` is the factor of the results. -/
def TendencyUnitsCommute (l τ n : ℝ) (Adm : (Fin d → GridVariable d ℝ) → Prop) (f f' : (Fin d → GridVariable d ℝ) → Except Err (Fin d → GridArray d ℝ)) : Prop :=
  ∀ u u', Adm u → VelocityInUnits l τ u u' → RelS (fun r s => ∀ a, (r a).InUnits l n (s a)) (f u) (f' u')

theorem homogeneousBC_inUnits (t : Fin d → BCType × BCType) : (homogeneousBC t : BC d ℝ).Given ∧ ∀ l n : ℝ, (homogeneousBC t : BC d ℝ).inUnits l n = homogeneousBC t :=
  ⟨fun a => ⟨fun _ => by simp [homogeneousBC], fun _ => by simp [homogeneousBC]⟩, fun l n => constantZero_inUnits (fun a => ⟨Or.inr rfl, Or.inr rfl⟩) l n⟩

section
variable [HasNan ℝ]

omit [HasNan ℝ] in
theorem pressureBC_inUnits {u v : Fin d → GridVariable d ℝ} (h : VelocityInUnits l τ u v) :
    RelS (fun b b' => b' = b ∧ b.Given ∧ ∀ l n : ℝ, b.inUnits l n = b) (pressureBCFromVelocity (List.ofFn u)) (pressureBCFromVelocity (List.ofFn v)) := by
  unfold pressureBCFromVelocity
  refine RelS.bind (R := fun a b => b = a) ?_ fun t t' ht => by
    subst ht
    exact RelS.ok ⟨rfl, (homogeneousBC_inUnits _).1, (homogeneousBC_inUnits _).2⟩
  have hp : ∀ a ax, isPeriodicBC (v a) ax = isPeriodicBC (u a) ax := fun a ax => by
    unfold isPeriodicBC
    rw [(h a).1]
    rfl
  have hu : ∀ ax, RelS (fun a b => b = a) (uniqueOr .bc (fun a => isPeriodicBC a ax) (List.ofFn u)) (uniqueOr .bc (fun a => isPeriodicBC a ax) (List.ofFn v)) := fun ax r hr => by
    obtain ⟨h0, h1⟩ := uniqueOr_eq_ok.1 hr
    refine ⟨r, uniqueOr_eq_ok.2 ⟨by simpa using h0, fun x hx => ?_⟩, rfl⟩
    obtain ⟨a, rfl⟩ := (List.mem_ofFn' _ _).1 hx
    exact (hp a ax).trans (h1 _ (List.mem_ofFn.2 ⟨a, rfl⟩))
  unfold consistentBC
  rcases Nat.eq_zero_or_pos d with rfl | hd
  · exact RelS.error _ _
  · obtain ⟨k, rfl⟩ : ∃ k, d = k + 1 := ⟨d - 1, by omega⟩
    rw [List.ofFn_succ, List.ofFn_succ] at hu ⊢
    dsimp only
    exact (RelS.seq (R := fun _ a b => b = a) hu).mono fun a b _ hab => funext hab

/-- **C77** The projection with solvers that do the same in the two systems of units; the pressure (divided by the density) is in units of velocity squared. -/
theorem C77_projection (hl : 0 < l) {u u' : Fin d → GridVariable d ℝ} (h : VelocityInUnits l τ u u') (solve solve' : PressureSolver d ℝ)
    (hsol : ∀ q q' bc, q.InUnits l (l ^ 2 / τ) q' → RelS (GridArray.InUnits l (l ^ 2 / τ)) (solve u q bc) (solve' u' q' bc)) :
    RelS (VelocityInUnits l τ) (projection u solve) (projection u' solve') := by
  have hl' : l ≠ 0 := hl.ne'
  unfold projection
  refine RelS.bind (consistentGrid_ofFn_inUnits fun a => (h a).2.2.grid) fun g g' hg => RelS.bind (pressureBC_inUnits h) fun bc bc' hb => ?_
  obtain ⟨rfl, -⟩ := hg
  obtain ⟨rfl, hG, hz⟩ := hb
  have imp : ∀ {x y : GridArray d ℝ}, x.InUnits l (l ^ 2 / τ) y → RelS (GridVariable.InUnits l (l ^ 2 / τ)) (bc'.imposeBC x) (bc'.imposeBC y) := fun {x y} hxy => by
    have := C77_impose_bc (m := l ^ 2 / τ) hl' bc' hG hxy
    rwa [hz] at this
  refine RelS.bind (imp ⟨rfl, rfl, rfl, fun _ _ => (mul_zero _).symm⟩) fun q0 q0' hq0 => RelS.bind (hsol _ _ _ hq0) fun q q' hq => RelS.bind (imp hq) fun qv qv' hqv => ?_
  unfold forwardDifferences
  refine RelS.bind (RelS.seq (R := fun _ => GridArray.InUnits l (l ^ 2 / τ / l)) fun a => (C77_differences hl' hqv a).2.2) fun G G' hGr => ?_
  refine RelS.seq (R := fun _ => GridVariable.InUnits l (l / τ)) fun a => ?_
  rw [(h a).1]
  have e : l ^ 2 / τ / l = l / τ := by field_simp
  rw [e] at hGr
  exact RelS.bind ((h a).2.2.gmap2 (hGr a) fun x y => by ring) fun w w' hw => C77_impose_bc hl' _ (h a).2.1 hw

theorem VelocityInUnits.field {g : Grid d ℝ} {u v : Fin d → GridVariable d ℝ} (h : VelocityInUnits l τ u v) (hu : VelocityField g u) : VelocityField (g.inUnits l) v := by
  refine ⟨hu.1, fun a => ⟨?_, ?_, fun b => ?_⟩, fun b => ?_⟩
  · rw [(h a).2.2.grid, (hu.2.1 a).1]
  · rw [(h a).2.2.shape, (hu.2.1 a).2.1]
    rfl
  · rw [(h a).2.2.offset]
    exact (hu.2.1 a).2.2 b
  · have e : ∀ c, (v c).bc.types = (u c).bc.types := fun c => by rw [(h c).1]; rfl
    simp only [e]
    exact hu.2.2 b

theorem VelocityInUnits.walls {u v : Fin d → GridVariable d ℝ} (h : VelocityInUnits l τ u v) (hu : WallsStored u) : WallsStored v := by
  intro a i hi ht hlast
  have hi' : InR (u a).array.shape i := by rw [← (h a).2.2.shape]; exact hi
  have ht' : (u a).bc.types a = (.dirichlet, .dirichlet) := by
    rw [← ht, (h a).1]
    rfl
  rw [(h a).2.2.data hi', hu a i hi' ht' (by rw [← (h a).2.2.shape]; exact hlast), (h a).1]
  unfold BC.constantValues BC.inUnits
  dsimp only
  rw [ht']
  dsimp only
  rw [BC.sideInUnits_getD (((h a).2.1 a).2 (by rw [ht']; decide)), if_neg (by decide)]

/-- **C77** With solvers that solve the pressure equation — in either system of units, however they compute the solution — the projection commutes with the change of units, between walls too. -/
theorem C77_exact_projection (hd : d ≠ 0) (hl : 0 < l) (g : Grid d ℝ) {u u' : Fin d → GridVariable d ℝ} (hu : VelocityField g u) (hw : WallsStored u) (h : VelocityInUnits l τ u u')
    (solve solve' : PressureSolver d ℝ) {bc bc' : BC d ℝ} {q q' : GridArray d ℝ} (hq : Returns solve g u bc q) (hsol : SolvesPoisson u bc q)
    (hq' : Returns solve' (g.inUnits l) u' bc' q') (hsol' : SolvesPoisson u' bc' q') : RelS (VelocityInUnits l τ) (projection u solve) (projection u' solve') := by
  have hl' : l ≠ 0 := hl.ne'
  have hu' := h.field hu
  obtain ⟨L, D, hL, hD, hLD⟩ := hsol
  obtain ⟨b, hb, hbb, hG, hz⟩ := pressureBC_inUnits h bc hq.1
  subst hbb
  set qs : GridArray d ℝ := ⟨⟨q.shape, fun i => l ^ 2 / τ * q.data i⟩, q.offset, q.grid.inUnits l⟩ with hqs
  have hqq : q.InUnits l (l ^ 2 / τ) qs := ⟨rfl, rfl, rfl, fun _ _ => rfl⟩
  obtain ⟨L', hL', hLL⟩ := C77_laplacian hl' (u := ⟨q, b⟩) (v := ⟨qs, b⟩) ⟨(hz _ _).symm, hG, hqq⟩ L hL
  obtain ⟨D', hD', hDD⟩ := (C77_divergence hl' h).1 D hD
  have hret : Returns (fun _ _ _ => .ok qs) (g.inUnits l) u' b qs := ⟨hb, fun _ _ => rfl, hq.2.2.1, by
    show q.grid.inUnits l = _
    rw [hq.2.2.2.1], hq.2.2.2.2⟩
  have hshape : ∀ {w : GridVariable d ℝ} {r : GridArray d ℝ}, laplacian w = .ok r → r.shape = w.array.shape := fun {w r} hr => by
    unfold laplacian at hr
    have : ∀ (L : List (Fin d)) (x r : GridArray d ℝ), L.foldlM (laplacianAxis w) x = .ok r → r.shape = x.shape := by
      intro L
      induction L with
      | nil => intro x r h; rw [← Except.ok.inj h]
      | cons a L ih =>
        intro x r h
        rw [List.foldlM_cons] at h
        obtain ⟨y, hy, h⟩ := Except.bind_eq_ok.1 h
        rw [ih y r h]
        unfold laplacianAxis at hy
        obtain ⟨_, -, hy⟩ := Except.bind_eq_ok.1 hy
        obtain ⟨_, -, hy⟩ := Except.bind_eq_ok.1 hy
        obtain ⟨_, -, hy⟩ := Except.bind_eq_ok.1 hy
        obtain ⟨-, -, -, rfl⟩ := gmap2_eq_ok.1 hy
        rfl
    exact this _ _ _ hr |>.trans rfl
  have hLs : L.shape = q.shape := hshape hL
  have hDs : D.shape = q.shape := by
    obtain ⟨f, hD2, -⟩ := VelocityField.divergence_eq hu hd
    rw [hD] at hD2
    rw [Except.ok.inj hD2, hq.2.2.1]
  have hsol2 : SolvesPoisson u' b qs := ⟨L', D', hL', hD', fun i hi => by
    have hi' : InR q.shape i := hi
    rw [hLL.data (by rw [hLs]; exact hi'), hDD.data (by rw [hDs]; exact hi'), hLD i hi']
    congr 1
    field_simp⟩
  obtain ⟨w, w', hw1, hw2, hww⟩ := C33_solver_independent hd (g.inUnits l) u' hu' (h.walls hw) _ solve' _ _ _ _ hret hsol2 hq' hsol'
  rw [projection_const hd hu hq]
  have hmain := C77_projection hl h (fun _ _ _ => .ok q) (fun _ _ _ => .ok qs) fun q1 q1' bc1 hq1 => RelS.ok hqq
  intro r hr
  obtain ⟨s, hs1, hrs⟩ := hmain r hr
  rw [hw1] at hs1
  obtain rfl := Except.ok.inj hs1
  refine ⟨w', hw2, fun a => ⟨(hww a).1.trans (hrs a).1, (hrs a).2.1, (hww a).2.1.trans (hrs a).2.2.offset, (hww a).2.2.1.trans (hrs a).2.2.grid, (hww a).2.2.2.1.trans (hrs a).2.2.shape, fun i hi => ?_⟩⟩
  have hi' : InR (r a).array.shape i := hi
  rw [← (hrs a).2.2.data hi']
  exact (hww a).2.2.2.2.2 i (by rw [← (hww a).2.2.2.2.1, (hrs a).2.2.shape]; exact hi')

theorem ExactSolver.unitsCommute (hd : d ≠ 0) (hl : 0 < l) (g : Grid d ℝ) (hs : ∀ a, 0 < g.shape a) (solve solve' : PressureSolver d ℝ) (hex : ExactSolver g solve) (hex' : ExactSolver (g.inUnits l) solve') :
    UnitsCommute l τ (PeriodicField g) (fun u => projection u solve) fun u => projection u solve' := by
  intro u u' hu h
  have hu' : PeriodicField (g.inUnits l) u' := by
    refine ⟨fun a => ⟨?_, ?_, ?_⟩, fun a => ?_⟩
    · rw [(h a).2.2.grid, (hu.1 a).1]
    · rw [(h a).2.2.shape, (hu.1 a).2.1]
      rfl
    · rw [(h a).2.2.offset]
      exact (hu.1 a).2.2
    · rw [(h a).1, hu.2 a, periodicBC_inUnits]
  obtain ⟨bc, q, hq, hsol⟩ := hex u hu
  obtain ⟨bc', q', hq', hsol'⟩ := hex' u' hu'
  exact C77_exact_projection hd hl g (hu.velocity hs) hu.walls h solve solve' hq hsol hq' hsol'

/-! ## The equations -/

omit [HasNan ℝ] in
theorem sumField_inUnits {us vs : List (GridArray d ℝ)} (h : List.Forall₂ (GridArray.InUnits l m) us vs) : RelS (GridArray.InUnits l m) (sumField us) (sumField vs) := by
  cases h with
  | nil => exact RelS.error _ _
  | @cons u v rest rest' huv hrest =>
    unfold sumField
    dsimp only
    by_cases h1 : ∃ w ∈ rest, w.offset ≠ u.offset ∨ w.grid ≠ u.grid
    · rw [if_pos h1]; exact RelS.error _ _
    by_cases h2 : ∃ w ∈ rest, w.shape ≠ u.shape
    · rw [if_neg h1, if_pos h2]; exact RelS.error _ _
    have hex : ∀ w' ∈ rest', ∃ w ∈ rest, w.InUnits l m w' := by
      clear h1 h2
      induction hrest with
      | nil => simp
      | cons hab _ ih =>
        intro w' hw'
        rcases List.mem_cons.1 hw' with rfl | hw'
        · exact ⟨_, by simp, hab⟩
        · obtain ⟨w, hw, hww⟩ := ih w' hw'
          exact ⟨w, by simp [hw], hww⟩
    have h1' : ¬ ∃ w ∈ rest', w.offset ≠ v.offset ∨ w.grid ≠ v.grid := by
      push Not at h1 ⊢
      intro w' hw'
      obtain ⟨w, hw, hww⟩ := hex w' hw'
      exact ⟨by rw [hww.offset, huv.offset, (h1 w hw).1], by rw [hww.grid, huv.grid, (h1 w hw).2]⟩
    have h2' : ¬ ∃ w ∈ rest', w.shape ≠ v.shape := by
      push Not at h2 ⊢
      intro w' hw'
      obtain ⟨w, hw, hww⟩ := hex w' hw'
      rw [hww.shape, huv.shape, h2 w hw]
    rw [if_neg h1, if_neg h2, if_neg h1', if_neg h2']
    refine RelS.ok ⟨huv.offset, huv.grid, huv.shape, fun i hi => ?_⟩
    replace hi : InR u.shape i := hi
    push Not at h2
    dsimp only [List.foldl_cons]
    rw [huv.data hi, zero_add, zero_add]
    generalize u.data i = x
    clear h1 h1' h2' hex
    induction hrest generalizing x with
    | nil => rfl
    | @cons a b l1 l2 hab _ ih =>
      rw [List.foldl_cons, List.foldl_cons, hab.data (by rw [h2 a (by simp)]; exact hi), ← mul_add]
      exact ih (fun w hw => h2 w (List.mem_cons_of_mem _ hw)) _

omit [HasNan ℝ] in
theorem sumFields_inUnits {us vs : List (Fin d → GridArray d ℝ)} (h : List.Forall₂ (fun u v : Fin d → GridArray d ℝ => ∀ a, (u a).InUnits l m (v a)) us vs) :
    RelS (fun r s => ∀ a, (r a).InUnits l m (s a)) (sumFields us) (sumFields vs) := by
  refine RelS.seq (R := fun _ => GridArray.InUnits l m) fun a => sumField_inUnits ?_
  rw [List.forall₂_map_left_iff, List.forall₂_map_right_iff]
  exact h.imp fun _ _ hab => hab a

/-- **C77** The default convection of a periodic field. -/
theorem C77_default_convection (hl : 0 < l) (hτ : 0 < τ) (dt : ℝ) : TendencyUnitsCommute l τ (l / τ ^ 2) (fun u => ∀ a, (u a).Periodic) (defaultConvect (d := d) dt) (defaultConvect (τ * dt)) :=
  fun u u' hu h => RelS.seq (R := fun _ => GridArray.InUnits l (l / τ ^ 2)) fun a => by
    have := (C77_advection hl hτ (div_pos hl hτ).ne' (h a) (hu a) h hu dt).2.2
    rwa [div_div, ← sq] at this

/-- A diffusion function of one component that knows no units. -/
def DiffusionUnitsCommute (l τ : ℝ) (D D' : DiffuseFn d) : Prop := ∀ u u' k, GridVariable.InUnits l (l / τ) u u' → RelS (GridArray.InUnits l (l / τ ^ 2)) (D u k) (D' u' (l ^ 2 / τ * k))

/-- Explicit diffusion is one. -/
theorem diffuse_unitsCommute (hl : 0 < l) : DiffusionUnitsCommute (d := d) l τ diffuse diffuse := fun u u' k h => by
  have := C77_diffuse hl.ne' h k τ
  rwa [div_div, ← sq] at this

/-- Two forcings that are both missing or do the same in the two systems of units; `ρ` is the factor of the density: a forcing is a force per volume. -/
def ForcingUnitsCommute (l τ ρ : ℝ) (Adm : (Fin d → GridVariable d ℝ) → Prop) (f f' : Option (ForcingFn d)) : Prop :=
  (f = none ∧ f' = none) ∨ ∃ F F', f = some F ∧ f' = some F' ∧ TendencyUnitsCommute l τ (ρ * (l / τ ^ 2)) Adm F F'

/-- **C77** The explicit terms of the Navier-Stokes equations; the factor of the viscosity `nu` (the dynamic viscosity) is `ρ l² / τ`. -/
theorem C77_explicit_terms (Adm : (Fin d → GridVariable d ℝ) → Prop) {ρ : ℝ} (hρ : ρ ≠ 0) (density : ℝ) (viscosity : Option ℝ) (dt : ℝ) (C C' : Option (ConvectFn d)) (D D' : DiffuseFn d)
    (f f' : Option (ForcingFn d)) (hC : TendencyUnitsCommute l τ (l / τ ^ 2) Adm (convectOr C dt) (convectOr C' (τ * dt))) (hD : DiffusionUnitsCommute l τ D D') (hf : ForcingUnitsCommute l τ ρ Adm f f') :
    ∀ u u', Adm u → VelocityInUnits l τ u u' → RelS (fun r s => ∀ a, (r a).array.InUnits l (l / τ ^ 2) (s a).array ∧ (r a).bc = (u a).bc ∧ (s a).bc = (u' a).bc)
      (explicitTerms density viscosity dt C D f u) (explicitTerms (ρ * density) (viscosity.map fun nu => ρ * (l ^ 2 / τ) * nu) (τ * dt) C' D' f' u') := by
  intro u u' hu h
  unfold explicitTerms
  refine RelS.bind (hC u u' hu h) fun c c' hc => RelS.bind (R := fun (r s : Fin d → GridArray d ℝ) => ∀ a, (r a).InUnits l (l / τ ^ 2) (s a)) ?_ fun x x' hx =>
    RelS.bind (R := fun (r s : Fin d → GridArray d ℝ) => ∀ a, (r a).InUnits l (l / τ ^ 2) (s a)) ?_ fun y y' hy => RelS.ok fun a => ⟨hy a, rfl, rfl⟩
  · cases viscosity with
    | none => exact RelS.ok hc
    | some nu =>
      refine RelS.bind (R := fun a b => b = l ^ 2 / τ * a) ?_ fun k k' hk => by
        subst hk
        exact RelS.bind (RelS.seq (R := fun _ => GridArray.InUnits l (l / τ ^ 2)) fun a => hD _ _ _ (h a)) fun df df' hdf => sumFields_inUnits (.cons hc (.cons hdf .nil))
      unfold pyDiv
      by_cases h0 : density = 0
      · rw [if_pos h0]; exact RelS.error _ _
      · rw [if_neg h0, if_neg (mul_ne_zero hρ h0)]
        exact RelS.ok (by dsimp only; rw [mul_assoc, mul_div_mul_left _ _ hρ, mul_div_assoc])
  · rcases hf with ⟨rfl, rfl⟩ | ⟨F, F', rfl, rfl, hF⟩
    · exact RelS.ok hx
    · exact RelS.bind (hF u u' hu h) fun f f' hff => sumFields_inUnits (.cons hx (.cons (fun a => (hff a).gmap fun x => by rw [mul_assoc, mul_div_mul_left _ _ hρ, mul_div_assoc]) .nil))

/-! ## Time steps -/

/-- Leaves of states laid out like `u`; `n` is the factor of the values. -/
def LeavesInUnits (n : ℝ) (u : Fin d → GridVariable d ℝ) (x y : Leaves d) : Prop := ∀ a (i : Idx d), InR (u a).array.shape i → y a i = n * x a i

section RK
variable {V W : Type} [AddCommGroup V] [Module ℝ V] [AddCommGroup W] [Module ℝ W] {R S : V → W → Prop}

omit [HasNan ℝ] in
/-- A Runge-Kutta step of related systems, where the states are related by `R`, the tendencies by `S`, and the time steps differ. -/
theorem navierStokesRK_relS2 {dt dt' : ℝ} (h0 : S 0 0) (ha : ∀ x y x' y', S x x' → S y y' → S (x + y) (x' + y')) (hm : ∀ (c : ℝ) x x', S x x' → S (c • x) (c • x'))
    (hRS : ∀ u u' x x', R u u' → S x x' → R (u + dt • x) (u' + dt' • x')) (tab : Tableau ℝ) {F P : V → Except Err V} {F' P' : W → Except Err W} (hF : ∀ x x', R x x' → RelS S (F x) (F' x'))
    (hP : ∀ x x', R x x' → RelS R (P x) (P' x')) {u : V} {u' : W} (hu : R u u') : RelS R (navierStokesRK tab F P dt u) (navierStokesRK tab F' P' dt' u') := by
  unfold navierStokesRK
  refine RelS.bind (hF _ _ hu) fun k k' hk => RelS.bind (R := List.Forall₂ S) (RelS.foldlM _ (fun row _ l m hlm => ?_) (.cons hk .nil)) fun ks ks' hks =>
    RelS.bind (weightedSum_relS h0 ha hm _ hks) fun s s' hs => hP _ _ (hRS _ _ _ _ hu hs)
  exact RelS.bind (weightedSum_relS h0 ha hm _ hlm) fun s s' hs => RelS.bind (hP _ _ (hRS _ _ _ _ hu hs)) fun x x' hx => RelS.bind (hF _ _ hx) fun y y' hy =>
    RelS.ok (List.rel_append hlm (.cons hy .nil))

end RK

omit [HasNan ℝ] in
theorem leaves_inUnits {n : ℝ} {u v : Fin d → GridVariable d ℝ} (h : ∀ a, (u a).array.InUnits l n (v a).array) : LeavesInUnits n u (leaves u) (leaves v) := by
  intro a i hi
  rw [leaves_inR hi, leaves_inR (by rw [(h a).shape]; exact hi), (h a).data hi]

omit [HasNan ℝ] in
theorem withLeaves_inUnits {u v : Fin d → GridVariable d ℝ} (h : VelocityInUnits l τ u v) {x y : Leaves d} (hxy : LeavesInUnits (l / τ) u x y) :
    VelocityInUnits l τ (withLeaves u x) (withLeaves v y) :=
  fun a => ⟨(h a).1, (h a).2.1, (h a).2.2.offset, (h a).2.2.grid, (h a).2.2.shape, fun i hi => hxy a i hi⟩

omit [HasNan ℝ] in
theorem leavesLike_inUnits {n : ℝ} {u v r s : Fin d → GridVariable d ℝ} (h : VelocityInUnits l τ u v) (hr : ∀ a, (r a).array.InUnits l n (s a).array)
    (hbc : ∀ a, (r a).bc = (u a).bc → (s a).bc = (v a).bc) : RelS (LeavesInUnits n u) (leavesLike u r) (leavesLike v s) := by
  intro x hx
  obtain ⟨hl, rfl⟩ := leavesLike_eq_ok.1 hx
  refine ⟨_, leavesLike_eq_ok.2 ⟨fun a => ⟨?_, ?_, hbc a (hl a).2.2.1, ?_⟩, rfl⟩, fun a i hi => leaves_inUnits hr a i (by rw [(hl a).2.2.2]; exact hi)⟩
  · rw [(hr a).offset, (h a).2.2.offset, (hl a).1]
  · rw [(hr a).grid, (h a).2.2.grid, (hl a).2.1]
  · rw [(hr a).shape, (h a).2.2.shape, (hl a).2.2.2]

/-- **C77** A semi-implicit Navier-Stokes step with any Runge-Kutta stepper whose parts know no units: lengths, times and densities in other units, and with them the velocity, the dynamic viscosity
and the time step; the result is the same velocity. `Adm` are states of some layout. -/
theorem C77_step (hτ : 0 < τ) (Adm : (Fin d → GridVariable d ℝ) → Prop) (hAdm : ∀ u x, Adm u → Adm (withLeaves u x)) {ρ : ℝ} (hρ : ρ ≠ 0) (density : ℝ) (viscosity : Option ℝ) (dt : ℝ)
    (solve solve' : PressureSolver d ℝ) (hP : UnitsCommute l τ Adm (fun u => projection u solve) fun u => projection u solve') (C C' : Option (ConvectFn d)) (D D' : DiffuseFn d)
    (f f' : Option (ForcingFn d)) (hC : TendencyUnitsCommute l τ (l / τ ^ 2) Adm (convectOr C dt) (convectOr C' (τ * dt))) (hD : DiffusionUnitsCommute l τ D D') (hf : ForcingUnitsCommute l τ ρ Adm f f')
    (s : Stepper d) (hst : RungeKutta s) :
    UnitsCommute l τ Adm (semiImplicitNavierStokes density viscosity dt solve C D f s)
      (semiImplicitNavierStokes (ρ * density) (viscosity.map fun nu => ρ * (l ^ 2 / τ) * nu) (τ * dt) solve' C' D' f' s) := by
  intro u u' hu h
  obtain ⟨a, b, tab, -, -, -, rfl⟩ := hst
  unfold semiImplicitNavierStokes
  refine RelS.bind (navierStokesRK_relS2 (R := LeavesInUnits (l / τ) u) (S := LeavesInUnits (l / τ ^ 2) u) (fun a i hi => (mul_zero _).symm)
    (fun x y x' y' hx hy a i hi => ?_) (fun c x x' hx a i hi => ?_) (fun x x' y y' hx hy a i hi => ?_) tab (fun x x' hx => ?_) (fun x x' hx => ?_) (leaves_inUnits fun a => (h a).2.2))
    fun x y hxy => RelS.ok (withLeaves_inUnits h hxy)
  · show x' a i + y' a i = _ * (x a i + y a i)
    rw [hx a i hi, hy a i hi, mul_add]
  · show c * x' a i = _ * (c * x a i)
    rw [hx a i hi]
    ring
  · show x' a i + τ * dt * y' a i = _ * (x a i + dt * y a i)
    rw [hx a i hi, hy a i hi]
    have := hτ.ne'
    field_simp
  · exact RelS.bind (C77_explicit_terms Adm hρ density viscosity dt C C' D D' f f' hC hD hf _ _ (hAdm u x hu) (withLeaves_inUnits h hx)) fun r r' hr =>
      leavesLike_inUnits h (fun a => (hr a).1) fun a _ => (hr a).2.2
  · refine RelS.bind (hP _ _ (hAdm u x hu) (withLeaves_inUnits h hx)) fun r r' hr => leavesLike_inUnits h (fun a => (hr a).2.2) fun a e => ?_
    rw [(hr a).1, e, (h a).1]

/-- **C77** The default step on a periodic grid (default convection, explicit diffusion, no forcing, any exact pressure solvers). -/
theorem C77_default_step (hd : d ≠ 0) (hl : 0 < l) (hτ : 0 < τ) {ρ : ℝ} (hρ : ρ ≠ 0) (g : Grid d ℝ) (hs : ∀ a, 0 < g.shape a) (density : ℝ) (viscosity : Option ℝ) (dt : ℝ) (solve solve' : PressureSolver d ℝ)
    (hex : ExactSolver g solve) (hex' : ExactSolver (g.inUnits l) solve') (s : Stepper d) (hst : RungeKutta s) :
    UnitsCommute l τ (PeriodicField g) (semiImplicitNavierStokes density viscosity dt solve none diffuse none s)
      (semiImplicitNavierStokes (ρ * density) (viscosity.map fun nu => ρ * (l ^ 2 / τ) * nu) (τ * dt) solve' none diffuse none s) :=
  C77_step hτ (PeriodicField g) (fun _ x hu => withLeaves_periodic hu x) hρ density viscosity dt solve solve' (ExactSolver.unitsCommute hd hl g hs solve solve' hex hex') none none diffuse diffuse none none
    (fun u u' hu h => C77_default_convection hl hτ dt u u' (hu.periodic hs) h) (diffuse_unitsCommute hl) (Or.inl ⟨rfl, rfl⟩) s hst

/-! ## Stability limits -/

omit [HasNan ℝ] in
theorem pyMin_inUnits (hl : 0 < l) (g : Grid d ℝ) : RelS (fun x y => y = l * x) (pyMin (List.ofFn g.step)) (pyMin (List.ofFn (g.inUnits l).step)) := by
  have e : List.ofFn (g.inUnits l).step = (List.ofFn g.step).map (l * ·) := by
    rw [List.map_ofFn]
    congr 1
    funext a
    exact Grid.inUnits_step l g a
  rw [e]
  cases List.ofFn g.step with
  | nil => exact RelS.error _ _
  | cons x xs =>
    refine RelS.ok ?_
    induction xs generalizing x with
    | nil => rfl
    | cons y xs ih =>
      rw [List.map_cons, List.foldl_cons, List.foldl_cons, ← ih]
      congr 1
      exact (mul_min_of_nonneg _ _ hl.le).symm

omit [HasNan ℝ] in
/-- **C77** The advective time step (with a velocity in other units). -/
theorem C77_advective_time_step (hl : 0 < l) (hτ : 0 < τ) (vmax courant : ℝ) (g : Grid d ℝ) :
    RelS (fun x y => y = τ * x) (advectionStableTimeStep vmax courant g) (advectionStableTimeStep (l / τ * vmax) courant (g.inUnits l)) := by
  unfold advectionStableTimeStep
  refine RelS.bind (pyMin_inUnits hl g) fun x y hxy => ?_
  subst hxy
  by_cases h : vmax = 0
  · rw [if_pos h]; exact RelS.error _ _
  · have h1 := hl.ne'
    have h2 := hτ.ne'
    rw [if_neg h, if_neg (mul_ne_zero (div_ne_zero h1 h2) h)]
    refine RelS.ok ?_
    field_simp

omit [HasNan ℝ] in
/-- **C77** The diffusive time step. -/
theorem C77_diffusive_time_step (hl : 0 < l) (hτ : 0 < τ) (nu : ℝ) (g : Grid d ℝ) :
    RelS (fun x y => y = x.map (τ * ·)) (diffusionStableTimeStep nu g) (diffusionStableTimeStep (l ^ 2 / τ * nu) (g.inUnits l)) := by
  unfold diffusionStableTimeStep
  have h1 := hl.ne'
  have h2 := hτ.ne'
  by_cases h : nu = 0
  · rw [if_pos h, h, mul_zero, if_pos rfl]
    exact RelS.ok rfl
  · rw [if_neg h, if_neg (mul_ne_zero (div_ne_zero (pow_ne_zero 2 h1) h2) h)]
    refine RelS.bind (pyMin_inUnits hl g) fun x y hxy => RelS.ok ?_
    subst hxy
    rw [WithTop.map_coe]
    congr 1
    field_simp

omit [HasNan ℝ] in
theorem checkDiffusionStep_inUnits (hl : 0 < l) (hτ : 0 < τ) (dt : WithTop ℝ) (nu : ℝ) (g : Grid d ℝ) (im : Bool) :
    RelS (fun x y => y = x.map (τ * ·)) (checkDiffusionStep dt nu g im) (checkDiffusionStep (dt.map (τ * ·)) (l ^ 2 / τ * nu) (g.inUnits l) im) := by
  unfold checkDiffusionStep
  split_ifs
  · exact RelS.ok rfl
  · refine RelS.bind (C77_diffusive_time_step hl hτ nu g) fun x y hxy => ?_
    subst hxy
    have hm : StrictMono fun x : ℝ => τ * x := fun a b hab => mul_lt_mul_of_pos_left hab hτ
    by_cases h : x < dt
    · rw [if_pos h]; exact RelS.error _ _
    · rw [if_neg h, if_neg (fun h' => h (hm.withTop_map.lt_iff_lt.1 h'))]
      exact RelS.ok rfl

omit [HasNan ℝ] in
/-- **C77** `stable_time_step` of the equations. -/
theorem C77_stable_time_step (hl : 0 < l) (hτ : 0 < τ) (vmax courant nu : ℝ) (g : Grid d ℝ) (im : Bool) :
    RelS (fun x y => y = x.map (τ * ·)) (stableTimeStep vmax courant nu g im) (stableTimeStep (l / τ * vmax) courant (l ^ 2 / τ * nu) (g.inUnits l) im) := by
  unfold stableTimeStep
  refine RelS.bind (C77_advective_time_step hl hτ vmax courant g) fun x y hxy => ?_
  subst hxy
  exact checkDiffusionStep_inUnits hl hτ (x : WithTop ℝ) nu g im

end
end JaxCfd
