import Verif.Props.PermutationSteps
import Verif.Props.Wall
import Verif.Props.WallStep
import Verif.Props.PermutationTrajectory

/-!
# C72: no axis is special, between walls too — differences, diffusion, divergence, projection
-/

namespace JaxCfd
variable {d : ℕ} {σ : Equiv.Perm (Fin d)} {K : Type}

theorem original_update (i : Idx d) (a : Fin d) (x : ℤ) : original σ (Function.update i a x) = Function.update (original σ i) (σ a) x := by
  funext b
  unfold original
  by_cases h : b = σ a
  · subst h
    rw [Equiv.symm_apply_apply, Function.update_self, Function.update_self]
  · rw [Function.update_of_ne h, Function.update_of_ne fun e => h (by rw [← e, Equiv.apply_symm_apply])]

theorem original_axis (i : Idx d) (a : Fin d) : original σ i (σ a) = i a := by
  unfold original
  rw [Equiv.symm_apply_apply]

section
variable [Field K] [HasNan K] {u v : GridVariable d K}

namespace GridVariable.RelabelledWalls

omit [HasNan K] in
theorem supported (h : u.RelabelledWalls σ v) (hu : u.Supported) : v.Supported := fun a => by
  obtain ⟨h1, h2, h3⟩ := hu (σ a)
  obtain ⟨hb, ho, hg, -, hs, -⟩ := h
  refine ⟨?_, by rw [hg]; exact h2, ?_⟩
  · rw [hs, hg]; exact h1
  · rw [hb, ho]; exact h3

omit [HasNan K] in
theorem step (h : u.RelabelledWalls σ v) (a : Fin d) : v.array.grid.step a = u.array.grid.step (σ a) := by rw [h.2.2.1]; rfl

theorem constants (h : u.RelabelledWalls σ v) (a : Fin d) : v.bc.constantValues a = u.bc.constantValues (σ a) := by rw [h.1]; rfl

theorem data_inR (h : u.RelabelledWalls σ v) {i : Idx d} (hi : InR v.array.shape i) : v.array.data i = u.array.data (original σ i) := h.2.2.2.2.2.2 i hi

theorem update_inR {s : Fin d → ℕ} {i : Idx d} (hi : InR s i) (a : Fin d) {x : ℤ} (h0 : 0 ≤ x) (h1 : x < s a) : InR s (Function.update i a x) := hi.update a h0 h1

/-- The value above the cell is the same. -/
theorem above (h : u.RelabelledWalls σ v) (a : Fin d) {i : Idx d} (hi : InR v.array.shape i) : v.above a i = u.above (σ a) (original σ i) := by
  have hs : v.array.shape a = u.array.shape (σ a) := h.2.2.2.2.1 a
  have hpos : ∀ b, 0 < v.array.shape b := fun b => by rw [h.2.2.2.2.1]; exact h.2.2.2.2.2.1 _
  have hia := hi a
  unfold GridVariable.above
  rw [original_axis, ← hs, ← h.2.1 a, ← h.step, ← h.constants, ← h.data_inR hi]
  have e1 : v.array.data (rollIdx v.array.shape a 1 i) = u.array.data (rollIdx u.array.shape (σ a) 1 (original σ i)) := by
    rw [h.data_inR (rollIdx_inR hi a 1), original_roll h.2.2.2.2.1]
  have e2 : i a + 1 < v.array.shape a → v.array.data (Function.update i a (i a + 1)) = u.array.data (Function.update (original σ i) (σ a) (i a + 1)) := fun hl => by
    rw [h.data_inR (update_inR hi a (by omega) hl), original_update]
  have e3 : (v.bc.types a) = u.bc.types (σ a) := by rw [h.1]; rfl
  rw [← e3, e1]
  split_ifs with h1 h2 h3 h4 h5
  · rfl
  · rw [e2 h3]
  · rfl
  · rfl
  · rw [e2 (by omega)]
  · rfl

/-- The value below the cell is the same. -/
theorem below (h : u.RelabelledWalls σ v) (a : Fin d) {i : Idx d} (hi : InR v.array.shape i) : v.below a i = u.below (σ a) (original σ i) := by
  have hs : v.array.shape a = u.array.shape (σ a) := h.2.2.2.2.1 a
  have hia := hi a
  unfold GridVariable.below
  rw [original_axis, ← h.2.1 a, ← h.step, ← h.constants, ← h.data_inR hi]
  have e1 : v.array.data (rollIdx v.array.shape a (-1) i) = u.array.data (rollIdx u.array.shape (σ a) (-1) (original σ i)) := by
    rw [h.data_inR (rollIdx_inR hi a (-1)), original_roll h.2.2.2.2.1]
  have e2 : 0 < i a → v.array.data (Function.update i a (i a - 1)) = u.array.data (Function.update (original σ i) (σ a) (i a - 1)) := fun hl => by
    rw [h.data_inR (update_inR hi a (by omega) (by omega)), original_update]
  have e3 : (v.bc.types a) = u.bc.types (σ a) := by rw [h.1]; rfl
  rw [← e3, e1]
  split_ifs with h1 h2 h3 h4
  · rfl
  · rw [e2 h2]
  · rfl
  · rfl
  · rfl

end GridVariable.RelabelledWalls

variable [DecidableEq K]

/-- **C72** The differences of a variable between walls: across the faces above and below, and centred. -/
theorem C72_wall_differences (h : u.RelabelledWalls σ v) (hu : u.Supported) (a : Fin d) :
    (∃ r r', forwardDifference u (σ a) = .ok r ∧ forwardDifference v a = .ok r' ∧ r.Relabelled σ r') ∧
    (∃ r r', backwardDifference u (σ a) = .ok r ∧ backwardDifference v a = .ok r' ∧ r.Relabelled σ r') ∧
    ∃ r r', centralDifference u (σ a) = .ok r ∧ centralDifference v a = .ok r' ∧ r.Relabelled σ r' := by
  have hv := h.supported hu
  obtain ⟨p, hp⟩ := shift_above hu (σ a)
  obtain ⟨m, hm⟩ := shift_below hu (σ a)
  obtain ⟨p', hp'⟩ := shift_above hv a
  obtain ⟨m', hm'⟩ := shift_below hv a
  have hin : ∀ {i : Idx d}, InR v.array.shape i → InR u.array.shape (original σ i) := fun hi => original_inR h.2.2.2.2.1 hi
  have hoff : ∀ x : ℚ, ∀ b, Function.update v.array.offset a (v.array.offset a + x) b = Function.update u.array.offset (σ a) (u.array.offset (σ a) + x) (σ b) := fun x b => by
    rw [update_relabelled h.2.1, h.2.1]
  have hsh : u.array.shape = u.array.grid.shape := funext fun b => (hu b).1
  refine ⟨⟨_, _, forwardDifference_of_shift hp.1 hp.2.1 hp.2.2.1 hp.2.2.2.1, forwardDifference_of_shift hp'.1 hp'.2.1 hp'.2.2.1 hp'.2.2.2.1, hoff _, h.2.2.1, hsh, h.2.2.2.2.1, h.2.2.2.2.2.1, fun i hi => ?_⟩,
    ⟨_, _, backwardDifference_of_shift hm.1 hm.2.1 hm.2.2.1 hm.2.2.2.1, backwardDifference_of_shift hm'.1 hm'.2.1 hm'.2.2.1 hm'.2.2.2.1, fun b => ?_, h.2.2.1, hsh, h.2.2.2.2.1, h.2.2.2.2.2.1, fun i hi => ?_⟩,
    ⟨_, _, centralDifference_of_shift hp.1 hm.1 hp.2.1 hp.2.2.1 hp.2.2.2.1 hm.2.1 hm.2.2.1 hm.2.2.2.1, centralDifference_of_shift hp'.1 hm'.1 hp'.2.1 hp'.2.2.1 hp'.2.2.2.1 hm'.2.1 hm'.2.2.1 hm'.2.2.2.1,
      h.2.1, h.2.2.1, hsh, h.2.2.2.2.1, h.2.2.2.2.2.1, fun i hi => ?_⟩⟩
  · have hi' : InR v.array.shape i := hi
    dsimp only
    rw [hp'.2.2.2.2 i hi', hp.2.2.2.2 _ (hin hi'), h.above a hi', h.data_inR hi', h.step]
  · dsimp only
    rw [sub_eq_add_neg, sub_eq_add_neg]
    exact hoff _ b
  · have hi' : InR v.array.shape i := hi
    dsimp only
    rw [hm'.2.2.2.2 i hi', hm.2.2.2.2 _ (hin hi'), h.below a hi', h.data_inR hi', h.step]
  · have hi' : InR v.array.shape i := hi
    dsimp only
    rw [hp'.2.2.2.2 i hi', hp.2.2.2.2 _ (hin hi'), hm'.2.2.2.2 i hi', hm.2.2.2.2 _ (hin hi'), h.above a hi', h.below a hi', h.step]

/-- **C72** The Laplacian of a variable between walls. -/
theorem C72_wall_laplacian (h : u.RelabelledWalls σ v) (hu : u.Supported) : ∃ r r', laplacian u = .ok r ∧ laplacian v = .ok r' ∧ r.Relabelled σ r' := by
  have hv := h.supported hu
  choose p hp using fun a => shift_above hu a
  choose m hm using fun a => shift_below hu a
  choose p' hp' using fun a => shift_above hv a
  choose m' hm' using fun a => shift_below hv a
  refine ⟨_, _, laplacian_of_shift (fun a => (hp a).1) (fun a => (hm a).1) (fun a => (hp a).2.1) (fun a => (hp a).2.2.1) (fun a => (hp a).2.2.2.1) (fun a => (hm a).2.1) (fun a => (hm a).2.2.1) (fun a => (hm a).2.2.2.1),
    laplacian_of_shift (fun a => (hp' a).1) (fun a => (hm' a).1) (fun a => (hp' a).2.1) (fun a => (hp' a).2.2.1) (fun a => (hp' a).2.2.2.1) (fun a => (hm' a).2.1) (fun a => (hm' a).2.2.1) (fun a => (hm' a).2.2.2.1),
    h.2.1, h.2.2.1, funext fun b => (hu b).1, h.2.2.2.2.1, h.2.2.2.2.2.1, fun i hi => ?_⟩
  have hi' : InR v.array.shape i := hi
  have hin : InR u.array.shape (original σ i) := original_inR h.2.2.2.2.1 hi'
  dsimp only
  refine Fintype.sum_equiv σ _ _ fun a => ?_
  rw [(hp' a).2.2.2.2 i hi', (hm' a).2.2.2.2 i hi', (hp _).2.2.2.2 _ hin, (hm _).2.2.2.2 _ hin, h.above a hi', h.below a hi', h.data_inR hi', h.step]

/-- **C72** Explicit diffusion of a variable between walls. -/
theorem C72_wall_diffuse (h : u.RelabelledWalls σ v) (hu : u.Supported) (nu : K) : ∃ r r', diffuse u nu = .ok r ∧ diffuse v nu = .ok r' ∧ r.Relabelled σ r' := by
  obtain ⟨r, r', hr, hr', hrr⟩ := C72_wall_laplacian h hu
  exact ⟨_, _, by unfold diffuse; rw [hr]; rfl, by unfold diffuse; rw [hr']; rfl, hrr.gmap _⟩

end

section
variable [Field K] [HasNan K] [DecidableEq K] [CharZero K] {g : Grid d K} {u v : Fin d → GridVariable d K}

omit [Field K] [HasNan K] [DecidableEq K] [CharZero K] in
/-- The relabelled velocity field has its walls where the relabelled axes have them. -/
theorem VelocityField.relabelled (h : VelocityRelabelledWalls σ u v) (hu : VelocityField g u) : VelocityField (g.permute σ) v := by
  refine ⟨fun b => hu.1 _, fun a => ⟨?_, funext fun b => ?_, fun b => ?_⟩, fun b => ?_⟩
  · rw [(h a).2.2.1, (hu.2.1 _).1]
  · rw [(h a).2.2.2.2.1, (hu.2.1 _).2.1]
    rfl
  · rw [(h a).2.1, (hu.2.1 _).2.2]
    simp only [σ.injective.eq_iff]
  · have e : ∀ c, (v c).bc.types b = (u (σ c)).bc.types (σ b) := fun c => by rw [(h c).1]; rfl
    rcases hu.2.2 (σ b) with hp | ⟨h1, h2⟩
    · exact Or.inl fun c => by rw [e]; exact hp _
    · exact Or.inr ⟨by rw [e]; exact h1, fun c => by rw [e]; exact h2 _⟩

omit [DecidableEq K] [CharZero K] in
theorem WallsStored.relabelled (h : VelocityRelabelledWalls σ u v) (hw : WallsStored u) : WallsStored v := by
  intro a i hi ht hl
  rw [(h a).data_inR hi, (h a).constants]
  refine hw (σ a) _ (original_inR (h a).2.2.2.2.1 hi) ?_ ?_
  · rw [(h a).1] at ht; exact ht
  · rw [original_axis, ← (h a).2.2.2.2.1]; exact hl

omit [CharZero K] in
/-- **C72** The divergence of a staggered velocity field in a box with walls and periodic directions. -/
theorem C72_wall_divergence (hd : d ≠ 0) (h : VelocityRelabelledWalls σ u v) (hu : VelocityField g u) :
    ∃ D D', divergence (List.ofFn u) = .ok D ∧ divergence (List.ofFn v) = .ok D' ∧ D.Relabelled σ D' := by
  obtain ⟨f, hf, hfd⟩ := hu.divergence_eq hd
  have hv := hu.relabelled h
  obtain ⟨f', hf', hfd'⟩ := hv.divergence_eq hd
  refine ⟨_, _, hf, hf', fun _ => rfl, rfl, rfl, fun _ => rfl, hu.1, fun i hi => ?_⟩
  have hi' : InR (g.permute σ).shape i := hi
  dsimp only
  rw [hfd' i hi', hfd _ (original_inR (s' := (g.permute σ).shape) (fun _ => rfl) hi')]
  refine Fintype.sum_equiv σ _ _ fun a => ?_
  have hi2 : InR (v a).array.shape i := by rw [(hv.2.1 a).2.1]; exact hi'
  rw [(h a).data_inR hi2, (h a).below a hi2, Grid.permute_step]

/-- The boundary conditions of the pressure follow the axes. -/
theorem pressureBC_relabelledWalls (hd : d ≠ 0) (h : VelocityRelabelledWalls σ u v) (hu : VelocityField g u) :
    ∃ b, pressureBCFromVelocity (List.ofFn u) = .ok b ∧ pressureBCFromVelocity (List.ofFn v) = .ok (b.permute σ) := by
  refine ⟨_, hu.pressureBC hd, (hu.relabelled h).pressureBC hd |>.trans (congrArg Except.ok ?_)⟩
  unfold VelocityField.pbc homogeneousBC BC.permute
  have e : ∀ c, (v c).bc.types c = (u (σ c)).bc.types (σ c) := fun c => by rw [(h c).1]; rfl
  simp only [e]

/-- A projection that subtracts the gradient of the relabelled pressure. -/
theorem projection_relabelledWalls (hd : d ≠ 0) (h : VelocityRelabelledWalls σ u v) (hu : VelocityField g u) (hw : WallsStored u) {solve solve' : PressureSolver d K} {bc : BC d K} {q q' : GridArray d K}
    (hq : Returns solve g u bc q) (hq' : Returns solve' (g.permute σ) v (bc.permute σ) q') (hqq : q.Relabelled σ q') :
    ∃ w w', projection u solve = .ok w ∧ projection v solve' = .ok w' ∧ VelocityRelabelledWalls σ w w' := by
  have hv := hu.relabelled h
  obtain ⟨x, hx, hxd⟩ := hu.projection_eq hd hw hq
  obtain ⟨x', hx', hxd'⟩ := hv.projection_eq hd (hw.relabelled h) hq'
  refine ⟨_, _, hx, hx', fun a => ⟨(h a).1, (h a).2.1, rfl, rfl, fun _ => rfl, hu.1, fun i hi => ?_⟩⟩
  have hi' : InR (g.permute σ).shape i := hi
  have hio : InR g.shape (original σ i) := original_inR (s' := (g.permute σ).shape) (fun _ => rfl) hi'
  show x' a i = x (σ a) (original σ i)
  rw [hxd' a i hi', hxd _ _ hio, (h a).data_inR (by rw [(hv.2.1 a).2.1]; exact hi')]
  congr 1
  have hpv : (VelocityField.pvar g u q.data).RelabelledWalls σ (VelocityField.pvar (g.permute σ) v q'.data) := by
    refine ⟨?_, fun _ => rfl, rfl, rfl, fun _ => rfl, hu.1, fun j hj => hqq.2.2.2.2.2 j (by rw [hq'.2.2.1]; exact hj)⟩
    have e1 := hu.pressureBC hd
    have e2 := hv.pressureBC hd
    obtain ⟨b, hb, hb'⟩ := pressureBC_relabelledWalls hd h hu
    rw [hb] at e1
    rw [hb'] at e2
    show VelocityField.pbc v = (VelocityField.pbc u).permute σ
    rw [← Except.ok.inj e2, ← Except.ok.inj e1]
  unfold VelocityField.grad
  rw [hpv.above a hi', Grid.permute_step]
  congr 2
  exact hpv.data_inR hi'

end

section
variable [HasNan ℝ]

/-- **C72** With pressure solvers that solve the pressure equation on the grid and on the relabelled grid — however they compute the solution — the projection commutes with relabelling, between walls too. -/
theorem C72_wall_projection (hd : d ≠ 0) (g : Grid d ℝ) {u v : Fin d → GridVariable d ℝ} (hu : VelocityField g u) (hw : WallsStored u) (h : VelocityRelabelledWalls σ u v) (solve solve' : PressureSolver d ℝ)
    {bc bc' : BC d ℝ} {q q' : GridArray d ℝ} (hq : Returns solve g u bc q) (hsol : SolvesPoisson u bc q) (hq' : Returns solve' (g.permute σ) v bc' q') (hsol' : SolvesPoisson v bc' q') :
    ∃ w w', projection u solve = .ok w ∧ projection v solve' = .ok w' ∧ VelocityRelabelledWalls σ w w' := by
  have hv := hu.relabelled h
  obtain ⟨b, hb, hb'⟩ := pressureBC_relabelledWalls hd h hu
  obtain rfl : b = bc := Except.ok.inj (hb.symm.trans hq.1)
  obtain rfl : b.permute σ = bc' := Except.ok.inj (hb'.symm.trans hq'.1)
  have hqs : q.shape = q.grid.shape := by rw [hq.2.2.1, hq.2.2.2.1]
  have hqt : q.Relabelled σ (q.relabel σ) := q.relabel_relabelled σ hqs fun a => by rw [hq.2.2.1]; exact hu.1 a
  have hret : Returns (fun _ _ _ => .ok (q.relabel σ)) (g.permute σ) v (b.permute σ) (q.relabel σ) := ⟨hb', fun _ _ => rfl, by
    show (fun a => q.shape (σ a)) = fun a => g.shape (σ a)
    rw [hq.2.2.1], by
    show q.grid.permute σ = _
    rw [hq.2.2.2.1], by
    show (fun a => q.offset (σ a)) = _
    rw [hq.2.2.2.2]⟩
  have hqsup : (⟨q, b⟩ : GridVariable d ℝ).Supported := by
    have := (hu.pvar_centered q.data).1
    have e := hu.pressureBC hd
    rw [hq.1] at e
    intro a
    obtain ⟨-, h2, h3⟩ := this a
    refine ⟨congrFun hqs a, ?_, ?_⟩
    · show 0 < q.grid.shape a
      rw [hq.2.2.2.1]; exact hu.1 a
    · show b.types a = _ ∨ _
      rw [Except.ok.inj e]
      show _ ∨ (_ ∧ _ ∧ q.offset a = 1 / 2) ∨ (_ ∧ q.offset a = 1)
      rw [hq.2.2.2.2]
      exact h3
  obtain ⟨L, D, hL, hD, hLD⟩ := hsol
  obtain ⟨L1, L', hL1, hL', hLL⟩ := C72_wall_laplacian (u := ⟨q, b⟩) (v := ⟨q.relabel σ, b.permute σ⟩) ⟨rfl, hqt⟩ hqsup
  obtain rfl := Except.ok.inj (hL.symm.trans hL1)
  obtain ⟨D1, D', hD1, hD', hDD⟩ := C72_wall_divergence hd h hu
  obtain rfl := Except.ok.inj (hD.symm.trans hD1)
  have hLs : L.shape = g.shape := by
    obtain ⟨r, hr, hrs, -⟩ := laplacian_supported ⟨q, b⟩ hqsup
    rw [Except.ok.inj (hL.symm.trans hr), hrs]
    exact hq.2.2.1
  have hDs : D.shape = g.shape := by
    obtain ⟨f, hf, -⟩ := hu.divergence_eq hd
    rw [Except.ok.inj (hD.symm.trans hf)]
  have hsol2 : SolvesPoisson v (b.permute σ) (q.relabel σ) := ⟨L', D', hL', hD', fun i hi => by
    have hi' : InR (g.permute σ).shape i := by rw [← hret.2.2.1]; exact hi
    have e1 : L'.shape = (g.permute σ).shape := funext fun a => by rw [hLL.2.2.2.1, hLs]; rfl
    have e2 : D'.shape = (g.permute σ).shape := funext fun a => by rw [hDD.2.2.2.1, hDs]; rfl
    rw [hLL.2.2.2.2.2 i (by rw [e1]; exact hi'), hDD.2.2.2.2.2 i (by rw [e2]; exact hi')]
    exact hLD _ (by rw [hq.2.2.1]; exact original_inR (s' := (g.permute σ).shape) (fun _ => rfl) hi')⟩
  obtain ⟨w, w1, hw1, hw2, hww⟩ := projection_relabelledWalls hd h hu hw hq hret hqt
  obtain ⟨y, w', hy, hw', hyw⟩ := C33_solver_independent hd (g.permute σ) v hv (hw.relabelled h) _ solve' _ _ _ _ hret hsol2 hq' hsol'
  obtain rfl := Except.ok.inj (hw2.symm.trans hy)
  refine ⟨w, w', hw1, hw', fun a => ⟨(hyw a).1.trans (hww a).1, fun b => by rw [(hyw a).2.1]; exact (hww a).2.1 b, (hyw a).2.2.1.trans (hww a).2.2.1, (hww a).2.2.2.1, fun b => ?_, (hww a).2.2.2.2.2.1, fun i hi => ?_⟩⟩
  · show (w' a).array.shape b = _
    rw [(hyw a).2.2.2.1]
    exact (hww a).2.2.2.2.1 b
  · have hi' : InR (w1 a).array.shape i := by rw [← (hyw a).2.2.2.1]; exact hi
    rw [← (hww a).data_inR hi']
    exact (hyw a).2.2.2.2.2 i (by rw [← (hyw a).2.2.2.2.1]; exact hi')

/-- In a closed box (no flow through the walls) the default solver solves the pressure equation exactly. -/
theorem default_solves_closed (hd : d ≠ 0) (g : Grid d ℝ) (v : Fin d → GridVariable d ℝ) (h : VelocityField g v) (hw : WallsStored v)
    (hclosed : ∀ a, (v a).bc.types a = (.periodic, .periodic) ∨ (v a).bc.bcValues a = (some 0, some 0))
    (cutoff : ℝ) (hr : Resolved g cutoff) (eigh : EighFn ℝ) (heigh : ∀ m, m.Symmetric → IsEigh m (eigh m)) (tpu : Bool) :
    ∃ bc q, Returns (defaultSolver tpu eigh cutoff) g v bc q ∧ SolvesPoisson v bc q := by
  have hbc := h.pressureBC hd
  obtain ⟨q, -, hq⟩ := C36_pressure_succeeds hd g v h cutoff hr eigh heigh tpu none (Or.inl rfl) _ hbc
  obtain ⟨s1, s2, s3, L, D, e1, e2, -, e3⟩ := C36_pressure_poisson hd g v h cutoff hr eigh heigh tpu none _ hbc _ (Or.inr rfl) q hq
  refine ⟨_, q, ⟨hbc, fun _ _ => hq, s1, s2, s3⟩, L, D, e1, e2, fun i hi => ?_⟩
  rw [e3 i (by rw [← s1]; exact hi), C22_closed_box_divergence v h.supported (fun a => ?_) D e2, zero_div, sub_zero]
  rcases h.2.2 a with hp | ⟨hdir, -⟩
  · exact Or.inl (hp a)
  · have hv : (v a).bc.bcValues a = (some 0, some 0) := by
      rcases hclosed a with e | e
      · rw [e] at hdir; cases hdir
      · exact e
    refine Or.inr ⟨by rw [(h.2.1 a).2.2 a, if_pos rfl], hdir, hv, fun i hi hl => ?_⟩
    rw [hw a i hi hdir hl]
    simp [BC.constantValues, hv]

/-- **C72** The projection with its default solver, in a closed box with any mixture of walls and periodic directions, commutes with relabelling the axes. -/
theorem C72_wall_default_projection (hd : d ≠ 0) (g : Grid d ℝ) {u v : Fin d → GridVariable d ℝ} (hu : VelocityField g u) (hw : WallsStored u)
    (hclosed : ∀ a, (u a).bc.types a = (.periodic, .periodic) ∨ (u a).bc.bcValues a = (some 0, some 0)) (h : VelocityRelabelledWalls σ u v)
    (cutoff : ℝ) (hr : Resolved g cutoff) (eigh : EighFn ℝ) (heigh : ∀ m, m.Symmetric → IsEigh m (eigh m)) (tpu : Bool) :
    ∃ w w', projection u (defaultSolver tpu eigh cutoff) = .ok w ∧ projection v (defaultSolver tpu eigh cutoff) = .ok w' ∧ VelocityRelabelledWalls σ w w' := by
  obtain ⟨bc, q, hq, hs⟩ := default_solves_closed hd g u hu hw hclosed cutoff hr eigh heigh tpu
  obtain ⟨bc', q', hq', hs'⟩ := default_solves_closed hd (g.permute σ) v (hu.relabelled h) (hw.relabelled h) (fun a => by rw [(h a).1]; exact hclosed (σ a)) cutoff hr.permute eigh heigh tpu
  exact C72_wall_projection hd g hu hw h _ _ hq hs hq' hs'

namespace Fixtures

/-- the channel of `Props/PressureSolve` with its axes exchanged: its walls are now in the first direction -/
noncomputable def chanSwap (a : Fin 2) : GridVariable 2 ℝ := ⟨(chanR (Equiv.swap 0 1 a)).array.relabel (Equiv.swap 0 1), (chanR (Equiv.swap 0 1 a)).bc.permute (Equiv.swap 0 1)⟩

theorem chanSwap_relabelled : VelocityRelabelledWalls (Equiv.swap 0 1) chanR chanSwap := fun a =>
  ⟨rfl, (chanR (Equiv.swap 0 1 a)).array.relabel_relabelled _ (chanR_field.2.1 _).2.1 fun b => by rw [(chanR_field.2.1 _).2.1]; exact chanR_field.1 b⟩

/-- The projection of the exchanged channel is the exchanged projection; the walls did change their axis. -/
example : (∃ w w', projection chanR (defaultSolver false exists_eigh.choose (1 / 1000000)) = .ok w ∧ projection chanSwap (defaultSolver false exists_eigh.choose (1 / 1000000)) = .ok w' ∧
    VelocityRelabelledWalls (Equiv.swap 0 1) w w') ∧ (chanR 0).bc.types 0 = (.periodic, .periodic) ∧ (chanSwap 0).bc.types 0 = (.dirichlet, .dirichlet) :=
  ⟨C72_wall_default_projection (by norm_num) g34r chanR_field chanR_walls (fun a => Or.inr rfl) chanSwap_relabelled _ g34r_resolved _ exists_eigh.choose_spec false, rfl, rfl⟩

end Fixtures

end
end JaxCfd
