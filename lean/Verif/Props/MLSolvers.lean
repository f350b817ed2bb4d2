import Verif.Props.ConjugateGradient
import Verif.Props.PressureSolve
import Verif.Props.DiffusionSolve

/-!
# C69: the configurable solver modules pass every option on
-/

namespace JaxCfd
open CG VelocityField
variable {d : ℕ} [HasNan ℝ]

/-- **C69** `diffusions.solve_cg` with any options: on periodic fields, with enough iterations, the result differs from the backward Euler
step by at most `max(rtol |u|, atol)`; a wall is rejected. -/
theorem C69_ml_diffusion_cg (v : Fin d → GridVariable d ℝ) (nu dt atol rtol : ℝ) (maxiter : Option ℕ) :
    ((∃ a b, ((v a).bc.types b).1 ≠ .periodic) → ML.diffusionsSolveCG atol rtol maxiter v nu dt = .error .value) ∧
    ((∀ a, (v a).Periodic) → 0 ≤ nu * dt → (∀ a m, maxiter = some m → ∏ b, (v a).array.shape b ≤ m) →
      ∃ r, ML.diffusionsSolveCG atol rtol maxiter v nu dt = .ok r ∧ ∀ a, (r a).bc = (v a).bc ∧
        (∃ s, BackwardEuler (v a) s nu dt) ∧ ∀ s, BackwardEuler (v a) s nu dt →
        ∑ i ∈ box (v a).array.shape, ((r a).array.data i - s.array.data i) ^ 2 ≤
          max (rtol ^ 2 * ∑ i ∈ box (v a).array.shape, (v a).array.data i ^ 2) (atol ^ 2)) := by
  obtain ⟨h1, h2⟩ := C69_diffusion_cg v nu dt ⟨rtol, atol, maxiter⟩
  refine ⟨h1, fun a b c => ?_⟩
  obtain ⟨r, h3, h4⟩ := h2 a b c
  exact ⟨r, h3, fun a => ⟨(h4 a).1, (h4 a).2.2.2.2⟩⟩

/-- **C69** `diffusions.solve_fast_diag` takes the backward Euler step with each valid `implementation`, and never returns for an unknown
`implementation` when every boundary is periodic (with a wall `matmul` is used whatever was asked for). -/
theorem C69_ml_diffusion_fast_diag (hd : d ≠ 0) (v : Fin d → GridVariable d ℝ) (nu dt : ℝ) (hc : 0 ≤ nu * dt)
    (hv : ∀ a, (v a).Supported) (hN : ∀ a b, 3 ≤ (v a).array.grid.shape b)
    (hlen : ∀ a b, ((v a).array.grid.domain b).1 < ((v a).array.grid.domain b).2)
    (hr : ∀ a, (v a).DiffusionReady) (tpu : Bool) (eigh : EighFn ℝ) (heigh : ∀ m, m.Symmetric → IsEigh m (eigh m))
    (impl : Option Impl) :
    (impl = none ∨ impl = some .matmul ∨ impl = some .fft ∨
      (impl = some .rfft ∧ ∀ a b : Fin d, (b : ℕ) + 1 = d → (v a).array.grid.shape b % 2 = 0) →
      ∃ r, ML.diffusionsSolveFastDiag tpu eigh impl v nu dt = .ok r ∧ ∀ a, BackwardEuler (v a) (r a) nu dt) ∧
    (impl = some .other → (∀ a, (v a).Periodic) → ∀ r, ML.diffusionsSolveFastDiag tpu eigh impl v nu dt ≠ .ok r) ∧
    (impl = some .other → (∃ a b, ((v a).bc.types b).1 ≠ .periodic) →
      ∃ r, ML.diffusionsSolveFastDiag tpu eigh impl v nu dt = .ok r ∧ ∀ a, BackwardEuler (v a) (r a) nu dt) := by
  refine ⟨fun h => C36_diffusion hd v nu dt hc hv hN hlen hr tpu eigh heigh impl h, ?_, ?_⟩
  · rintro rfl hp r h
    have hall : hasAllPeriodic (List.ofFn v) = true := by
      unfold hasAllPeriodic isPeriodicBC
      rw [List.all_eq_true]
      intro u hu
      obtain ⟨a, rfl⟩ := List.mem_ofFn.1 hu
      rw [List.all_eq_true]
      intro b _
      rw [(hp a).1 b]
      rfl
    unfold ML.diffusionsSolveFastDiag diffusionFastDiag at h
    have h1 := (seqFin_eq_ok _ _).1 h ⟨0, Nat.pos_of_ne_zero hd⟩
    rw [if_pos hall] at h1
    unfold diffusionFastDiagOne at h1
    obtain ⟨L, -, h2⟩ := Except.bind_eq_ok.1 h1
    obtain ⟨F, h3, -⟩ := Except.bind_eq_ok.1 h2
    unfold transform at h3
    by_cases hs : (List.ofFn L).any (fun m => decide (m.rows ≠ m.cols)) = true
    · rw [if_pos hs] at h3; cases h3
    · rw [if_neg hs] at h3; cases h3
  · rintro rfl ⟨a, b, hab⟩
    have hall : ¬ hasAllPeriodic (List.ofFn v) = true := by
      intro h
      unfold hasAllPeriodic isPeriodicBC at h
      have := List.all_eq_true.1 h (v a) (List.mem_ofFn.2 ⟨a, rfl⟩)
      have := List.all_eq_true.1 this b (List.mem_finRange b)
      exact hab (by simpa using this)
    obtain ⟨r, h1, h2⟩ := C36_diffusion hd v nu dt hc hv hN hlen hr tpu eigh heigh (some .matmul) (Or.inr (Or.inl rfl))
    refine ⟨r, ?_, h2⟩
    unfold ML.diffusionsSolveFastDiag
    unfold diffusionFastDiag at h1 ⊢
    dsimp only at h1 ⊢
    rw [if_neg hall] at h1 ⊢
    exact h1

/-- **C69** `pressures.fast_diagonalization` projects every field of a closed or periodic domain to a divergence-free one; called directly it
solves with the boundary condition it is given, whatever the initial guess, as `pressure.solve_fast_diag` does when that boundary
condition is passed as `pressure_bc`. -/
theorem C69_ml_fast_diagonalization (hd : d ≠ 0) (g : Grid d ℝ) (v : Fin d → GridVariable d ℝ) (h : VelocityField g v)
    (cutoff : ℝ) (hr : Resolved g cutoff) (eigh : EighFn ℝ) (heigh : ∀ m, m.Symmetric → IsEigh m (eigh m)) (tpu : Bool) :
    (WallsStored v → (∀ a, (v a).bc.types a = (.periodic, .periodic) ∨ (v a).bc.bcValues a = (some 0, some 0)) →
      ∃ w, projection v (ML.fastDiagonalization tpu eigh cutoff) = .ok w ∧ VelocityField g w ∧ WallsStored w ∧ DivergenceFree g w) ∧
    ∀ q0 bc, ML.fastDiagonalization tpu eigh cutoff v q0 bc = pressureFastDiag tpu eigh cutoff v (some bc) none :=
  ⟨fun hw hc => C36_projection_divergence_free hd g v h hw hc cutoff hr eigh heigh tpu, fun _ _ => rfl⟩

/-- **C69** The solvers of `jax_cfd/base` called with no options: `rtol = atol = 10⁻⁶`, and any number of iterations (`maxiter = None` is
enough on every grid). -/
theorem C69_defaults (hd : d ≠ 0) (g : Grid d ℝ) (v : Fin d → GridVariable d ℝ) :
    (VelocityField g v → WallsStored v → (∀ a, (v a).bc.types a = (.periodic, .periodic) ∨ (v a).bc.bcValues a = (some 0, some 0)) →
      ∃ w D D', projection v (fun v q0 bc => pressureCG CGOptions.default v q0 (some bc)) = .ok w ∧
      divergence (List.ofFn v) = .ok D ∧ divergence (List.ofFn w) = .ok D' ∧
      ∑ i ∈ box g.shape, D'.data i ^ 2 ≤ max (1 / 10 ^ 12 * ∑ i ∈ box g.shape, D.data i ^ 2) (1 / 10 ^ 12)) ∧
    ((∀ a, (v a).Periodic) → ∀ nu dt, 0 ≤ nu * dt → ∃ r, diffusionSolveCG CGOptions.default v nu dt = .ok r ∧
      ∀ a s, BackwardEuler (v a) s nu dt → ∑ i ∈ box (v a).array.shape, ((r a).array.data i - s.array.data i) ^ 2 ≤
        max (1 / 10 ^ 12 * ∑ i ∈ box (v a).array.shape, (v a).array.data i ^ 2) (1 / 10 ^ 12)) := by
  constructor
  · intro h hw hc
    obtain ⟨w, D, D', h1, -, -, -, h5, h6, h7⟩ := C69_projection hd g v h hw hc CGOptions.default (fun m h => nomatch h)
    refine ⟨w, D, D', h1, h5, h6, h7.trans_eq ?_⟩
    congr 1 <;> norm_num [CGOptions.default]
  · intro hv nu dt hc
    obtain ⟨r, h1, h2⟩ := (C69_diffusion_cg v nu dt CGOptions.default).2 hv hc (fun a m h => nomatch h)
    refine ⟨r, h1, fun a s hs => ((h2 a).2.2.2.2.2 s hs).trans_eq ?_⟩
    congr 1 <;> norm_num [CGOptions.default]

namespace Fixtures

/-- Hypotheses met: the periodic 3×4 swirl, with a requested `implementation`. -/
example : ∃ r, ML.diffusionsSolveCG (1 / 10) (1 / 100) none swirl 3 (1 / 10) = .ok r :=
  let ⟨r, h, _⟩ := (C69_ml_diffusion_cg swirl 3 (1 / 10) (1 / 10) (1 / 100) none).2 (fun a => swirl_field.periodic g34r_pos a)
    (by norm_num) (fun a m h => nomatch h)
  ⟨r, h⟩

example : ∃ r, diffusionSolveCG CGOptions.default swirl 3 (1 / 10) = .ok r :=
  let ⟨r, h, _⟩ := (C69_defaults (by norm_num) g34r swirl).2 (fun a => swirl_field.periodic g34r_pos a) 3 (1 / 10) (by norm_num)
  ⟨r, h⟩

end Fixtures

end JaxCfd
