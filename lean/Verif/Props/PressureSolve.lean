import Verif.Lemmas.Poincare

/-!
# C36: the direct pressure solver

`solve_fast_diag` on staggered velocity fields, for any number of dimensions and any combination of periodic axes and walls.
The only things assumed about the numerics are `np.linalg.eigh`'s specification and that the cutoff of the pseudo-inverse is
smaller than `1 / length²` along every axis (with `cutoff = 10 eps` in float32: lengths up to about 900).
-/

set_option linter.unusedSectionVars false

namespace JaxCfd
variable {d : ℕ} [HasNan ℝ]
open VelocityField

/-- What is assumed of the arguments of the direct pressure solver: at least three cells and a positive length along every axis,
and a cutoff that cannot discard a non-constant mode. -/
structure Resolved (g : Grid d ℝ) (cutoff : ℝ) : Prop where
  cells : ∀ a, 3 ≤ g.shape a
  length : ∀ a, (g.domain a).1 < (g.domain a).2
  cutoff_nonneg : 0 ≤ cutoff
  cutoff_small : ∀ a, cutoff * ((g.domain a).2 - (g.domain a).1) ^ 2 < 1

/-- All axes are periodic. -/
def AllPeriodic (v : Fin d → GridVariable d ℝ) : Prop := ∀ a, (v a).bc.types a = (.periodic, .periodic)

theorem Resolved.step_pos {g : Grid d ℝ} {cutoff : ℝ} (h : Resolved g cutoff) (a : Fin d) : 0 < g.step a := by
  have h1 := h.cells a
  have h2 := sub_pos.2 (h.length a)
  have : (0 : ℝ) < g.shape a := by exact_mod_cast (by omega : 0 < g.shape a)
  unfold Grid.step
  positivity

namespace VelocityField
variable {g : Grid d ℝ} {v : Fin d → GridVariable d ℝ}

theorem hasAllPeriodic_iff (h : VelocityField g v) : hasAllPeriodic (List.ofFn v) = true ↔ AllPeriodic v := by
  unfold hasAllPeriodic isPeriodicBC AllPeriodic
  rw [List.all_eq_true]
  constructor
  · intro H a
    have h1 := H (v a) (List.mem_ofFn.2 ⟨a, rfl⟩)
    rw [List.all_eq_true] at h1
    have h2 := h1 a (List.mem_finRange a)
    rcases h.2.2 a with hp | ⟨hd, -⟩
    · exact hp a
    · rw [hd] at h2; simp at h2
  · intro H u hu
    obtain ⟨b, rfl⟩ := List.mem_ofFn.1 hu
    rw [List.all_eq_true]
    intro a _
    rcases h.2.2 a with hp | ⟨hd, -⟩
    · rw [hp b]; simp
    · rw [H a] at hd; cases hd

theorem promised (h : VelocityField g v) (hN : ∀ a, 3 ≤ g.shape a) {eigh : EighFn ℝ}
    (heigh : ∀ m, m.Symmetric → IsEigh m (eigh m)) {ms : Fin d → Mat ℝ}
    (hms : laplacianMatrixWB g (fun _ => 1 / 2) (pbc v) = .ok ms) :
    Promised eigh (List.ofFn ms) true (hasAllPeriodic (List.ofFn v)) := by
  obtain ⟨ms', e, hm, -⟩ := h.pressure_matrices hN
  rw [hms] at e
  injection e with e
  subst e
  refine ⟨fun _ m hm' => ?_, fun hc m hm' => ?_, heigh⟩
  · obtain ⟨a, rfl⟩ := List.mem_ofFn.1 hm'
    exact (hm a).2.1
  · obtain ⟨a, rfl⟩ := List.mem_ofFn.1 hm'
    exact (hm a).2.2 ((h.hasAllPeriodic_iff.1 hc) a)

/-- A solution of the problem found with the derived boundary condition. -/
theorem fastDiagWith_exact (hd : d ≠ 0) (h : VelocityField g v) {cutoff : ℝ} (hr : Resolved g cutoff) {eigh : EighFn ℝ}
    (heigh : ∀ m, m.Symmetric → IsEigh m (eigh m)) (tpu : Bool) (impl : Option Impl) {q : GridArray d ℝ}
    (hq : pressureFastDiagWith tpu eigh cutoff v (pbc v) impl = .ok q) :
    q.shape = g.shape ∧ q.grid = g ∧ (q.offset = fun _ => 1 / 2) ∧ ∃ L D, laplacian ⟨q, pbc v⟩ = .ok L ∧
      divergence (List.ofFn v) = .ok D ∧ D.shape = g.shape ∧
      ∀ i : Idx d, InR g.shape i → L.data i = D.data i - D.toNArr.sum / ∏ b, (g.shape b : ℝ) := by
  obtain ⟨D, hD, -⟩ := h.divergence_eq hd
  obtain ⟨ms, hms, -, -⟩ := h.pressure_matrices hr.cells
  unfold pressureFastDiagWith at hq
  dsimp only at hq
  rw [hD, Except.bind_ok] at hq
  dsimp only at hq
  rw [hms, Except.bind_ok] at hq
  rw [Except.bind_eq_ok] at hq
  obtain ⟨P, hP, hq⟩ := hq
  rw [Except.bind_eq_ok] at hq
  obtain ⟨r, hr', hq⟩ := hq
  injection hq with hq
  subst hq
  have hpos : 0 < ∏ b, ((⟨⟨g.shape, D⟩, fun _ => 1 / 2, g⟩ : GridArray d ℝ).shape b : ℝ) := h.cells_pos
  obtain ⟨hs1, c, hc⟩ := pressureRhs_eq (pbc v) (⟨⟨g.shape, D⟩, fun _ => 1 / 2, g⟩ : GridArray d ℝ) hpos
  obtain ⟨r', e1, e2, e3⟩ := h.pinv_solves hr.cells (fun a => (hr.step_pos a).ne') hms hP (h.promised hr.cells heigh hms)
    hr.cutoff_nonneg (fun z hz hle => h.cutoff_ok hr.cells hr.length hms hr.cutoff_small hz hle) _ hs1
  rw [hr'] at e1
  injection e1 with e1
  subst e1
  obtain ⟨L, hL, hLs, hLe⟩ := laplacian_supported (pvar g v r.data) (h.pvar_centered r.data).1
  obtain ⟨rs, rd⟩ := r
  simp only at e2
  subst e2
  refine ⟨rfl, rfl, rfl, L, _, hL, hD, rfl, fun i hi => ?_⟩
  refine ((hLe i hi).trans (e3 i hi)).trans ?_
  rw [hc i]
  have hsum : (pressureRhs (⟨⟨g.shape, D⟩, fun _ => 1 / 2, g⟩ : GridArray d ℝ) (pbc v)).sum =
      (∑ i ∈ box g.shape, D i) - cells g * c := by
    rw [NArr.sum, hs1, Finset.sum_congr rfl (fun i _ => hc i), Finset.sum_sub_distrib, Finset.sum_const, nsmul_eq_mul, cells_eq]
  rw [hsum]
  have := h.cells_pos
  show D i - c - _ = D i - (∑ i ∈ box g.shape, D i) / cells g
  field_simp
  ring

end VelocityField

/-- **C36.** Whenever the direct pressure solver returns (with its default or any requested implementation, with the pressure
boundary condition left out or passed in as `projection` does), the returned array `q` solves the discrete Poisson problem up to
the solvability constant: `laplacian(q) = divergence(v) - mean(divergence(v))` at every cell. -/
theorem C36_pressure_poisson (hd : d ≠ 0) (g : Grid d ℝ) (v : Fin d → GridVariable d ℝ) (h : VelocityField g v)
    (cutoff : ℝ) (hr : Resolved g cutoff) (eigh : EighFn ℝ) (heigh : ∀ m, m.Symmetric → IsEigh m (eigh m)) (tpu : Bool)
    (impl : Option Impl) (bc : BC d ℝ) (hbc : pressureBCFromVelocity (List.ofFn v) = .ok bc) (arg : Option (BC d ℝ))
    (harg : arg = none ∨ arg = some bc) (q : GridArray d ℝ) (hq : pressureFastDiag tpu eigh cutoff v arg impl = .ok q) :
    q.shape = g.shape ∧ q.grid = g ∧ (q.offset = fun _ => 1 / 2) ∧ ∃ L D, laplacian ⟨q, bc⟩ = .ok L ∧
      divergence (List.ofFn v) = .ok D ∧ D.shape = g.shape ∧
      ∀ i : Idx d, InR g.shape i → L.data i = D.data i - D.toNArr.sum / ∏ b, (g.shape b : ℝ) := by
  have hb := h.pressureBC hd
  rw [hbc] at hb
  injection hb with hb
  subst hb
  refine h.fastDiagWith_exact hd hr heigh tpu impl ?_
  unfold pressureFastDiag at hq
  rcases harg with rfl | rfl
  · dsimp only at hq
    rw [hbc, Except.bind_ok] at hq
    exact hq
  · exact hq

/-- The pseudo-inverse of the pressure Laplacian is built, whatever the cutoff. -/
theorem VelocityField.pinv_ok (hd : d ≠ 0) {g : Grid d ℝ} {v : Fin d → GridVariable d ℝ} (h : VelocityField g v) (cutoff : ℝ) (eigh : EighFn ℝ) (tpu : Bool) (impl : Option Impl)
    (himpl : impl = none ∨ impl = some .matmul ∨ impl = some .fft ∨
      (impl = some .rfft ∧ ∀ a : Fin d, (a : ℕ) + 1 = d → g.shape a % 2 = 0) ∨ ¬ AllPeriodic v) (ms : Fin d → Mat ℝ) (hm : ∀ a, (ms a).rows = g.shape a ∧ (ms a).Symmetric) :
    ∃ P, pseudoinverse (d := d) tpu eigh cutoff (List.ofFn ms) true (hasAllPeriodic (List.ofFn v)) (if hasAllPeriodic (List.ofFn v) = true then impl else some .matmul) = .ok P := by
  have hne : List.ofFn ms ≠ [] := by rw [Ne, List.ofFn_eq_nil_iff]; exact hd
  have hsq : ∀ m ∈ List.ofFn ms, m.rows = m.cols := by
    intro m hm'
    obtain ⟨a, rfl⟩ := List.mem_ofFn.1 hm'
    exact (hm a).2.1
  have hsq' : ¬ ((List.ofFn ms).any (fun m => decide (m.rows ≠ m.cols)) = true) := by
    intro h
    obtain ⟨m, hm, h'⟩ := List.any_eq_true.1 h
    exact (by simpa using h' : ¬ _) (hsq m hm)
  obtain ⟨k, rfl⟩ : ∃ k, d = k + 1 := ⟨d - 1, by omega⟩
  have hlast : ((List.ofFn ms).map Mat.rows).getLast? = some (g.shape (Fin.last k)) := by
    rw [List.map_ofFn, ofFn_snoc, List.getLast?_append]
    simp [(hm (Fin.last k)).1]
  unfold pseudoinverse
  by_cases hp : hasAllPeriodic (List.ofFn v) = true
  · rw [if_pos hp, hp]
    rcases himpl with rfl | rfl | rfl | ⟨rfl, he⟩ | hn
    · -- default
      unfold transform
      rw [if_neg hsq']
      dsimp only
      obtain ⟨i1, i2⟩ := C37_default ((List.ofFn ms).map Mat.rows) _ hlast
      have hmat : ∃ F, transformWith (d := k + 1) eigh (pinvFn cutoff) (List.ofFn ms) true true .matmul = .ok F := by
        unfold transformWith; simp [hne]
      have hrf : g.shape (Fin.last k) % 2 = 0 →
          ∃ F, transformWith (d := k + 1) eigh (pinvFn cutoff) (List.ofFn ms) true true .rfft = .ok F := by
        intro he
        unfold transformWith
        dsimp only
        rw [hlast]
        dsimp only
        rw [if_neg (by decide), if_neg (by omega)]
        exact ⟨_, rfl⟩
      cases tpu
      · rw [i1]; dsimp only
        by_cases ho : g.shape (Fin.last k) % 2 = 1
        · rw [if_pos ho]; exact hmat
        · rw [if_neg ho]; exact hrf (by omega)
      · rw [i2]; dsimp only
        by_cases ho : (∃ m ∈ (List.ofFn ms).map Mat.rows, 1024 < m) ∧ g.shape (Fin.last k) % 2 = 0
        · rw [if_pos ho]; exact hrf ho.2
        · rw [if_neg ho]; exact hmat
    · rcases C37_requirements (d := k + 1) tpu eigh (pinvFn cutoff) (List.ofFn ms) true true hsq _ hlast .matmul with h1 | h1
      · exact h1.2
      · exact absurd rfl h1.1
    · rcases C37_requirements (d := k + 1) tpu eigh (pinvFn cutoff) (List.ofFn ms) true true hsq _ hlast .fft with h1 | h1
      · exact h1.2
      · exact absurd rfl h1.1
    · rcases C37_requirements (d := k + 1) tpu eigh (pinvFn cutoff) (List.ofFn ms) true true hsq _ hlast .rfft with h1 | h1
      · exact h1.2
      · exact absurd ⟨rfl, he (Fin.last k) rfl⟩ h1.1
    · exact absurd (h.hasAllPeriodic_iff.1 hp) hn
  · rw [if_neg hp]
    rcases C37_requirements (d := k + 1) tpu eigh (pinvFn cutoff) (List.ofFn ms) true (hasAllPeriodic (List.ofFn v)) hsq _ hlast .matmul with h1 | h1
    · exact h1.2
    · exact absurd rfl h1.1

/-- **C36.** The direct pressure solver returns for its default implementation, and for `matmul` and `fft`, always; for `rfft` when
the last axis is even or some axis has walls (then `matmul` is used, whatever was requested). -/
theorem C36_pressure_succeeds (hd : d ≠ 0) (g : Grid d ℝ) (v : Fin d → GridVariable d ℝ) (h : VelocityField g v)
    (cutoff : ℝ) (hr : Resolved g cutoff) (eigh : EighFn ℝ) (heigh : ∀ m, m.Symmetric → IsEigh m (eigh m)) (tpu : Bool)
    (impl : Option Impl) (himpl : impl = none ∨ impl = some .matmul ∨ impl = some .fft ∨
      (impl = some .rfft ∧ ∀ a : Fin d, (a : ℕ) + 1 = d → g.shape a % 2 = 0) ∨ ¬ AllPeriodic v)
    (bc : BC d ℝ) (hbc : pressureBCFromVelocity (List.ofFn v) = .ok bc) :
    ∃ q, pressureFastDiag tpu eigh cutoff v none impl = .ok q ∧ pressureFastDiag tpu eigh cutoff v (some bc) impl = .ok q := by
  have hb := h.pressureBC hd
  rw [hbc] at hb
  injection hb with hb
  subst hb
  obtain ⟨D, hD, -⟩ := h.divergence_eq hd
  obtain ⟨ms, hms, hm, -⟩ := h.pressure_matrices hr.cells
  obtain ⟨P, hP⟩ := h.pinv_ok hd cutoff eigh tpu impl himpl ms fun a => ⟨(hm a).1, (hm a).2.1⟩
  obtain ⟨k, rfl⟩ : ∃ k, d = k + 1 := ⟨d - 1, by omega⟩
  have hpos : 0 < ∏ b, ((⟨⟨g.shape, D⟩, fun _ => 1 / 2, g⟩ : GridArray (k + 1) ℝ).shape b : ℝ) := h.cells_pos
  obtain ⟨hs1, -⟩ := pressureRhs_eq (pbc v) (⟨⟨g.shape, D⟩, fun _ => 1 / 2, g⟩ : GridArray (k + 1) ℝ) hpos
  obtain ⟨r, e1, e2, -⟩ := h.pinv_solves hr.cells (fun a => (hr.step_pos a).ne') hms hP (h.promised hr.cells heigh hms)
    hr.cutoff_nonneg (fun z hz hle => h.cutoff_ok hr.cells hr.length hms hr.cutoff_small hz hle) _ hs1
  have hw : pressureFastDiagWith tpu eigh cutoff v (pbc v) impl = .ok ⟨r, fun _ => 1 / 2, g⟩ := by
    unfold pressureFastDiagWith
    dsimp only
    rw [hD, Except.bind_ok]
    dsimp only
    rw [hms, Except.bind_ok, hP, Except.bind_ok, e1, Except.bind_ok]
    rfl
  refine ⟨_, ?_, hw⟩
  unfold pressureFastDiag
  dsimp only
  rw [hbc, Except.bind_ok]
  exact hw

/-- The solver `projection` uses by default: `solve_fast_diag` with everything but the boundary condition left at its default. -/
noncomputable def defaultSolver (tpu : Bool) (eigh : EighFn ℝ) (cutoff : ℝ) : PressureSolver d ℝ :=
  fun v _ bc => pressureFastDiag tpu eigh cutoff v (some bc) none

/-- **C36.** `projection` with its default solver succeeds on every staggered velocity field; every cell of the result has the
same divergence, namely the mean divergence of the input (which the projection cannot change). -/
theorem C36_projection_default (hd : d ≠ 0) (g : Grid d ℝ) (v : Fin d → GridVariable d ℝ) (h : VelocityField g v)
    (hw : WallsStored v) (cutoff : ℝ) (hr : Resolved g cutoff) (eigh : EighFn ℝ)
    (heigh : ∀ m, m.Symmetric → IsEigh m (eigh m)) (tpu : Bool) :
    ∃ w D D', projection v (defaultSolver tpu eigh cutoff) = .ok w ∧ VelocityField g w ∧ WallsStored w ∧
      (∀ a, (w a).bc = (v a).bc) ∧ divergence (List.ofFn v) = .ok D ∧ divergence (List.ofFn w) = .ok D' ∧
      D'.shape = g.shape ∧ ∀ i : Idx d, InR g.shape i → D'.data i = D.toNArr.sum / ∏ b, (g.shape b : ℝ) := by
  have hbc := h.pressureBC hd
  obtain ⟨q, -, hq⟩ := C36_pressure_succeeds hd g v h cutoff hr eigh heigh tpu none (Or.inl rfl) _ hbc
  obtain ⟨s1, s2, s3, L, D, e1, e2, -, e3⟩ := C36_pressure_poisson hd g v h cutoff hr eigh heigh tpu none _ hbc _ (Or.inr rfl) q hq
  obtain ⟨w, D0, D', L0, f1, f2, f3, f4, f5, f6, f7, -, f8, -, f9⟩ :=
    C33_residual hd g v h hw (defaultSolver tpu eigh cutoff) _ q ⟨hbc, fun _ _ => hq, s1, s2, s3⟩
  rw [e1] at f7
  rw [e2] at f5
  injection f7 with f7
  injection f5 with f5
  subst f7 f5
  exact ⟨w, D, D', f1, f2, f3, f4, e2, f6, f8, fun i hi => by rw [f9 i hi, e3 i hi]; ring⟩

/-- **C36.** In particular, in a closed or periodic domain (no flow through the walls) `projection` with its default solver
returns a field whose divergence is zero at every cell. -/
theorem C36_projection_divergence_free (hd : d ≠ 0) (g : Grid d ℝ) (v : Fin d → GridVariable d ℝ) (h : VelocityField g v)
    (hw : WallsStored v)
    (hclosed : ∀ a, (v a).bc.types a = (.periodic, .periodic) ∨ (v a).bc.bcValues a = (some 0, some 0))
    (cutoff : ℝ) (hr : Resolved g cutoff) (eigh : EighFn ℝ) (heigh : ∀ m, m.Symmetric → IsEigh m (eigh m)) (tpu : Bool) :
    ∃ w, projection v (defaultSolver tpu eigh cutoff) = .ok w ∧ VelocityField g w ∧ WallsStored w ∧ DivergenceFree g w := by
  obtain ⟨w, D, D', f1, f2, f3, -, f5, f6, -, f8⟩ := C36_projection_default hd g v h hw cutoff hr eigh heigh tpu
  refine ⟨w, f1, f2, f3, D', f6, fun i hi => ?_⟩
  rw [f8 i hi, C22_closed_box_divergence v h.supported (fun a => ?_) D f5, zero_div]
  rcases h.2.2 a with hp | ⟨hdir, -⟩
  · exact Or.inl (hp a)
  · have hv : (v a).bc.bcValues a = (some 0, some 0) := by
      rcases hclosed a with e | e
      · rw [e] at hdir; cases hdir
      · exact e
    refine Or.inr ⟨by rw [(h.2.1 a).2.2 a, if_pos rfl], hdir, hv, fun i hi hl => ?_⟩
    rw [hw a i hi hdir hl]
    simp [BC.constantValues, hv]

/-- **C36.** `solve_fast_diag_channel_flow` is `solve_fast_diag` with the `matmul` implementation. -/
theorem C36_channel_flow (v : Fin d → GridVariable d ℝ) (cutoff : ℝ) (eigh : EighFn ℝ) (tpu : Bool) (arg : Option (BC d ℝ)) :
    pressureFastDiagChannel tpu eigh cutoff v arg = pressureFastDiag tpu eigh cutoff v arg (some .matmul) := by
  unfold pressureFastDiagChannel pressureFastDiag
  cases arg with
  | some bc => rfl
  | none => rfl

/-! ## The hypotheses are met by concrete data -/

namespace Fixtures

/-- a 3 × 4 channel, periodic along x, closed by walls along y -/
noncomputable def g34r : Grid 2 ℝ := ⟨![3, 4], ![(0, 3), (0, 2)]⟩

noncomputable def chanR (a : Fin 2) : GridVariable 2 ℝ :=
  ⟨⟨⟨![3, 4], fun i => if a = 0 then (i 0 : ℝ) * (i 1 : ℝ) else if i 1 = 3 then 0 else (i 0 : ℝ)⟩,
    fun b => if b = a then 1 else 1 / 2, g34r⟩,
    ⟨.homogeneous, fun b => if b = 0 then (.periodic, .periodic) else (.dirichlet, .dirichlet), fun _ => (some 0, some 0)⟩⟩

theorem chanR_field : VelocityField g34r chanR := by
  refine ⟨fun b => by fin_cases b <;> simp [g34r], fun a => ⟨rfl, rfl, fun b => rfl⟩, fun b => ?_⟩
  fin_cases b
  · left; intro c; rfl
  · right; exact ⟨rfl, fun c => ⟨Or.inl rfl, Or.inl rfl⟩⟩

theorem chanR_walls : WallsStored chanR := by
  intro a i hi ht hl
  have : a = 1 := by
    fin_cases a
    · exact absurd ht (by decide)
    · rfl
  subst this
  have h3 : i 1 = 3 := by
    have : ((chanR 1).array.shape 1 : ℤ) = 4 := rfl
    omega
  simp [chanR, BC.constantValues, h3]

theorem g34r_resolved : Resolved g34r (1 / 1000000) := by
  refine ⟨fun a => ?_, fun a => ?_, by norm_num, fun a => ?_⟩ <;> fin_cases a <;> simp [g34r] <;> norm_num

/-- The projection theorem applies to the channel: it returns a divergence-free field. -/
example : ∃ w, projection chanR (defaultSolver false exists_eigh.choose (1 / 1000000)) = .ok w ∧ DivergenceFree g34r w := by
  obtain ⟨w, h1, -, -, h4⟩ := C36_projection_divergence_free (by norm_num) g34r chanR chanR_field chanR_walls
    (fun a => Or.inr rfl) _ g34r_resolved _ exists_eigh.choose_spec false
  exact ⟨w, h1, h4⟩

/-- and the channel was not divergence free before -/
example : ¬ DivergenceFree g34r chanR := by
  rintro ⟨D', hD', h0⟩
  obtain ⟨D, hD, hDe⟩ := chanR_field.divergence_eq (by norm_num)
  rw [hD] at hD'
  injection hD' with hD'
  have hz : InR g34r.shape (fun _ : Fin 2 => (1 : ℤ)) := fun a => by fin_cases a <;> simp [g34r]
  have := hDe _ hz
  have h1 : D (fun _ => 1) = 0 := by have := h0 _ hz; rw [← hD'] at this; exact this
  rw [h1, Fin.sum_univ_two, chanR_field.below_normal, chanR_field.below_normal] at this
  simp [chanR, rollIdx, g34r, Grid.step] at this

end Fixtures

end JaxCfd
