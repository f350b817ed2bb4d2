import Verif.Props.Filters
import Verif.Props.PressureSolve
import Verif.Props.Impose
import Verif.Props.FuncUtils

/-!
# C57: initial conditions
-/

namespace JaxCfd
variable {d : ℕ} [HasNan ℝ]

/-- A periodic velocity field on the faces of the grid. -/
def PeriodicField (g : Grid d ℝ) (v : Fin d → GridVariable d ℝ) : Prop :=
  FaceField g (fun a => (v a).array) ∧ ∀ a, (v a).bc = periodicBC d

/-- The speed at a grid point, as `_max_speed` computes it: the norm of the vector of the components stored with that index. -/
noncomputable def speed (v : Fin d → GridVariable d ℝ) (i : Idx d) : ℝ := Real.sqrt (∑ a, (v a).array.data i ^ 2)

/-- The largest speed of a field on the grid is `m`. -/
def HasMaxSpeed (g : Grid d ℝ) (v : Fin d → GridVariable d ℝ) (m : ℝ) : Prop :=
  (∀ i, InR g.shape i → speed v i ≤ m) ∧ ∃ i, InR g.shape i ∧ speed v i = m

theorem PeriodicField.velocity {g : Grid d ℝ} {v : Fin d → GridVariable d ℝ} (h : PeriodicField g v) (hs : ∀ a, 0 < g.shape a) :
    VelocityField g v :=
  ⟨hs, fun a => h.1 a, fun b => Or.inl fun c => by rw [h.2 c]; rfl⟩

theorem PeriodicField.walls {g : Grid d ℝ} {v : Fin d → GridVariable d ℝ} (h : PeriodicField g v) : WallsStored v := by
  intro a i _ hb
  rw [h.2 a] at hb
  cases hb

theorem PeriodicField.closed {g : Grid d ℝ} {v : Fin d → GridVariable d ℝ} (h : PeriodicField g v) (a : Fin d) :
    (v a).bc.types a = (.periodic, .periodic) ∨ (v a).bc.bcValues a = (some 0, some 0) := Or.inl (by rw [h.2 a]; rfl)

theorem PeriodicField.divergence {g : Grid d ℝ} {v : Fin d → GridVariable d ℝ} (h : PeriodicField g v) (hd : d ≠ 0) (hs : ∀ a, 0 < g.shape a) :
    divergence (List.ofFn v) = .ok ⟨⟨g.shape, fun i =>
      ∑ a, ((v a).array.data i - (v a).array.data (rollIdx g.shape a (-1) i)) / g.step a⟩, fun _ => 1 / 2, g⟩ := by
  have := h.1.divergence hd hs
  have hvv : (fun a => (⟨(v a).array, periodicBC d⟩ : GridVariable d ℝ)) = v := by
    funext a
    rw [← h.2 a]
  rw [hvv] at this
  exact this

theorem maxSpeed_shape {g : Grid d ℝ} {v : Fin d → GridVariable d ℝ} (h : ∀ a, (v a).array.shape = g.shape) (hd : d ≠ 0)
    (hs : ∀ a, 0 < g.shape a) : ∃ m, maxSpeed v = .ok m ∧ HasMaxSpeed g v m := by
  unfold maxSpeed
  have hu : uniqueOr .value (fun u : GridVariable d ℝ => u.array.shape) (List.ofFn v) = .ok g.shape := by
    refine uniqueOr_eq_ok.2 ⟨by rw [Ne, List.ofFn_eq_nil_iff]; exact hd, fun x hx => ?_⟩
    obtain ⟨a, rfl⟩ := List.mem_ofFn.1 hx
    exact h a
  have hne : (box g.shape).Nonempty := ⟨fun _ => 0, mem_box.2 fun a => ⟨le_rfl, by have := hs a; omega⟩⟩
  rw [hu, Except.bind_ok]
  unfold jnpMax
  rw [dif_pos hne]
  refine ⟨_, rfl, fun i hi => ?_, ?_⟩
  · exact Finset.le_sup' (fun i => Real.sqrt (∑ a, (v a).array.data i ^ 2)) (mem_box.2 hi)
  · obtain ⟨i, hi, h⟩ := Finset.exists_mem_eq_sup' hne (fun i => Real.sqrt (∑ a, (v a).array.data i ^ 2))
    exact ⟨i, mem_box.1 hi, h.symm⟩

theorem maxSpeed_ok {g : Grid d ℝ} {v : Fin d → GridVariable d ℝ} (h : PeriodicField g v) (hd : d ≠ 0) (hs : ∀ a, 0 < g.shape a) :
    ∃ m, maxSpeed v = .ok m ∧ HasMaxSpeed g v m := maxSpeed_shape (fun a => (h.1 a).2.1) hd hs

theorem HasMaxSpeed.unique {g : Grid d ℝ} {v : Fin d → GridVariable d ℝ} {m m' : ℝ} (h : HasMaxSpeed g v m) (h' : HasMaxSpeed g v m') :
    m = m' := by
  obtain ⟨i, hi, e⟩ := h.2
  obtain ⟨j, hj, e'⟩ := h'.2
  exact le_antisymm (e ▸ h'.1 i hi) (e' ▸ h.1 j hj)

theorem HasMaxSpeed.congr {g : Grid d ℝ} {v w : Fin d → GridVariable d ℝ} {m : ℝ} (h : HasMaxSpeed g v m)
    (e : ∀ a i, InR g.shape i → (w a).array.data i = (v a).array.data i) : HasMaxSpeed g w m := by
  have hs : ∀ i, InR g.shape i → speed w i = speed v i := fun i hi => by
    unfold speed
    congr 1
    exact Finset.sum_congr rfl fun a _ => by rw [e a i hi]
  obtain ⟨i, hi, h2⟩ := h.2
  exact ⟨fun i hi => by rw [hs i hi]; exact h.1 i hi, i, hi, by rw [hs i hi]; exact h2⟩

theorem HasMaxSpeed.smul {g : Grid d ℝ} {v w : Fin d → GridVariable d ℝ} {m : ℝ} (c : ℝ) (hc : 0 ≤ c) (h : HasMaxSpeed g v m)
    (e : ∀ a i, InR g.shape i → (w a).array.data i = c * (v a).array.data i) : HasMaxSpeed g w (c * m) := by
  have hs : ∀ i, InR g.shape i → speed w i = c * speed v i := fun i hi => by
    unfold speed
    have : ∑ a, (w a).array.data i ^ 2 = c ^ 2 * ∑ a, (v a).array.data i ^ 2 := by
      rw [Finset.mul_sum]
      exact Finset.sum_congr rfl fun a _ => by rw [e a i hi, mul_pow]
    rw [this, Real.sqrt_mul (sq_nonneg c), Real.sqrt_sq hc]
  obtain ⟨i, hi, h2⟩ := h.2
  exact ⟨fun i hi => by rw [hs i hi]; exact mul_le_mul_of_nonneg_left (h.1 i hi) hc, i, hi, by rw [hs i hi, h2]⟩

/-- A divergence-free field is a fixed point of the default projection. -/
theorem default_projection_fixes (hd : d ≠ 0) (g : Grid d ℝ) (v : Fin d → GridVariable d ℝ) (h : VelocityField g v) (hw : WallsStored v)
    (hdf : DivergenceFree g v) (cutoff : ℝ) (hr : Resolved g cutoff) (eigh : EighFn ℝ)
    (heigh : ∀ m, m.Symmetric → IsEigh m (eigh m)) (tpu : Bool) :
    ∃ w, projection v (defaultSolver tpu eigh cutoff) = .ok w ∧ ∀ a, (w a).bc = (v a).bc ∧ (w a).array.offset = (v a).array.offset ∧
      (w a).array.grid = (v a).array.grid ∧ (w a).array.shape = (v a).array.shape ∧
      ∀ i, InR g.shape i → (w a).array.data i = (v a).array.data i := by
  have hbc := h.pressureBC hd
  obtain ⟨q, -, hq⟩ := C36_pressure_succeeds hd g v h cutoff hr eigh heigh tpu none (Or.inl rfl) _ hbc
  obtain ⟨s1, s2, s3, L, D, e1, e2, e4, e3⟩ := C36_pressure_poisson hd g v h cutoff hr eigh heigh tpu none _ hbc _ (Or.inr rfl) q hq
  refine C33_fixes_divergence_free hd g v h hw (defaultSolver tpu eigh cutoff) _ q ⟨hbc, fun _ _ => hq, s1, s2, s3⟩
    ⟨L, D, e1, e2, fun i hi => ?_⟩ hdf
  obtain ⟨D', hD', h0⟩ := hdf
  rw [e2] at hD'
  injection hD' with hD'
  subst hD'
  have : D.toNArr.sum = 0 := Finset.sum_eq_zero fun i hi => h0 i (by rw [← e4]; exact mem_box.1 hi)
  rw [e3 i (by rw [← s1]; exact hi), this, zero_div, sub_zero]

theorem repeated_zero {C : Type} (f : C → Except Err C) (x : C) : repeated 0 f 0 x = .ok x := rfl

theorem repeated_succ {C : Type} (f : C → Except Err C) (n : ℕ) (x y : C) (h : f x = .ok y) : repeated 0 f (n + 1) x = repeated 0 f n y := by
  unfold repeated scanNone
  rw [if_neg (by simp), if_neg (by simp)]
  rw [List.replicate_succ, laxScan.eq_2]
  beta_reduce
  rw [h]
  simp only [Except.bind_ok, bind_assoc, pure_bind]

/-- One round of `project_and_normalize` on a periodic field: project, then divide by the largest speed. -/
theorem projectAndNormalize_ok (hd : d ≠ 0) (g : Grid d ℝ) (v : Fin d → GridVariable d ℝ) (h : PeriodicField g v)
    (cutoff : ℝ) (hr : Resolved g cutoff) (eigh : EighFn ℝ) (heigh : ∀ m, m.Symmetric → IsEigh m (eigh m)) (tpu : Bool) (maximum : ℝ) :
    ∃ p m w, projection v (defaultSolver tpu eigh cutoff) = .ok p ∧ PeriodicField g p ∧ DivergenceFree g p ∧ HasMaxSpeed g p m ∧
      projectAndNormalize (defaultSolver tpu eigh cutoff) maximum v = .ok w ∧ PeriodicField g w ∧ DivergenceFree g w ∧
      ∀ a i, (w a).array.data i = maximum / m * (p a).array.data i := by
  have hs : ∀ a, 0 < g.shape a := fun a => by have := hr.cells a; omega
  obtain ⟨p, hp, hpv, -, hpd⟩ := C36_projection_divergence_free hd g v (h.velocity hs) h.walls h.closed cutoff hr eigh heigh tpu
  obtain ⟨p', D, D', hp', -, -, hbc, -⟩ := C36_projection_default hd g v (h.velocity hs) h.walls cutoff hr eigh heigh tpu
  rw [hp] at hp'
  injection hp' with hp'
  subst hp'
  have hpp : PeriodicField g p := ⟨fun a => hpv.2.1 a, fun a => by rw [hbc a, h.2 a]⟩
  obtain ⟨m, hm, hmm⟩ := maxSpeed_ok hpp hd hs
  have hww : PeriodicField g fun a => (⟨gmap (fun x => maximum * x / m) (p a).array, (p a).bc⟩ : GridVariable d ℝ) :=
    ⟨fun a => ⟨(hpp.1 a).1, (hpp.1 a).2.1, (hpp.1 a).2.2⟩, fun a => hpp.2 a⟩
  refine ⟨p, m, fun a => ⟨gmap (fun x => maximum * x / m) (p a).array, (p a).bc⟩, hp, hpp, hpd, hmm, ?_, hww,
    ⟨_, hww.divergence hd hs, fun i hi => ?_⟩, fun a i => ?_⟩
  · unfold projectAndNormalize
    rw [hp, Except.bind_ok, hm, Except.bind_ok]
    rfl
  · obtain ⟨D, hD, h0⟩ := hpd
    rw [hpp.divergence hd hs] at hD
    injection hD with hD
    subst hD
    have := h0 i hi
    change (∑ a : Fin d, ((p a).array.data i - (p a).array.data (rollIdx g.shape a (-1) i)) / g.step a) = 0 at this
    show (∑ a : Fin d, (maximum * (p a).array.data i / m - maximum * (p a).array.data (rollIdx g.shape a (-1) i) / m) / g.step a) = 0
    have e : ∀ a ∈ Finset.univ, (maximum * (p a).array.data i / m - maximum * (p a).array.data (rollIdx g.shape a (-1) i) / m) / g.step a =
        maximum / m * (((p a).array.data i - (p a).array.data (rollIdx g.shape a (-1) i)) / g.step a) := fun a _ => by ring
    rw [Finset.sum_congr rfl e, ← Finset.mul_sum, this, mul_zero]
  · show maximum * (p a).array.data i / m = _
    ring

/-- What one further round does to a divergence-free field whose largest speed already is the requested one: nothing. -/
theorem projectAndNormalize_fixed (hd : d ≠ 0) (g : Grid d ℝ) (v : Fin d → GridVariable d ℝ) (h : PeriodicField g v) (hdf : DivergenceFree g v)
    (cutoff : ℝ) (hr : Resolved g cutoff) (eigh : EighFn ℝ) (heigh : ∀ m, m.Symmetric → IsEigh m (eigh m)) (tpu : Bool) (maximum : ℝ)
    (hmax : 0 < maximum) (hv : HasMaxSpeed g v maximum) :
    ∃ w, projectAndNormalize (defaultSolver tpu eigh cutoff) maximum v = .ok w ∧ PeriodicField g w ∧ DivergenceFree g w ∧
      HasMaxSpeed g w maximum ∧ ∀ a i, InR g.shape i → (w a).array.data i = (v a).array.data i := by
  have hs : ∀ a, 0 < g.shape a := fun a => by have := hr.cells a; omega
  obtain ⟨p, m, w, hp, hpp, -, hm, hw, hwp, hwd, hwe⟩ := projectAndNormalize_ok hd g v h cutoff hr eigh heigh tpu maximum
  obtain ⟨p', hp', hpe⟩ := default_projection_fixes hd g v (h.velocity hs) h.walls hdf cutoff hr eigh heigh tpu
  rw [hp] at hp'
  injection hp' with hp'
  subst hp'
  have hmm : m = maximum := hm.unique (hv.congr fun a i hi => (hpe a).2.2.2.2 i hi)
  have e : ∀ a i, InR g.shape i → (w a).array.data i = (v a).array.data i := fun a i hi => by
    rw [hwe a i, hmm, div_self hmax.ne', one_mul, (hpe a).2.2.2.2 i hi]
  exact ⟨w, hw, hwp, hwd, hv.congr e, e⟩

theorem repeated_fixed (hd : d ≠ 0) (g : Grid d ℝ) (n : ℕ) (v : Fin d → GridVariable d ℝ) (h : PeriodicField g v) (hdf : DivergenceFree g v)
    (cutoff : ℝ) (hr : Resolved g cutoff) (eigh : EighFn ℝ) (heigh : ∀ m, m.Symmetric → IsEigh m (eigh m)) (tpu : Bool) (maximum : ℝ)
    (hmax : 0 < maximum) (hv : HasMaxSpeed g v maximum) :
    ∃ w, repeated 0 (projectAndNormalize (defaultSolver tpu eigh cutoff) maximum) n v = .ok w ∧ PeriodicField g w ∧ DivergenceFree g w ∧
      HasMaxSpeed g w maximum ∧ ∀ a i, InR g.shape i → (w a).array.data i = (v a).array.data i := by
  induction n generalizing v with
  | zero => exact ⟨v, rfl, h, hdf, hv, fun _ _ _ => rfl⟩
  | succ n ih =>
    obtain ⟨w, hw, hwp, hwd, hws, hwe⟩ := projectAndNormalize_fixed hd g v h hdf cutoff hr eigh heigh tpu maximum hmax hv
    obtain ⟨r, hr', h1, h2, h3, h4⟩ := ih w hwp hwd hws
    exact ⟨r, by rw [repeated_succ _ _ _ _ hw]; exact hr', h1, h2, h3, fun a i hi => (h4 a i hi).trans (hwe a i hi)⟩

omit [HasNan ℝ] in
theorem onGrid_faces {bc : BC d ℝ} {u : GridArray d ℝ} (hp : bc = periodicBC d) (hs : u.shape = u.grid.shape)
    (hpos : ∀ a, 0 < u.grid.shape a) : BC.OnGrid bc u := by
  intro a
  subst hp
  rw [hs]
  have := hpos a
  simpa [periodicBC, homogeneousBC] using this

/-- **C57.** `wrap_variables` puts the arrays on the faces of the grid; periodic conditions change no value. -/
theorem C57_wrap_variables (g : Grid d ℝ) (hpos : ∀ a, 0 < g.shape a) (var : Fin d → NArr d ℝ) (hv : ∀ a, (var a).shape = g.shape) :
    ∃ v, wrapVariables var g (fun _ => periodicBC d) = .ok v ∧ PeriodicField g v ∧
      ∀ a i, InR g.shape i → (v a).array.data i = (var a).data i := by
  unfold wrapVariables
  choose r hr hre using fun a => C12_impose_bc_identity (periodicBC d) ⟨var a, g.cellFaces a, g⟩ (onGrid_faces rfl (hv a) hpos) (fun b => Or.inl rfl)
  refine ⟨r, seqFin_ok _ r hr, ⟨fun a => ⟨(hre a).2.2.1, (hre a).2.2.2.1.trans (hv a), fun b => ?_⟩, fun a => (hre a).1⟩, fun a i hi =>
    (hre a).2.2.2.2 i (by rw [(hre a).2.2.2.1]; exact (by rw [hv a]; exact hi : InR (var a).shape i))⟩
  rw [(hre a).2.1]
  exact cellFaces_apply g a b

/-- **C57.** `filtered_velocity_field` with at least one iteration returns, for every noise and every spectral density peak, a periodic
field on the cell faces whose discrete divergence is zero at every cell and, unless the projection of the filtered noise vanishes
identically (the code then divides by zero), whose largest speed is the requested maximum. -/
theorem C57_filtered_velocity_field (hd : d ≠ 0) (g : Grid d ℝ) (noise : Fin d → NArr d ℝ) (hn : ∀ a, (noise a).shape = g.shape)
    (cutoff : ℝ) (hr : Resolved g cutoff) (eigh : EighFn ℝ) (heigh : ∀ m, m.Symmetric → IsEigh m (eigh m)) (tpu : Bool)
    (maximum peak : ℝ) (hmax : 0 < maximum) (n : ℕ) :
    ∃ v p, (∀ a, ∃ y, spectralFilter (logNormalDensity d peak) (noise a) g = .ok y ∧ ∀ i, InR g.shape i → (v a).array.data i = y.data i) ∧
      PeriodicField g v ∧ projection v (defaultSolver tpu eigh cutoff) = .ok p ∧
      ((∃ a i, InR g.shape i ∧ (p a).array.data i ≠ 0) →
        ∃ w m, filteredVelocityField (defaultSolver tpu eigh cutoff) noise g maximum peak (n + 1) = .ok w ∧
          PeriodicField g w ∧ DivergenceFree g w ∧ HasMaxSpeed g w maximum ∧ HasMaxSpeed g p m ∧ 0 < m ∧
          ∀ a i, InR g.shape i → (w a).array.data i = maximum / m * (p a).array.data i) := by
  have hg : g.Proper := fun a => ⟨by have := hr.cells a; omega, hr.length a⟩
  have hs : ∀ a, 0 < g.shape a := fun a => by have := hr.cells a; omega
  choose y hy hys _ using fun a => C49_filter hd (logNormalDensity d peak) g hg (noise a) (hn a)
  obtain ⟨v, hv, hvp, hve⟩ := C57_wrap_variables g hs y hys
  obtain ⟨p, m, w1, hp, hpp, hpd, hm, hw1, hwp, hwd, hwe⟩ := projectAndNormalize_ok hd g v hvp cutoff hr eigh heigh tpu maximum
  refine ⟨v, p, fun a => ⟨y a, hy a, hve a⟩, hvp, hp, fun ⟨a, i, hi, hne⟩ => ?_⟩
  have hmpos : 0 < m := by
    refine lt_of_lt_of_le ?_ (hm.1 i hi)
    refine Real.sqrt_pos.2 (Finset.sum_pos' (fun b _ => sq_nonneg _) ⟨a, Finset.mem_univ a, ?_⟩)
    positivity
  have hw1m : HasMaxSpeed g w1 maximum := by
    have := hm.smul (w := w1) (maximum / m) (by positivity) (fun a i _ => hwe a i)
    rwa [div_mul_cancel₀ _ hmpos.ne'] at this
  obtain ⟨w, hw, h1, h2, h3, h4⟩ := repeated_fixed hd g n w1 hwp hwd cutoff hr eigh heigh tpu maximum hmax hw1m
  refine ⟨w, m, ?_, h1, h2, h3, hm, hmpos, fun a i hi => (h4 a i hi).trans (hwe a i)⟩
  unfold filteredVelocityField
  rw [seqFin_ok _ y hy, Except.bind_ok, hv, Except.bind_ok, repeated_succ _ _ _ _ hw1, hw]

/-- **C57.** `initial_velocity_field` without projection samples the given functions at the points where the components are stored. -/
theorem C57_initial_velocity_field (g : Grid d ℝ) (fns : Fin d → (Fin d → ℝ) → ℝ) (bc : Option (Fin d → BC d ℝ)) (solve : PressureSolver d ℝ) :
    ∃ v, initialVelocityField fns g bc solve none = .ok v ∧ FaceField g (fun a => (v a).array) ∧
      (∀ a, (v a).bc = bc.getD (fun _ => periodicBC d) a) ∧
      ∀ a i, InR g.shape i → (v a).array.data i = fns a fun b => coord (v a).array b i := by
  unfold initialVelocityField
  choose u hu huo hug hus hud using fun a => C02_eval_on_mesh g (fns a) (g.cellFaces a)
  have hs : seqFin (fun a : Fin d => do
      let u ← g.evalOnMesh (fns a) (g.cellFaces a)
      return (⟨u, bc.getD (fun _ => periodicBC d) a⟩ : GridVariable d ℝ)) = .ok fun a => ⟨u a, bc.getD (fun _ => periodicBC d) a⟩ :=
    seqFin_ok _ (fun a => (⟨u a, bc.getD (fun _ => periodicBC d) a⟩ : GridVariable d ℝ)) fun a => by beta_reduce; rw [hu a]; rfl
  rw [hs, Except.bind_ok]
  refine ⟨_, rfl, fun a => ⟨hug a, hus a, fun b => ?_⟩, fun a => rfl, fun a i hi => ?_⟩
  · show (u a).offset b = _
    rw [huo a]; exact cellFaces_apply g a b
  · show (u a).data i = _
    rw [hud a i hi]
    unfold coord
    congr 1
    funext b
    rw [huo a, hug a]

/-- **C57.** `initial_velocity_field` with at least one iteration and the default solver returns a divergence-free field, in a periodic
or closed domain, provided that the functions take the prescribed values on the walls. -/
theorem C57_initial_velocity_field_projected (hd : d ≠ 0) (g : Grid d ℝ) (fns : Fin d → (Fin d → ℝ) → ℝ) (bc : Option (Fin d → BC d ℝ))
    (cutoff : ℝ) (hr : Resolved g cutoff) (eigh : EighFn ℝ) (heigh : ∀ m, m.Symmetric → IsEigh m (eigh m)) (tpu : Bool) (n : ℕ)
    (v : Fin d → GridVariable d ℝ) (hv : initialVelocityField fns g bc (defaultSolver tpu eigh cutoff) none = .ok v)
    (h : VelocityField g v) (hw : WallsStored v)
    (hclosed : ∀ a, (v a).bc.types a = (.periodic, .periodic) ∨ (v a).bc.bcValues a = (some 0, some 0)) :
    ∃ w, initialVelocityField fns g bc (defaultSolver tpu eigh cutoff) (some (n + 1)) = .ok w ∧ VelocityField g w ∧ WallsStored w ∧
      DivergenceFree g w := by
  have key : ∀ n (u : Fin d → GridVariable d ℝ), VelocityField g u → WallsStored u → DivergenceFree g u →
      (∀ a, (u a).bc.types a = (.periodic, .periodic) ∨ (u a).bc.bcValues a = (some 0, some 0)) →
      ∃ w, repeated 0 (fun v => projection v (defaultSolver tpu eigh cutoff)) n u = .ok w ∧ VelocityField g w ∧ WallsStored w ∧
        DivergenceFree g w := by
    intro n
    induction n with
    | zero => exact fun u h1 h2 h3 _ => ⟨u, rfl, h1, h2, h3⟩
    | succ n ih =>
      intro u h1 h2 h3 h4
      obtain ⟨w, hw, hwv, hww, hwd⟩ := C36_projection_divergence_free hd g u h1 h2 h4 cutoff hr eigh heigh tpu
      obtain ⟨w', D, D', hw', -, -, hbc, -⟩ := C36_projection_default hd g u h1 h2 cutoff hr eigh heigh tpu
      rw [hw] at hw'
      injection hw' with hw'
      subst hw'
      obtain ⟨r, hr', e⟩ := ih w hwv hww hwd (fun a => by rw [hbc a]; exact h4 a)
      exact ⟨r, by rw [repeated_succ _ _ _ _ hw]; exact hr', e⟩
  obtain ⟨w, hw', hwv, hww, hwd⟩ := C36_projection_divergence_free hd g v h hw hclosed cutoff hr eigh heigh tpu
  obtain ⟨w', D, D', hw'', -, -, hbc, -⟩ := C36_projection_default hd g v h hw cutoff hr eigh heigh tpu
  rw [hw'] at hw''
  injection hw'' with hw''
  subst hw''
  obtain ⟨r, hr', e⟩ := key n w hwv hww hwd (fun a => by rw [hbc a]; exact hclosed a)
  refine ⟨r, ?_, e⟩
  unfold initialVelocityField at hv ⊢
  obtain ⟨v', h1, h2⟩ := Except.bind_eq_ok.1 hv
  injection h2 with h2
  subst h2
  rw [h1, Except.bind_ok]
  dsimp only
  rw [repeated_succ _ _ _ _ hw']
  exact hr'

/-- Non-vacuity: an ordinary grid is resolved with the cutoff `10 * eps` of single precision. -/
example : Resolved (⟨fun _ => 8, fun _ => (0, 2 * Real.pi)⟩ : Grid 2 ℝ) (1 / 800000) where
  cells _ := by norm_num
  length _ := by positivity
  cutoff_nonneg := by norm_num
  cutoff_small _ := by
    have := Real.pi_le_four
    have h0 := Real.pi_pos
    show 1 / 800000 * (2 * Real.pi - 0) ^ 2 < 1
    nlinarith

end JaxCfd
