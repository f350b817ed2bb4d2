import Verif.Props.Filters
import Mathlib.Analysis.SpecialFunctions.Trigonometric.Deriv
import Mathlib.Analysis.SpecialFunctions.ExpDeriv

/-!
# C49 (Taylor-Green forcing), C58 (Taylor-Green validation problem)
-/

namespace JaxCfd

/-- The Taylor-Green velocity field at time `t` and position `(x, y)`. -/
noncomputable def tgField (nu kx ky t : ℝ) (a : Fin 2) (x y : ℝ) : ℝ :=
  if a = 0 then Real.exp (-2 * nu * t) * Real.cos (kx * x) * Real.sin (ky * y)
  else -Real.exp (-2 * nu * t) * Real.sin (kx * x) * Real.cos (ky * y)

/-- **C58.** `TaylorGreen.velocity` samples the Taylor-Green field at the points where each component is stored, for every choice of
offsets; the variables are periodic. -/
theorem C58_values (shape : Fin 2 → ℕ) (hs : ∀ a, shape a ≠ 0) (nu kx ky t : ℝ) (offsets : Option (Fin 2 → Fin 2 → ℚ)) :
    ∃ v, taylorGreenVelocity shape nu kx ky t offsets = .ok v ∧ ∀ a, (v a).bc = periodicBC 2 ∧ (v a).array.shape = shape ∧
      (v a).array.grid = taylorGreenGrid shape ∧ (v a).array.offset = offsets.getD (taylorGreenGrid shape).cellFaces a ∧
      ∀ i, InR shape i → (v a).array.data i = tgField nu kx ky t a (coord (v a).array 0 i) (coord (v a).array 1 i) := by
  unfold taylorGreenVelocity
  rw [if_neg (by push Not; exact hs)]
  obtain ⟨mu, hmu, hmud⟩ := mesh_ok (taylorGreenGrid shape) (offsets.getD (taylorGreenGrid shape).cellFaces 0)
  obtain ⟨mv, hmv, hmvd⟩ := mesh_ok (taylorGreenGrid shape) (offsets.getD (taylorGreenGrid shape).cellFaces 1)
  dsimp only
  rw [hmu, Except.bind_ok, hmv, Except.bind_ok]
  refine ⟨_, rfl, fun a => ?_⟩
  fin_cases a
  · refine ⟨rfl, (hmud 0).1, rfl, rfl, fun i hi => ?_⟩
    show Real.exp (-2 * nu * t) * Real.cos (kx * (mu 0).data i) * Real.sin (ky * (mu 1).data i) = _
    rw [(hmud 0).2 i hi, (hmud 1).2 i hi]
    rfl
  · refine ⟨rfl, (hmvd 0).1, rfl, rfl, fun i hi => ?_⟩
    show -Real.exp (-2 * nu * t) * Real.sin (kx * (mv 0).data i) * Real.cos (ky * (mv 1).data i) = _
    rw [(hmvd 0).2 i hi, (hmvd 1).2 i hi]
    rfl

/-- A size 0 is an error. -/
theorem C58_rejects (shape : Fin 2 → ℕ) (h : ∃ a, shape a = 0) (nu kx ky t : ℝ) (offsets : Option (Fin 2 → Fin 2 → ℚ)) :
    taylorGreenVelocity shape nu kx ky t offsets = .error .zeroDivision := if_pos h

/-- The values on the default offsets, as a function of the cell index (also outside the grid). -/
noncomputable def tgCell (n : Fin 2 → ℕ) (kx ky : ℤ) (a : Fin 2) (i j : ℤ) : ℝ :=
  if a = 0 then Real.cos (kx * ((i + 1) * (2 * Real.pi / n 0))) * Real.sin (ky * ((j + 1 / 2) * (2 * Real.pi / n 1)))
  else -(Real.sin (kx * ((i + 1 / 2) * (2 * Real.pi / n 0))) * Real.cos (ky * ((j + 1) * (2 * Real.pi / n 1))))

theorem phase_mod (k : ℤ) (n : ℕ) (hn : n ≠ 0) (i c : ℤ) (o : ℝ) :
    ∃ q : ℤ, (k : ℝ) * ((((i + c) % n : ℤ) + o) * (2 * Real.pi / n)) = k * ((((i + c : ℤ) : ℝ) + o) * (2 * Real.pi / n)) - q * (2 * Real.pi) := by
  refine ⟨k * ((i + c) / n), ?_⟩
  have h : (((i + c) % n : ℤ) : ℝ) = ((i + c : ℤ) : ℝ) - n * ((i + c) / n : ℤ) := by
    rw [Int.emod_def]; push_cast; ring
  have hn' : (n : ℝ) ≠ 0 := by exact_mod_cast hn
  rw [h]
  push_cast
  field_simp
  ring

theorem cos_phase (k : ℤ) (n : ℕ) (hn : n ≠ 0) (i c : ℤ) (o : ℝ) :
    Real.cos (k * ((((i + c) % n : ℤ) + o) * (2 * Real.pi / n))) = Real.cos (k * ((((i + c : ℤ) : ℝ) + o) * (2 * Real.pi / n))) := by
  obtain ⟨q, hq⟩ := phase_mod k n hn i c o
  rw [hq, Real.cos_sub_int_mul_two_pi]

theorem sin_phase (k : ℤ) (n : ℕ) (hn : n ≠ 0) (i c : ℤ) (o : ℝ) :
    Real.sin (k * ((((i + c) % n : ℤ) + o) * (2 * Real.pi / n))) = Real.sin (k * ((((i + c : ℤ) : ℝ) + o) * (2 * Real.pi / n))) := by
  obtain ⟨q, hq⟩ := phase_mod k n hn i c o
  rw [hq, Real.sin_sub_int_mul_two_pi]

theorem tgCell_mod0 {n : Fin 2 → ℕ} (hn : ∀ a, n a ≠ 0) (kx ky : ℤ) (a : Fin 2) (i j c : ℤ) :
    tgCell n kx ky a ((i + c) % n 0) j = tgCell n kx ky a (i + c) j := by
  unfold tgCell
  rw [cos_phase kx _ (hn 0), sin_phase kx _ (hn 0)]

theorem tgCell_mod1 {n : Fin 2 → ℕ} (hn : ∀ a, n a ≠ 0) (kx ky : ℤ) (a : Fin 2) (i j c : ℤ) :
    tgCell n kx ky a i ((j + c) % n 1) = tgCell n kx ky a i (j + c) := by
  unfold tgCell
  rw [cos_phase ky _ (hn 1), sin_phase ky _ (hn 1)]

/-- Backward differences of the two components. -/
theorem tgCell_diff0 (n : Fin 2 → ℕ) (kx ky : ℤ) (i j : ℤ) :
    tgCell n kx ky 0 i j - tgCell n kx ky 0 (i - 1) j = -2 * Real.sin (kx * (Real.pi / n 0)) *
      (Real.sin (kx * ((i + 1 / 2) * (2 * Real.pi / n 0))) * Real.sin (ky * ((j + 1 / 2) * (2 * Real.pi / n 1)))) := by
  have := Real.cos_sub_cos (kx * (((i : ℝ) + 1) * (2 * Real.pi / n 0))) (kx * ((((i - 1 : ℤ) : ℝ) + 1) * (2 * Real.pi / n 0)))
  have e1 : ((kx : ℝ) * (((i : ℝ) + 1) * (2 * Real.pi / n 0)) + kx * ((((i - 1 : ℤ) : ℝ) + 1) * (2 * Real.pi / n 0))) / 2 =
      kx * ((i + 1 / 2) * (2 * Real.pi / n 0)) := by push_cast; ring
  have e2 : ((kx : ℝ) * (((i : ℝ) + 1) * (2 * Real.pi / n 0)) - kx * ((((i - 1 : ℤ) : ℝ) + 1) * (2 * Real.pi / n 0))) / 2 =
      kx * (Real.pi / n 0) := by push_cast; ring
  rw [e1, e2] at this
  simp only [tgCell, if_true]
  rw [← sub_mul, this]
  ring

theorem tgCell_diff1 (n : Fin 2 → ℕ) (kx ky : ℤ) (i j : ℤ) :
    tgCell n kx ky 1 i j - tgCell n kx ky 1 i (j - 1) = 2 * Real.sin (ky * (Real.pi / n 1)) *
      (Real.sin (kx * ((i + 1 / 2) * (2 * Real.pi / n 0))) * Real.sin (ky * ((j + 1 / 2) * (2 * Real.pi / n 1)))) := by
  have := Real.cos_sub_cos (ky * (((j : ℝ) + 1) * (2 * Real.pi / n 1))) (ky * ((((j - 1 : ℤ) : ℝ) + 1) * (2 * Real.pi / n 1)))
  have e1 : ((ky : ℝ) * (((j : ℝ) + 1) * (2 * Real.pi / n 1)) + ky * ((((j - 1 : ℤ) : ℝ) + 1) * (2 * Real.pi / n 1))) / 2 =
      ky * ((j + 1 / 2) * (2 * Real.pi / n 1)) := by push_cast; ring
  have e2 : ((ky : ℝ) * (((j : ℝ) + 1) * (2 * Real.pi / n 1)) - ky * ((((j - 1 : ℤ) : ℝ) + 1) * (2 * Real.pi / n 1))) / 2 =
      ky * (Real.pi / n 1) := by push_cast; ring
  rw [e1, e2] at this
  have hne : (1 : Fin 2) ≠ 0 := by decide
  simp only [tgCell, if_neg hne]
  rw [neg_sub_neg, ← mul_sub, ← neg_sub, this]
  ring

theorem cos_second (p q : ℝ) : Real.cos (p + q) + Real.cos (p - q) - 2 * Real.cos p = -4 * Real.sin (q / 2) ^ 2 * Real.cos p := by
  rw [Real.cos_add, Real.cos_sub, Real.sin_sq_eq_half_sub, show 2 * (q / 2) = q by ring]
  ring

theorem sin_second (p q : ℝ) : Real.sin (p + q) + Real.sin (p - q) - 2 * Real.sin p = -4 * Real.sin (q / 2) ^ 2 * Real.sin p := by
  rw [Real.sin_add, Real.sin_sub, Real.sin_sq_eq_half_sub, show 2 * (q / 2) = q by ring]
  ring

theorem tgCell_second0 (n : Fin 2 → ℕ) (kx ky : ℤ) (a : Fin 2) (i j : ℤ) :
    tgCell n kx ky a (i + 1) j + tgCell n kx ky a (i - 1) j - 2 * tgCell n kx ky a i j =
      -4 * Real.sin (kx * (Real.pi / n 0)) ^ 2 * tgCell n kx ky a i j := by
  have h1 := cos_second (kx * (((i : ℝ) + 1) * (2 * Real.pi / n 0))) (kx * (2 * Real.pi / n 0))
  have h2 := sin_second (kx * (((i : ℝ) + 1 / 2) * (2 * Real.pi / n 0))) (kx * (2 * Real.pi / n 0))
  have e : (kx : ℝ) * (2 * Real.pi / n 0) / 2 = kx * (Real.pi / n 0) := by ring
  rw [e] at h1 h2
  have e1 : ∀ o : ℝ, (kx : ℝ) * ((((i + 1 : ℤ) : ℝ) + o) * (2 * Real.pi / n 0)) = kx * (((i : ℝ) + o) * (2 * Real.pi / n 0)) + kx * (2 * Real.pi / n 0) := by
    intro o; push_cast; ring
  have e2 : ∀ o : ℝ, (kx : ℝ) * ((((i - 1 : ℤ) : ℝ) + o) * (2 * Real.pi / n 0)) = kx * (((i : ℝ) + o) * (2 * Real.pi / n 0)) - kx * (2 * Real.pi / n 0) := by
    intro o; push_cast; ring
  unfold tgCell
  rw [e1, e2, e1, e2]
  split_ifs
  · linear_combination (Real.sin (ky * ((j + 1 / 2) * (2 * Real.pi / n 1)))) * h1
  · linear_combination -(Real.cos (ky * ((j + 1) * (2 * Real.pi / n 1)))) * h2

theorem tgCell_second1 (n : Fin 2 → ℕ) (kx ky : ℤ) (a : Fin 2) (i j : ℤ) :
    tgCell n kx ky a i (j + 1) + tgCell n kx ky a i (j - 1) - 2 * tgCell n kx ky a i j =
      -4 * Real.sin (ky * (Real.pi / n 1)) ^ 2 * tgCell n kx ky a i j := by
  have h1 := cos_second (ky * (((j : ℝ) + 1) * (2 * Real.pi / n 1))) (ky * (2 * Real.pi / n 1))
  have h2 := sin_second (ky * (((j : ℝ) + 1 / 2) * (2 * Real.pi / n 1))) (ky * (2 * Real.pi / n 1))
  have e : (ky : ℝ) * (2 * Real.pi / n 1) / 2 = ky * (Real.pi / n 1) := by ring
  rw [e] at h1 h2
  have e1 : ∀ o : ℝ, (ky : ℝ) * ((((j + 1 : ℤ) : ℝ) + o) * (2 * Real.pi / n 1)) = ky * (((j : ℝ) + o) * (2 * Real.pi / n 1)) + ky * (2 * Real.pi / n 1) := by
    intro o; push_cast; ring
  have e2 : ∀ o : ℝ, (ky : ℝ) * ((((j - 1 : ℤ) : ℝ) + o) * (2 * Real.pi / n 1)) = ky * (((j : ℝ) + o) * (2 * Real.pi / n 1)) - ky * (2 * Real.pi / n 1) := by
    intro o; push_cast; ring
  unfold tgCell
  rw [e1, e2, e1, e2]
  split_ifs
  · linear_combination (Real.cos (kx * ((i + 1) * (2 * Real.pi / n 0)))) * h2
  · linear_combination -(Real.sin (kx * ((i + 1 / 2) * (2 * Real.pi / n 0)))) * h1

theorem tg_cells (shape : Fin 2 → ℕ) (hs : ∀ a, shape a ≠ 0) (nu t : ℝ) (kx ky : ℤ) :
    ∃ v, taylorGreenVelocity shape nu kx ky t none = .ok v ∧ ∀ a, (v a).bc = periodicBC 2 ∧ (v a).array.shape = shape ∧
      (v a).array.grid = taylorGreenGrid shape ∧ (v a).array.offset = (taylorGreenGrid shape).cellFaces a ∧
      ∀ i, InR shape i → (v a).array.data i = Real.exp (-2 * nu * t) * tgCell shape kx ky a (i 0) (i 1) := by
  obtain ⟨v, hv, h⟩ := C58_values shape hs nu kx ky t none
  refine ⟨v, hv, fun a => ⟨(h a).1, (h a).2.1, (h a).2.2.1, (h a).2.2.2.1, fun i hi => ?_⟩⟩
  rw [(h a).2.2.2.2 i hi]
  have ho := (h a).2.2.2.1
  have hg := (h a).2.2.1
  have hstep : ∀ b, (taylorGreenGrid shape).step b = 2 * Real.pi / shape b := by
    intro b; simp [taylorGreenGrid, Grid.step]
  have hlow : ∀ b, ((taylorGreenGrid shape).domain b).1 = 0 := fun b => rfl
  unfold tgField coord tgCell
  rw [hg, ho, Option.getD_none, cellFaces_apply, cellFaces_apply, hstep, hstep, hlow, hlow]
  fin_cases a
  · simp [mul_assoc]
  · simp [mul_assoc]

/-! ### The exact solution -/

/-- A velocity field, a pressure field and constants that satisfy the incompressible Navier-Stokes equations in two dimensions at every
time and position. -/
def SolvesNavierStokes (rho nu : ℝ) (u v p : ℝ → ℝ → ℝ → ℝ) : Prop :=
  ∀ t x y,
    deriv (fun x => u t x y) x + deriv (fun y => v t x y) y = 0 ∧
    deriv (fun t => u t x y) t + u t x y * deriv (fun x => u t x y) x + v t x y * deriv (fun y => u t x y) y =
      -(deriv (fun x => p t x y) x / rho) + nu * (deriv (fun x => deriv (fun x => u t x y) x) x + deriv (fun y => deriv (fun y => u t x y) y) y) ∧
    deriv (fun t => v t x y) t + u t x y * deriv (fun x => v t x y) x + v t x y * deriv (fun y => v t x y) y =
      -(deriv (fun y => p t x y) y / rho) + nu * (deriv (fun x => deriv (fun x => v t x y) x) x + deriv (fun y => deriv (fun y => v t x y) y) y)

theorem deriv_cos_lin (c k x : ℝ) : deriv (fun x => c * Real.cos (k * x)) x = -(c * k) * Real.sin (k * x) := by
  have h : HasDerivAt (fun x : ℝ => c * Real.cos (k * x)) (c * (-Real.sin (k * x) * (k * 1))) x :=
    (((hasDerivAt_id x).const_mul k).cos).const_mul c
  rw [h.deriv]; ring

theorem deriv_sin_lin (c k x : ℝ) : deriv (fun x => c * Real.sin (k * x)) x = (c * k) * Real.cos (k * x) := by
  have h : HasDerivAt (fun x : ℝ => c * Real.sin (k * x)) (c * (Real.cos (k * x) * (k * 1))) x :=
    (((hasDerivAt_id x).const_mul k).sin).const_mul c
  rw [h.deriv]; ring

theorem deriv_exp_lin (c k x : ℝ) : deriv (fun x => c * Real.exp (k * x)) x = (c * k) * Real.exp (k * x) := by
  have h : HasDerivAt (fun x : ℝ => c * Real.exp (k * x)) (c * (Real.exp (k * x) * (k * 1))) x :=
    (((hasDerivAt_id x).const_mul k).exp).const_mul c
  rw [h.deriv]; ring

/-- **C58.** For `kx = ky = k` with `k² = 1` (the default) the field that `velocity` samples (`C58_values`) is an exact solution of the
Navier-Stokes equations with the given viscosity, for every density, with pressure `-(ρ/4) exp(-4 ν t) (cos 2kx + cos 2ky)`. -/
theorem C58_exact_solution (rho nu k : ℝ) (hrho : rho ≠ 0) (hk : k ^ 2 = 1) :
    SolvesNavierStokes rho nu (fun t => tgField nu k k t 0) (fun t => tgField nu k k t 1)
      (fun t x y => -(rho / 4) * Real.exp (-4 * nu * t) * (Real.cos (2 * k * x) + Real.cos (2 * k * y))) := by
  intro t x y
  have hne : (1 : Fin 2) ≠ 0 := by decide
  have hu : ∀ t x y, tgField nu k k t 0 x y = Real.exp (-2 * nu * t) * Real.cos (k * x) * Real.sin (k * y) := fun _ _ _ => by
    simp [tgField]
  have hv : ∀ t x y, tgField nu k k t 1 x y = -Real.exp (-2 * nu * t) * Real.sin (k * x) * Real.cos (k * y) := fun _ _ _ => by
    simp [tgField]
  have ux : ∀ t x y, deriv (fun x => tgField nu k k t 0 x y) x = -(Real.exp (-2 * nu * t) * Real.sin (k * y) * k) * Real.sin (k * x) := by
    intro t x y
    rw [show (fun x => tgField nu k k t 0 x y) = fun x => (Real.exp (-2 * nu * t) * Real.sin (k * y)) * Real.cos (k * x) by
      funext x; rw [hu]; ring, deriv_cos_lin]
  have uxx : deriv (fun x => deriv (fun x => tgField nu k k t 0 x y) x) x = -(k ^ 2) * tgField nu k k t 0 x y := by
    rw [show (fun x => deriv (fun x => tgField nu k k t 0 x y) x) = fun x => -(Real.exp (-2 * nu * t) * Real.sin (k * y) * k) * Real.sin (k * x) from
      funext fun x => ux t x y, deriv_sin_lin, hu]
    ring
  have uy : ∀ t x y, deriv (fun y => tgField nu k k t 0 x y) y = (Real.exp (-2 * nu * t) * Real.cos (k * x) * k) * Real.cos (k * y) := by
    intro t x y
    rw [show (fun y => tgField nu k k t 0 x y) = fun y => (Real.exp (-2 * nu * t) * Real.cos (k * x)) * Real.sin (k * y) by
      funext x; rw [hu], deriv_sin_lin]
  have uyy : deriv (fun y => deriv (fun y => tgField nu k k t 0 x y) y) y = -(k ^ 2) * tgField nu k k t 0 x y := by
    rw [show (fun y => deriv (fun y => tgField nu k k t 0 x y) y) = fun y => (Real.exp (-2 * nu * t) * Real.cos (k * x) * k) * Real.cos (k * y) from
      funext fun y => uy t x y, deriv_cos_lin, hu]
    ring
  have ut : deriv (fun t => tgField nu k k t 0 x y) t = -2 * nu * tgField nu k k t 0 x y := by
    rw [show (fun t => tgField nu k k t 0 x y) = fun t => (Real.cos (k * x) * Real.sin (k * y)) * Real.exp ((-2 * nu) * t) by
      funext t; rw [hu]; ring, deriv_exp_lin, hu]
    ring
  have vx : ∀ t x y, deriv (fun x => tgField nu k k t 1 x y) x = (-Real.exp (-2 * nu * t) * Real.cos (k * y) * k) * Real.cos (k * x) := by
    intro t x y
    rw [show (fun x => tgField nu k k t 1 x y) = fun x => (-Real.exp (-2 * nu * t) * Real.cos (k * y)) * Real.sin (k * x) by
      funext x; rw [hv]; ring, deriv_sin_lin]
  have vxx : deriv (fun x => deriv (fun x => tgField nu k k t 1 x y) x) x = -(k ^ 2) * tgField nu k k t 1 x y := by
    rw [show (fun x => deriv (fun x => tgField nu k k t 1 x y) x) = fun x => (-Real.exp (-2 * nu * t) * Real.cos (k * y) * k) * Real.cos (k * x) from
      funext fun x => vx t x y, deriv_cos_lin, hv]
    ring
  have vy : ∀ t x y, deriv (fun y => tgField nu k k t 1 x y) y = -(-Real.exp (-2 * nu * t) * Real.sin (k * x) * k) * Real.sin (k * y) := by
    intro t x y
    rw [show (fun y => tgField nu k k t 1 x y) = fun y => (-Real.exp (-2 * nu * t) * Real.sin (k * x)) * Real.cos (k * y) by
      funext x; rw [hv], deriv_cos_lin]
  have vyy : deriv (fun y => deriv (fun y => tgField nu k k t 1 x y) y) y = -(k ^ 2) * tgField nu k k t 1 x y := by
    rw [show (fun y => deriv (fun y => tgField nu k k t 1 x y) y) = fun y => -(-Real.exp (-2 * nu * t) * Real.sin (k * x) * k) * Real.sin (k * y) from
      funext fun y => vy t x y, deriv_sin_lin, hv]
    ring
  have vt : deriv (fun t => tgField nu k k t 1 x y) t = -2 * nu * tgField nu k k t 1 x y := by
    rw [show (fun t => tgField nu k k t 1 x y) = fun t => -(Real.sin (k * x) * Real.cos (k * y)) * Real.exp ((-2 * nu) * t) by
      funext t; rw [hv]; ring, deriv_exp_lin, hv]
    ring
  have hE : Real.exp (-4 * nu * t) = Real.exp (-2 * nu * t) ^ 2 := by
    rw [← Real.exp_nat_mul]; congr 1; push_cast; ring
  have px : deriv (fun x => -(rho / 4) * Real.exp (-4 * nu * t) * (Real.cos (2 * k * x) + Real.cos (2 * k * y))) x =
      rho * k * Real.exp (-2 * nu * t) ^ 2 * (Real.sin (k * x) * Real.cos (k * x)) := by
    rw [show (fun x => -(rho / 4) * Real.exp (-4 * nu * t) * (Real.cos (2 * k * x) + Real.cos (2 * k * y))) =
      fun x => (-(rho / 4) * Real.exp (-4 * nu * t)) * Real.cos ((2 * k) * x) + (-(rho / 4) * Real.exp (-4 * nu * t) * Real.cos (2 * k * y)) by
        funext x; ring, deriv_add_const, deriv_cos_lin, hE, show 2 * k * x = 2 * (k * x) by ring, Real.sin_two_mul]
    ring
  have py : deriv (fun y => -(rho / 4) * Real.exp (-4 * nu * t) * (Real.cos (2 * k * x) + Real.cos (2 * k * y))) y =
      rho * k * Real.exp (-2 * nu * t) ^ 2 * (Real.sin (k * y) * Real.cos (k * y)) := by
    rw [show (fun y => -(rho / 4) * Real.exp (-4 * nu * t) * (Real.cos (2 * k * x) + Real.cos (2 * k * y))) =
      fun y => (-(rho / 4) * Real.exp (-4 * nu * t)) * Real.cos ((2 * k) * y) + (-(rho / 4) * Real.exp (-4 * nu * t) * Real.cos (2 * k * x)) by
        funext x; ring, deriv_add_const, deriv_cos_lin, hE, show 2 * k * y = 2 * (k * y) by ring, Real.sin_two_mul]
    ring
  have hx := Real.sin_sq_add_cos_sq (k * x)
  have hy := Real.sin_sq_add_cos_sq (k * y)
  refine ⟨?_, ?_, ?_⟩
  · beta_reduce
    rw [ux, vy]; ring
  · beta_reduce
    rw [ut, ux, uy, px, uxx, uyy, hu, hv, hk]
    have hdiv : rho * k * Real.exp (-2 * nu * t) ^ 2 * (Real.sin (k * x) * Real.cos (k * x)) / rho =
        k * Real.exp (-2 * nu * t) ^ 2 * (Real.sin (k * x) * Real.cos (k * x)) := by
      rw [mul_assoc rho, mul_assoc rho, mul_div_cancel_left₀ _ hrho]
    rw [hdiv]
    linear_combination -(k * Real.exp (-2 * nu * t) ^ 2 * Real.cos (k * x) * Real.sin (k * x)) * hy
  · beta_reduce
    rw [vt, vx, vy, py, vxx, vyy, hu, hv, hk]
    have hdiv : rho * k * Real.exp (-2 * nu * t) ^ 2 * (Real.sin (k * y) * Real.cos (k * y)) / rho =
        k * Real.exp (-2 * nu * t) ^ 2 * (Real.sin (k * y) * Real.cos (k * y)) := by
      rw [mul_assoc rho, mul_assoc rho, mul_div_cancel_left₀ _ hrho]
    rw [hdiv]
    linear_combination -(k * Real.exp (-2 * nu * t) ^ 2 * Real.cos (k * y) * Real.sin (k * y)) * hx

/-! ### The discrete field -/

variable [HasNan ℝ]

/-- **C58.** With integer wavenumbers the discrete divergence of the Taylor-Green velocity is
`2 exp(-2 ν t) sin(kx x) sin(ky y) (sin(ky π / N_y) / h_y - sin(kx π / N_x) / h_x)`; in particular the field is discretely divergence
free when `kx = ky` and the grid is square. -/
theorem C58_divergence (shape : Fin 2 → ℕ) (hs : ∀ a, shape a ≠ 0) (nu t : ℝ) (kx ky : ℤ) :
    ∃ v r, taylorGreenVelocity shape nu kx ky t none = .ok v ∧ divergence (List.ofFn v) = .ok r ∧ r.shape = shape ∧
      ∀ i, InR shape i → r.data i = 2 * Real.exp (-2 * nu * t) *
        (Real.sin (kx * coord r 0 i) * Real.sin (ky * coord r 1 i)) *
        (Real.sin (ky * (Real.pi / shape 1)) / r.grid.step 1 - Real.sin (kx * (Real.pi / shape 0)) / r.grid.step 0) := by
  obtain ⟨v, hv, h⟩ := tg_cells shape hs nu t kx ky
  have hff : FaceField (taylorGreenGrid shape) fun a => (v a).array := fun a =>
    ⟨(h a).2.2.1, (h a).2.1, fun b => by rw [(h a).2.2.2.1, cellFaces_apply]⟩
  have hdiv := hff.divergence (by decide) (fun a => Nat.pos_of_ne_zero (hs a))
  have hvv : (fun a => (⟨(v a).array, periodicBC 2⟩ : GridVariable 2 ℝ)) = v := by
    funext a
    rw [← (h a).1]
  rw [hvv] at hdiv
  refine ⟨v, _, hv, hdiv, rfl, fun i hi => ?_⟩
  have hd0 : ∀ a : Fin 2, InR shape (rollIdx shape a (-1) i) := fun a => rollIdx_inR hi _ _
  have hstep : ∀ b, (taylorGreenGrid shape).step b = 2 * Real.pi / shape b := by
    intro b; simp [taylorGreenGrid, Grid.step]
  have hlow : ∀ b, ((taylorGreenGrid shape).domain b).1 = 0 := fun b => rfl
  show (∑ a : Fin 2, ((v a).array.data i - (v a).array.data (rollIdx shape a (-1) i)) / (taylorGreenGrid shape).step a) = _
  rw [Fin.sum_univ_two, (h 0).2.2.2.2 i hi, (h 1).2.2.2.2 i hi, (h 0).2.2.2.2 _ (hd0 0), (h 1).2.2.2.2 _ (hd0 1)]
  have e0 : tgCell shape kx ky 0 (rollIdx shape 0 (-1) i 0) (rollIdx shape 0 (-1) i 1) = tgCell shape kx ky 0 (i 0 - 1) (i 1) :=
    tgCell_mod0 hs kx ky 0 (i 0) (i 1) (-1)
  have e1 : tgCell shape kx ky 1 (rollIdx shape 1 (-1) i 0) (rollIdx shape 1 (-1) i 1) = tgCell shape kx ky 1 (i 0) (i 1 - 1) :=
    tgCell_mod1 hs kx ky 1 (i 0) (i 1) (-1)
  rw [e0, e1, ← mul_sub, ← mul_sub, tgCell_diff0, tgCell_diff1]
  unfold coord
  dsimp only
  rw [hlow, hlow, hstep, hstep]
  push_cast
  simp only [zero_add]
  ring

/-- **C58.** Divergence free for equal integer wavenumbers on a square grid. -/
theorem C58_divergence_free (n : ℕ) (hn : n ≠ 0) (nu t : ℝ) (k : ℤ) :
    ∃ v r, taylorGreenVelocity (fun _ => n) nu k k t none = .ok v ∧ divergence (List.ofFn v) = .ok r ∧
      ∀ i, InR (fun _ => n) i → r.data i = 0 := by
  obtain ⟨v, r, hv, hr, hsh, hd⟩ := C58_divergence (fun _ => n) (fun _ => hn) nu t k k
  refine ⟨v, r, hv, hr, fun i hi => ?_⟩
  have hstep : r.grid.step 1 = r.grid.step 0 := by
    obtain ⟨v', hv', h⟩ := C58_values (fun _ => n) (fun _ => hn) nu k k t none
    rw [hv] at hv'
    injection hv' with hv'
    subst hv'
    have hp : ∀ a, (v a).Periodic := fun a => ⟨fun b => by rw [(h a).1]; rfl, fun b => by
      rw [(h a).2.1, (h a).2.2.1]
      exact ⟨rfl, Nat.pos_of_ne_zero hn⟩⟩
    have := ((divergence_periodic hp).1 hr).2.1 0
    rw [← this.2.2, (h 0).2.2.1]
    rfl
  rw [hd i hi, hstep, sub_self, mul_zero]

/-- **C58.** Each component is an eigenvector of the discrete Laplacian, so on a given grid explicit or implicit diffusion damps it by a
factor independent of position. -/
theorem C58_laplacian (shape : Fin 2 → ℕ) (hs : ∀ a, shape a ≠ 0) (nu t : ℝ) (kx ky : ℤ) :
    ∃ v, taylorGreenVelocity shape nu kx ky t none = .ok v ∧ ∀ a, ∃ l, laplacian (v a) = .ok l ∧ l.shape = shape ∧
      ∀ i, InR shape i → l.data i = -4 * ((Real.sin (kx * (Real.pi / shape 0)) / l.grid.step 0) ^ 2 +
        (Real.sin (ky * (Real.pi / shape 1)) / l.grid.step 1) ^ 2) * (v a).array.data i := by
  obtain ⟨v, hv, h⟩ := tg_cells shape hs nu t kx ky
  refine ⟨v, hv, fun a => ?_⟩
  have hp : (v a).Periodic := ⟨fun b => by rw [(h a).1]; rfl, fun b => by
    rw [(h a).2.1, (h a).2.2.1]
    exact ⟨rfl, Nat.pos_of_ne_zero (hs b)⟩⟩
  refine ⟨_, laplacian_periodic hp, (h a).2.1, fun i hi => ?_⟩
  have hr : ∀ (b : Fin 2) (c : ℤ), InR shape (rollIdx shape b c i) := fun b c => rollIdx_inR hi _ _
  show (∑ b : Fin 2, ((v a).array.data (rollIdx (v a).array.shape b 1 i) + (v a).array.data (rollIdx (v a).array.shape b (-1) i) -
        2 * (v a).array.data i) / (v a).array.grid.step b ^ 2) = _
  rw [Fin.sum_univ_two, (h a).2.1, (h a).2.2.2.2 i hi, (h a).2.2.2.2 _ (hr 0 1), (h a).2.2.2.2 _ (hr 0 (-1)),
    (h a).2.2.2.2 _ (hr 1 1), (h a).2.2.2.2 _ (hr 1 (-1))]
  have e0 : ∀ c : ℤ, tgCell shape kx ky a (rollIdx shape 0 c i 0) (rollIdx shape 0 c i 1) = tgCell shape kx ky a (i 0 + c) (i 1) :=
    fun c => tgCell_mod0 hs kx ky a (i 0) (i 1) c
  have e1 : ∀ c : ℤ, tgCell shape kx ky a (rollIdx shape 1 c i 0) (rollIdx shape 1 c i 1) = tgCell shape kx ky a (i 0) (i 1 + c) :=
    fun c => tgCell_mod1 hs kx ky a (i 0) (i 1) c
  rw [e0, e0, e1, e1]
  have s0 := tgCell_second0 shape kx ky a (i 0) (i 1)
  have s1 := tgCell_second1 shape kx ky a (i 0) (i 1)
  rw [sub_eq_add_neg (i 0)] at s0
  rw [sub_eq_add_neg (i 1)] at s1
  show _ = -4 * ((_ / (v a).array.grid.step 0) ^ 2 + (_ / (v a).array.grid.step 1) ^ 2) * _
  rw [div_pow, div_pow]
  linear_combination (Real.exp (-2 * nu * t) / (v a).array.grid.step 0 ^ 2) * s0 + (Real.exp (-2 * nu * t) / (v a).array.grid.step 1 ^ 2) * s1

/-! ### The forcing -/

theorem taylorGreen2_ok (g : Grid 2 ℝ) (hs : ∀ a, g.shape a ≠ 0) (scale : ℝ) (k : ℤ) :
    ∃ F, taylorGreenForcing g scale k = .ok F ∧ ∃ f, (∀ v, F v = .ok f) ∧ FaceField g f ∧ ∀ a i, InR g.shape i →
      (f a).data i = scale * tgCell g.shape k k a (i 0) (i 1) := by
  have hsh : (![g.shape 0, g.shape 1] : Fin 2 → ℕ) = g.shape := by
    funext a; fin_cases a <;> rfl
  obtain ⟨v, hv, h⟩ := tg_cells g.shape hs 0 0 k k
  unfold taylorGreenForcing
  dsimp only
  rw [hsh, hv, Except.bind_ok]
  refine ⟨_, rfl, _, fun v => rfl, fun a => ⟨rfl, (h a).2.1, fun b => ?_⟩, fun a i hi => ?_⟩
  · show (v a).array.offset b = _
    rw [(h a).2.2.2.1, cellFaces_apply]
  · show (v a).array.data i * scale = _
    rw [(h a).2.2.2.2 i hi]
    simp [mul_comm]

theorem taylorGreen3_ok (g : Grid 3 ℝ) (hs : ∀ a, g.shape a ≠ 0) (scale : ℝ) (k : ℤ) :
    ∃ F, taylorGreenForcing g scale k = .ok F ∧ ∃ f, (∀ v, F v = .ok f) ∧ FaceField g f ∧
      (∀ (a : Fin 2) i, InR g.shape i → (f a.castSucc).data i = scale * tgCell ![g.shape 0, g.shape 1] k k a (i 0) (i 1)) ∧
      ∀ i, (f 2).data i = 0 := by
  obtain ⟨v, hv, h⟩ := tg_cells ![g.shape 0, g.shape 1] (fun a => by fin_cases a; exacts [hs 0, hs 1]) 0 0 k k
  unfold taylorGreenForcing
  dsimp only
  rw [hv, Except.bind_ok]
  refine ⟨_, rfl, _, fun v => rfl, fun a => ⟨?_, ?_, fun b => ?_⟩, fun a i hi => ?_, fun i => rfl⟩
  · fin_cases a <;> rfl
  · fin_cases a <;> rfl
  · fin_cases a <;> fin_cases b <;> simp
  · have hi' : InR (![g.shape 0, g.shape 1] : Fin 2 → ℕ) ![i 0, i 1] := fun b => by
      fin_cases b
      · exact hi 0
      · exact hi 1
    fin_cases a
    · show (v 0).array.data ![i 0, i 1] * scale = _
      rw [(h 0).2.2.2.2 _ hi']
      simp [mul_comm]
    · show (v 1).array.data ![i 0, i 1] * scale = _
      rw [(h 1).2.2.2.2 _ hi']
      simp [mul_comm]

/-- **C49.** `taylor_green_forcing` in two dimensions: the vortices `scale cos(kX) sin(kY)`, `-scale sin(kX) cos(kY)` with coordinates
`X, Y` that map the grid onto `[0, 2π]²`, on the faces of the grid, whatever the velocity. -/
theorem C49_taylor_green (g : Grid 2 ℝ) (hs : ∀ a, g.shape a ≠ 0) (scale : ℝ) (k : ℤ) :
    ∃ F, taylorGreenForcing g scale k = .ok F ∧ ∃ f, (∀ v, F v = .ok f) ∧ FaceField g f ∧ ∀ i, InR g.shape i →
      (f 0).data i = scale * (Real.cos (k * ((i 0 + 1) * (2 * Real.pi / g.shape 0))) * Real.sin (k * ((i 1 + 1 / 2) * (2 * Real.pi / g.shape 1)))) ∧
      (f 1).data i = -(scale * (Real.sin (k * ((i 0 + 1 / 2) * (2 * Real.pi / g.shape 0))) * Real.cos (k * ((i 1 + 1) * (2 * Real.pi / g.shape 1))))) := by
  obtain ⟨F, hF, f, hf, hff, hd⟩ := taylorGreen2_ok g hs scale k
  refine ⟨F, hF, f, hf, hff, fun i hi => ⟨?_, ?_⟩⟩
  · rw [hd 0 i hi]; simp [tgCell]
  · rw [hd 1 i hi]; simp [tgCell]

/-- **C49.** In three dimensions the same field is repeated along the last axis and the third component vanishes. -/
theorem C49_taylor_green_3d (g : Grid 3 ℝ) (hs : ∀ a, g.shape a ≠ 0) (scale : ℝ) (k : ℤ) :
    ∃ F, taylorGreenForcing g scale k = .ok F ∧ ∃ f, (∀ v, F v = .ok f) ∧ FaceField g f ∧ ∀ i, InR g.shape i →
      (f 0).data i = scale * (Real.cos (k * ((i 0 + 1) * (2 * Real.pi / g.shape 0))) * Real.sin (k * ((i 1 + 1 / 2) * (2 * Real.pi / g.shape 1)))) ∧
      (f 1).data i = -(scale * (Real.sin (k * ((i 0 + 1 / 2) * (2 * Real.pi / g.shape 0))) * Real.cos (k * ((i 1 + 1) * (2 * Real.pi / g.shape 1))))) ∧
      (f 2).data i = 0 := by
  obtain ⟨F, hF, f, hf, hff, hd, hz⟩ := taylorGreen3_ok g hs scale k
  refine ⟨F, hF, f, hf, hff, fun i hi => ⟨?_, ?_, hz i⟩⟩
  · have := hd 0 i hi
    simpa [tgCell] using this
  · have := hd 1 i hi
    simpa [tgCell] using this

/-- **C49.** The Taylor-Green forcing is discretely divergence free if the first two axes have the same number of cells and the same
step. -/
theorem C49_taylor_green_divergence_free (g : Grid 2 ℝ) (hs : ∀ a, g.shape a ≠ 0) (scale : ℝ) (k : ℤ) (hn : g.shape 0 = g.shape 1)
    (hh : g.step 0 = g.step 1) (v : Fin 2 → GridVariable 2 ℝ) :
    ∃ F f, taylorGreenForcing g scale k = .ok F ∧ F v = .ok f ∧ DivergenceFree g fun a => (⟨f a, periodicBC 2⟩ : GridVariable 2 ℝ) := by
  obtain ⟨F, hF, f, hf, hff, hd⟩ := taylorGreen2_ok g hs scale k
  refine ⟨F, f, hF, hf v, _, hff.divergence (by decide) (fun a => Nat.pos_of_ne_zero (hs a)), fun i hi => ?_⟩
  show (∑ a : Fin 2, ((f a).data i - (f a).data (rollIdx g.shape a (-1) i)) / g.step a) = 0
  have hr : ∀ a, InR g.shape (rollIdx g.shape a (-1) i) := fun a => rollIdx_inR hi _ _
  rw [Fin.sum_univ_two, hd 0 i hi, hd 1 i hi, hd 0 _ (hr 0), hd 1 _ (hr 1)]
  have e0 : tgCell g.shape k k 0 (rollIdx g.shape 0 (-1) i 0) (rollIdx g.shape 0 (-1) i 1) = tgCell g.shape k k 0 (i 0 - 1) (i 1) :=
    tgCell_mod0 hs k k 0 (i 0) (i 1) (-1)
  have e1 : tgCell g.shape k k 1 (rollIdx g.shape 1 (-1) i 0) (rollIdx g.shape 1 (-1) i 1) = tgCell g.shape k k 1 (i 0) (i 1 - 1) :=
    tgCell_mod1 hs k k 1 (i 0) (i 1) (-1)
  rw [e0, e1, ← mul_sub, ← mul_sub, tgCell_diff0, tgCell_diff1, hh, hn]
  ring

/-- **C49.** The same in three dimensions. -/
theorem C49_taylor_green_divergence_free_3d (g : Grid 3 ℝ) (hs : ∀ a, g.shape a ≠ 0) (scale : ℝ) (k : ℤ) (hn : g.shape 0 = g.shape 1)
    (hh : g.step 0 = g.step 1) (v : Fin 3 → GridVariable 3 ℝ) :
    ∃ F f, taylorGreenForcing g scale k = .ok F ∧ F v = .ok f ∧ DivergenceFree g fun a => (⟨f a, periodicBC 3⟩ : GridVariable 3 ℝ) := by
  obtain ⟨F, hF, f, hf, hff, hd, hz⟩ := taylorGreen3_ok g hs scale k
  refine ⟨F, f, hF, hf v, _, hff.divergence (by decide) (fun a => Nat.pos_of_ne_zero (hs a)), fun i hi => ?_⟩
  show (∑ a : Fin 3, ((f a).data i - (f a).data (rollIdx g.shape a (-1) i)) / g.step a) = 0
  have hr : ∀ a, InR g.shape (rollIdx g.shape a (-1) i) := fun a => rollIdx_inR hi _ _
  have hs2 : ∀ a, (![g.shape 0, g.shape 1] : Fin 2 → ℕ) a ≠ 0 := fun a => by fin_cases a; exacts [hs 0, hs 1]
  have d0 : ∀ i, InR g.shape i → (f 0).data i = scale * tgCell ![g.shape 0, g.shape 1] k k 0 (i 0) (i 1) := hd 0
  have d1 : ∀ i, InR g.shape i → (f 1).data i = scale * tgCell ![g.shape 0, g.shape 1] k k 1 (i 0) (i 1) := hd 1
  rw [Fin.sum_univ_three, d0 i hi, d1 i hi, d0 _ (hr 0), d1 _ (hr 1), hz, hz]
  have e0 : tgCell ![g.shape 0, g.shape 1] k k 0 (rollIdx g.shape 0 (-1) i 0) (rollIdx g.shape 0 (-1) i 1) =
      tgCell ![g.shape 0, g.shape 1] k k 0 (i 0 - 1) (i 1) := tgCell_mod0 hs2 k k 0 (i 0) (i 1) (-1)
  have e1 : tgCell ![g.shape 0, g.shape 1] k k 1 (rollIdx g.shape 1 (-1) i 0) (rollIdx g.shape 1 (-1) i 1) =
      tgCell ![g.shape 0, g.shape 1] k k 1 (i 0) (i 1 - 1) := tgCell_mod1 hs2 k k 1 (i 0) (i 1) (-1)
  rw [e0, e1, ← mul_sub, ← mul_sub, tgCell_diff0, tgCell_diff1, hh]
  simp only [Matrix.cons_val_zero, Matrix.cons_val_one, hn]
  ring

/-- **C49.** On grids with other shapes the Taylor-Green forcing is not divergence free: with 4 by 2 unit cells the divergence in the
first cell is `2 sin(π/4) (1 - sin(π/4)) ≠ 0`. -/
theorem C49_taylor_green_defect (v : Fin 2 → GridVariable 2 ℝ) :
    ∃ F f, taylorGreenForcing (⟨![4, 2], ![(0, 4), (0, 2)]⟩ : Grid 2 ℝ) 1 (1 : ℤ) = .ok F ∧ F v = .ok f ∧
      ¬ DivergenceFree (⟨![4, 2], ![(0, 4), (0, 2)]⟩ : Grid 2 ℝ) fun a => (⟨f a, periodicBC 2⟩ : GridVariable 2 ℝ) := by
  have hs : ∀ a, (⟨![4, 2], ![(0, 4), (0, 2)]⟩ : Grid 2 ℝ).shape a ≠ 0 := fun a => by fin_cases a <;> simp
  obtain ⟨F, hF, f, hf, hff, hd⟩ := taylorGreen2_ok (⟨![4, 2], ![(0, 4), (0, 2)]⟩ : Grid 2 ℝ) hs 1 1
  refine ⟨F, f, hF, hf v, ?_⟩
  rintro ⟨D, hD, h0⟩
  rw [hff.divergence (by decide) (fun a => Nat.pos_of_ne_zero (hs a))] at hD
  injection hD with hD
  subst hD
  have hi : InR (⟨![4, 2], ![(0, 4), (0, 2)]⟩ : Grid 2 ℝ).shape (fun _ => 0) := fun a => by fin_cases a <;> simp
  have := h0 (fun _ => 0) hi
  have hr : ∀ a, InR (⟨![4, 2], ![(0, 4), (0, 2)]⟩ : Grid 2 ℝ).shape (rollIdx ![4, 2] a (-1) (fun _ => 0)) := fun a => rollIdx_inR hi _ _
  change (∑ a : Fin 2, ((f a).data (fun _ => 0) - (f a).data (rollIdx ![4, 2] a (-1) (fun _ => 0))) /
    (⟨![4, 2], ![(0, 4), (0, 2)]⟩ : Grid 2 ℝ).step a) = 0 at this
  rw [Fin.sum_univ_two, hd 0 _ hi, hd 1 _ hi, hd 0 _ (hr 0), hd 1 _ (hr 1)] at this
  have e0 : tgCell ![4, 2] 1 1 0 (rollIdx ![4, 2] 0 (-1) (fun _ => 0) 0) (rollIdx ![4, 2] 0 (-1) (fun _ => 0) 1) =
      tgCell ![4, 2] 1 1 0 (0 - 1) 0 := tgCell_mod0 hs 1 1 0 0 0 (-1)
  have e1 : tgCell ![4, 2] 1 1 1 (rollIdx ![4, 2] 1 (-1) (fun _ => 0) 0) (rollIdx ![4, 2] 1 (-1) (fun _ => 0) 1) =
      tgCell ![4, 2] 1 1 1 0 (0 - 1) := tgCell_mod1 hs 1 1 1 0 0 (-1)
  rw [e0, e1, ← mul_sub, ← mul_sub, tgCell_diff0, tgCell_diff1] at this
  have h1 : Real.sin (Real.pi / 4) = Real.sqrt 2 / 2 := Real.sin_pi_div_four
  have e2 : (1 / 2 : ℝ) * (2 * Real.pi / 4) = Real.pi / 4 := by ring
  simp [Grid.step, h1] at this
  norm_num at this
  rw [e2, show (1 / 2 : ℝ) * Real.pi = Real.pi / 2 by ring, h1, Real.sin_pi_div_two] at this
  have h2 : Real.sqrt 2 ^ 2 = 2 := Real.sq_sqrt (by norm_num)
  have h3 : Real.sqrt 2 = 2 := by nlinarith
  rw [h3] at h2
  norm_num at h2

/-- **C49.** Other ranks are rejected. -/
theorem C49_taylor_green_rank {d : ℕ} (g : Grid d ℝ) (hs : ∀ a, g.shape a ≠ 0) (scale : ℝ) (k : ℤ) (h : d ≠ 2) (h' : d ≠ 3) :
    taylorGreenForcing g scale k = .error (if d < 2 then .value else .notImplemented) := by
  match d, g with
  | 0, g => rfl
  | 1, g => rfl
  | 2, g => exact absurd rfl h
  | 3, g => exact absurd rfl h'
  | n + 4, g =>
    obtain ⟨v, hv, -⟩ := tg_cells ![g.shape 0, g.shape 1] (fun a => by fin_cases a; exacts [hs 0, hs 1]) 0 0 k k
    unfold taylorGreenForcing
    dsimp only
    rw [hv, if_neg (by omega)]
    rfl

/-- **C49.** `simple_turbulence_forcing` is the sum of the linear forcing and the named constant forcing ... -/
theorem C49_simple_turbulence {d : ℕ} (g : Grid d ℝ) (magnitude wavenumber c : ℝ) (name : String) (F : ForcingFn d)
    (hF : (name = "kolmogorov" ∧ kolmogorovForcing g magnitude wavenumber = .ok F) ∨
      (name = "taylor_green" ∧ taylorGreenForcing g magnitude wavenumber = .ok F))
    (v : Fin d → GridVariable d ℝ) (f : Fin d → GridArray d ℝ) (hf : F v = .ok f)
    (hv : ∀ a, (v a).array.offset = (f a).offset ∧ (v a).array.grid = (f a).grid ∧ (v a).array.shape = (f a).shape) :
    ∃ S r, simpleTurbulenceForcing g magnitude wavenumber c name = .ok S ∧ S v = .ok r ∧ ∀ a, (r a).offset = (f a).offset ∧
      (r a).grid = (f a).grid ∧ (r a).shape = (f a).shape ∧ ∀ i, (r a).data i = c * (v a).array.data i + (f a).data i := by
  have hS : simpleTurbulenceForcing g magnitude wavenumber c name = .ok (sumForcings [linearForcing c, F]) := by
    unfold simpleTurbulenceForcing
    rcases hF with ⟨hn, h⟩ | ⟨hn, h⟩
    · rw [if_pos hn, h]; rfl
    · rw [if_neg (by rw [hn]; decide), if_pos hn, h]; rfl
  refine ⟨_, fun a => ⟨⟨(f a).shape, fun i => c * (v a).array.data i + (f a).data i⟩, (f a).offset, (f a).grid⟩, hS, ?_,
    fun a => ⟨rfl, rfl, rfl, fun i => rfl⟩⟩
  refine sumForcings_eq_ok.2 ⟨[fun a => gmap (fun x => c * x) (v a).array, f], ?_, fun a => ?_⟩
  · exact .cons rfl (.cons hf .nil)
  · refine sumField_eq_ok.2 ⟨by simp, fun w hw => ?_, ?_⟩
    · simp only [List.map_cons, List.map_nil, List.mem_cons, List.not_mem_nil, or_false] at hw
      rcases hw with rfl | rfl
      · exact hv a
      · exact ⟨rfl, rfl, rfl⟩
    · funext i
      simp [gmap, NArr.map]

omit [HasNan ℝ] in
/-- **C49.** ... and any other name is a ValueError. -/
theorem C49_simple_turbulence_rejects {d : ℕ} (g : Grid d ℝ) (magnitude wavenumber c : ℝ) (name : String) (h1 : name ≠ "kolmogorov")
    (h2 : name ≠ "taylor_green") : simpleTurbulenceForcing g magnitude wavenumber c name = .error .value := by
  unfold simpleTurbulenceForcing
  rw [if_neg h1, if_neg h2]
  rfl

end JaxCfd
