import Verif.SpecTime
import Verif.Lemmas.TimeStepping
import Mathlib.Algebra.Module.LinearMap.End
import Mathlib.Algebra.Module.LinearMap.Defs
import Mathlib.Tactic.Linarith
import Mathlib.Tactic.LinearCombination
import Mathlib.Tactic.NormNum
import Mathlib.Tactic.FieldSimp
import Mathlib.Data.Rat.Defs
import Mathlib.Algebra.CharZero.Defs
import Mathlib.LinearAlgebra.Prod

/-! # C38: projected Runge-Kutta time steppers -/

namespace JaxCfd

set_option linter.unusedSectionVars false
variable {K V : Type} [Field K] [DecidableEq K] [AddCommGroup V] [Module K V]

/-- entry `a_ij` of the list of rows below the first one -/
abbrev coeffA (a : List (List K)) (i j : ℕ) : K := (a.getD (i - 1) []).getD j 0

/-- entry `b_j` -/
abbrev coeffB (b : List K) (j : ℕ) : K := b.getD j 0

/-- **C38** A step of `navier_stokes_rk` returns `r` exactly if `r` is a step of the textbook projected Runge-Kutta method with
the coefficients of the tableau: for every tableau whose rows are at least as long as their stage number, all (fallible) vector
fields and projections, all step sizes and states.  In particular skipping the zero coefficients is not observable. -/
theorem C38_textbook {a : List (List K)} {b : List K} {t : Tableau K} (ht : mkTableau a b = .ok t)
    (hrows : ∀ i < a.length, i + 1 ≤ (a.getD i []).length) (F P : V → Except Err V) (dt : K) (u0 r : V) :
    navierStokesRK t F P dt u0 = .ok r ↔ Spec.IsProjectedRKStep b.length (coeffA a) (coeffB b) F P dt u0 r := by
  obtain ⟨hl, rfl⟩ := mkTableau_eq_ok.1 ht
  unfold navierStokesRK
  simp only [Except.bind_eq_ok]
  constructor
  · rintro ⟨k0, hk0, ks, hks, s, hs, hr⟩
    obtain ⟨hlen, h0, U, hU⟩ := (rkStages_eq_ok a [k0] ks (by intro i hi; have := hrows i hi; simp only [List.length_cons, List.length_nil]; omega)).1 hks
    simp only [List.length_cons, List.length_nil, Nat.zero_add] at hlen h0 hU
    rw [weightedSum_ok b ks (by omega)] at hs
    have hs := Except.ok.inj hs
    have h00 : ks.getD 0 0 = k0 := by simpa using h0 0 (by omega)
    refine ⟨fun i => if i = 0 then u0 else U (i - 1), fun i => ks.getD i 0, by simp, ?_, ?_, ?_⟩
    · intro i hi
      cases i with
      | zero => show F u0 = .ok (ks.getD 0 0); rw [h00]; exact hk0
      | succ i =>
        have := (hU i (by omega)).2
        simpa [Nat.add_comm] using this
    · intro i hi his
      obtain ⟨i, rfl⟩ : ∃ j, i = j + 1 := ⟨i - 1, by omega⟩
      have := (hU i (by omega)).1
      rw [Nat.add_comm 1 i] at this
      simpa using this
    · rw [← hr, ← hs, hlen, ← hl]
      simp [coeffB, Nat.add_comm]
  · rintro ⟨U, k, hU0, hk, hP, hr⟩
    have hg : ∀ j < b.length, ((List.range b.length).map k).getD j 0 = k j := by
      intro j hj
      rw [List.getD_eq_getElem _ _ (by simpa using hj)]
      simp
    refine ⟨k 0, by rw [← hU0]; exact hk 0 (by omega), (List.range b.length).map k, ?_, _, weightedSum_ok _ _ (by simp), ?_⟩
    · apply (rkStages_eq_ok a [k 0] _ (by intro i hi; have := hrows i hi; simp only [List.length_cons, List.length_nil]; omega)).2
      simp only [List.length_cons, List.length_nil, Nat.zero_add]
      refine ⟨by simp; omega, ?_, fun i => U (i + 1), ?_⟩
      · intro j hj
        obtain rfl : j = 0 := by omega
        rw [hg 0 (by omega)]; rfl
      · intro i hi
        constructor
        · rw [← hP (i + 1) (by omega) (by omega), Nat.add_comm 1 i]
          rw [Finset.sum_congr rfl (g := fun j => coeffA a (i + 1) j • k j) (fun j hj => by
            rw [hg j (by have := Finset.mem_range.1 hj; omega)]
            simp [coeffA])]
        · rw [hg (1 + i) (by omega), Nat.add_comm 1 i]
          exact hk (i + 1) (by omega)
    · rw [← hr, List.length_map, List.length_range]
      rw [Finset.sum_congr rfl (g := fun j => coeffB b j • k j) (fun j hj => by rw [hg j (Finset.mem_range.1 hj)])]

/-- **C38** Tableaux with inconsistent lengths are rejected. -/
theorem C38_inconsistent_tableau (a : List (List K)) (b : List K) :
    (a.length + 1 ≠ b.length → mkTableau a b = .error .value) ∧
      (a.length + 1 = b.length → mkTableau a b = .ok ⟨a, b⟩) := by
  constructor
  · intro h; simp [mkTableau, h]
  · intro h; simp [mkTableau, h]

/-- **C38** With a row that is too short for its stage no step returns a value. -/
theorem C38_short_row {a : List (List K)} {b : List K} {t : Tableau K} (ht : mkTableau a b = .ok t)
    (i : ℕ) (hi : i < a.length) (hrow : (a.getD i []).length < i + 1) (F P : V → Except Err V) (dt : K) (u0 r : V) :
    navierStokesRK t F P dt u0 ≠ .ok r := by
  obtain ⟨hl, rfl⟩ := mkTableau_eq_ok.1 ht
  intro h
  unfold navierStokesRK at h
  simp only [Except.bind_eq_ok] at h
  obtain ⟨k0, hk0, ks, hks, _⟩ := h
  have := (rkStages_length a [k0] ks hks).2 i hi
  simp only [List.length_cons, List.length_nil] at this
  omega

/-- **C38** What a step returns is an output of the projection (for any tableau object): whatever property the projection
establishes holds after every step, and an idempotent projection leaves the result fixed. -/
theorem C38_projected (t : Tableau K) (F P : V → Except Err V) (dt : K) (u0 r : V)
    (h : navierStokesRK t F P dt u0 = .ok r) :
    (∃ x, P x = .ok r) ∧ (∀ good : V → Prop, (∀ x y, P x = .ok y → good y) → good r) ∧
      ((∀ x y, P x = .ok y → P y = .ok y) → P r = .ok r) := by
  unfold navierStokesRK at h
  simp only [Except.bind_eq_ok] at h
  obtain ⟨_, _, _, _, _, _, hr⟩ := h
  exact ⟨⟨_, hr⟩, fun good hg => hg _ _ hr, fun hi => hi _ _ hr⟩

/-- **C38** `forward_euler` is `u ↦ P(u + dt F(u))`. -/
theorem C38_forward_euler (F P : V → Except Err V) (dt : K) (u : V) :
    forwardEuler F P dt u = (do
      let k ← F u
      P (u + dt • k)) := by
  simp [forwardEuler, mkTableau, navierStokesRK, weightedSum_cons, weightedSum_nil, pure, Except.pure, bind, Except.bind]

/-- **C38** `midpoint_rk2` is `u ↦ P(u + dt F(P(u + dt/2 F(u))))`. -/
theorem C38_midpoint (F P : V → Except Err V) (dt : K) (u : V) :
    midpointRK2 F P dt u = (do
      let k1 ← F u
      let u1 ← P (u + (dt / 2) • k1)
      let k2 ← F u1
      P (u + dt • k2)) := by
  simp [midpointRK2, mkTableau, navierStokesRK, rkStage, weightedSum_cons, weightedSum_nil, pure, Except.pure, bind, Except.bind,
    smul_smul, div_eq_mul_inv]
  cases F u with
  | error e => rfl
  | ok k =>
    dsimp only
    cases P (u + (dt * 2⁻¹) • k) with
    | error e => rfl
    | ok u1 =>
      dsimp only
      cases F u1 <;> simp [weightedSum_cons, weightedSum_nil, smul_smul, pure, Except.pure, bind, Except.bind]

/-- **C38** `heun_rk2` averages the slopes at the start and at the projected Euler step. -/
theorem C38_heun (F P : V → Except Err V) (dt : K) (u : V) :
    heunRK2 F P dt u = (do
      let k1 ← F u
      let u1 ← P (u + dt • k1)
      let k2 ← F u1
      P (u + dt • ((1 / 2 : K) • k1 + (1 / 2 : K) • k2))) := by
  simp [heunRK2, mkTableau, navierStokesRK, rkStage, weightedSum_cons, weightedSum_nil, pure, Except.pure, bind, Except.bind]
  cases F u with
  | error e => rfl
  | ok k =>
    dsimp only
    cases P (u + dt • k) with
    | error e => rfl
    | ok u1 =>
      dsimp only
      cases F u1 <;> simp [weightedSum_cons, weightedSum_nil, smul_smul, pure, Except.pure, bind, Except.bind]

/-- **C38** `classic_rk4`: two half steps, one full step, weights 1/6, 1/3, 1/3, 1/6, every stage projected. -/
theorem C38_classic_rk4 (F P : V → Except Err V) (dt : K) (u : V) :
    classicRK4 F P dt u = (do
      let k1 ← F u
      let u1 ← P (u + (dt / 2) • k1)
      let k2 ← F u1
      let u2 ← P (u + (dt / 2) • k2)
      let k3 ← F u2
      let u3 ← P (u + dt • k3)
      let k4 ← F u3
      P (u + dt • ((1 / 6 : K) • k1 + (1 / 3 : K) • k2 + (1 / 3 : K) • k3 + (1 / 6 : K) • k4))) := by
  simp [classicRK4, mkTableau, navierStokesRK, rkStage, weightedSum_cons, weightedSum_nil, pure, Except.pure, bind, Except.bind,
    smul_smul, div_eq_mul_inv]
  cases F u with
  | error e => rfl
  | ok k =>
    dsimp only
    cases P (u + (dt * 2⁻¹) • k) with
    | error e => rfl
    | ok u1 =>
      dsimp only
      cases F u1 with
      | error e => rfl
      | ok k2 =>
        simp [weightedSum_cons, weightedSum_nil, smul_smul, pure, Except.pure, bind, Except.bind]
        cases P (u + (dt * 2⁻¹) • k2) with
        | error e => rfl
        | ok u2 =>
          dsimp only
          cases F u2 with
          | error e => rfl
          | ok k3 =>
            simp [weightedSum_cons, weightedSum_nil, smul_smul, pure, Except.pure, bind, Except.bind]
            cases P (u + dt • k3) with
            | error e => rfl
            | ok u3 =>
              dsimp only
              cases F u3 <;> simp [add_assoc, weightedSum_cons, weightedSum_nil, smul_smul, pure, Except.pure, bind, Except.bind]

/-- **C38** Steady states stay put: if the vector field vanishes at `u` and the projection leaves `u` alone, every scheme with
complete rows returns `u`. -/
theorem C38_steady {a : List (List K)} {b : List K} {t : Tableau K} (ht : mkTableau a b = .ok t)
    (hrows : ∀ i < a.length, i + 1 ≤ (a.getD i []).length) (F P : V → Except Err V) (dt : K) (u : V)
    (hF : F u = .ok 0) (hP : P u = .ok u) : navierStokesRK t F P dt u = .ok u := by
  rw [C38_textbook ht hrows]
  exact ⟨fun _ => u, fun _ => 0, rfl, fun _ _ => hF, fun _ _ _ => by simpa using hP, by simpa using hP⟩

/-- **C38** Linear invariants are conserved: a linear functional which vanishes on the vector field and is preserved by the
projection (such as the total of a component under periodic boundary conditions) has the same value after a step. -/
theorem C38_linear_invariant {a : List (List K)} {b : List K} {t : Tableau K} (ht : mkTableau a b = .ok t)
    (F P : V → Except Err V) (dt : K) (u r : V) (l : V →ₗ[K] K) (hF : ∀ x k, F x = .ok k → l k = 0)
    (hP : ∀ x y, P x = .ok y → l y = l x) (h : navierStokesRK t F P dt u = .ok r) : l r = l u := by
  have hrows : ∀ i < a.length, i + 1 ≤ (a.getD i []).length := by
    intro i hi
    by_contra hc
    exact C38_short_row ht i hi (by omega) F P dt u r h
  obtain ⟨U, k, _, hk, _, hr⟩ := (C38_textbook ht hrows F P dt u r).1 h
  rw [hP _ _ hr, map_add, map_smul, map_sum]
  rw [Finset.sum_eq_zero (fun j hj => by
    rw [map_smul, hF _ _ (hk j (Finset.mem_range.1 hj)), smul_zero])]
  simp

/-- **C38** For a linear vector field and no projection the schemes are the Taylor polynomials of the exponential of degree 1, 2,
2 and 4. -/
theorem C38_linear [CharZero K] (A : V →ₗ[K] V) (dt : K) (u : V) :
    forwardEuler (fun x => .ok (A x)) (fun x => .ok x) dt u = .ok (u + dt • A u) ∧
    midpointRK2 (fun x => .ok (A x)) (fun x => .ok x) dt u = .ok (u + dt • A u + (dt ^ 2 / 2) • A (A u)) ∧
    heunRK2 (fun x => .ok (A x)) (fun x => .ok x) dt u = .ok (u + dt • A u + (dt ^ 2 / 2) • A (A u)) ∧
    classicRK4 (fun x => .ok (A x)) (fun x => .ok x) dt u =
      .ok (u + dt • A u + (dt ^ 2 / 2) • A (A u) + (dt ^ 3 / 6) • A (A (A u)) + (dt ^ 4 / 24) • A (A (A (A u)))) := by
  rw [C38_forward_euler, C38_midpoint, C38_heun, C38_classic_rk4]
  simp only [bind, Except.bind, map_add, map_smul, Except.ok.injEq]
  refine ⟨trivial, ?_, ?_, ?_⟩ <;> module

/-- **C38** Integration of a right-hand side that depends on time only (carried as a first component of the state):
`classic_rk4` integrates cubic polynomials exactly, `midpoint_rk2` and `heun_rk2` linear ones. -/
theorem C38_quadrature [CharZero K] (c0 c1 c2 c3 t y dt : K) :
    (let F : K × K → Except Err (K × K) := fun s => .ok (1, c0 + c1 * s.1 + c2 * s.1 ^ 2 + c3 * s.1 ^ 3)
     let Q : K → K := fun t => c0 * t + c1 * t ^ 2 / 2 + c2 * t ^ 3 / 3 + c3 * t ^ 4 / 4
     classicRK4 F (fun x => .ok x) dt (t, y) = .ok (t + dt, y + (Q (t + dt) - Q t))) ∧
    (let F : K × K → Except Err (K × K) := fun s => .ok (1, c0 + c1 * s.1)
     let Q : K → K := fun t => c0 * t + c1 * t ^ 2 / 2
     midpointRK2 F (fun x => .ok x) dt (t, y) = .ok (t + dt, y + (Q (t + dt) - Q t)) ∧
     heunRK2 F (fun x => .ok x) dt (t, y) = .ok (t + dt, y + (Q (t + dt) - Q t))) := by
  simp only []
  rw [C38_midpoint, C38_heun, C38_classic_rk4]
  simp only [bind, Except.bind, Except.ok.injEq, Prod.mk.injEq, Prod.smul_mk, Prod.mk_add_mk, smul_eq_mul]
  refine ⟨⟨?_, ?_⟩, ⟨?_, ?_⟩, ⟨?_, ?_⟩⟩ <;> field_simp <;> ring

/-! ### Non-vacuity -/

/-- the three eighths rule, with `F u = -u` and the projection onto non-negative numbers -/
example : navierStokesRK (V := ℚ) ⟨[[1 / 3], [-1 / 3, 1], [1, -1, 1]], [1 / 8, 3 / 8, 3 / 8, 1 / 8]⟩ (fun u => .ok (-u))
    (fun u => .ok (max u 0)) (1 / 2 : ℚ) 1 = .ok (233 / 384) := by
  norm_num [navierStokesRK, rkStage, weightedSum, bind, Except.bind, pure, Except.pure, List.foldlM]

example : mkTableau [[1 / 3], [-1 / 3, 1], [1, -1, 1]] [1 / 8, 3 / 8, 3 / 8, 1 / 8] =
    .ok ⟨[[1 / 3], [-1 / 3, 1], [1, -1, (1 : ℚ)]], [1 / 8, 3 / 8, 3 / 8, 1 / 8]⟩ := by
  simp [mkTableau]

/-- the sum of the components is a linear invariant of the nonlinear vector field `(xy, -xy)` -/
example : ∀ x k : ℚ × ℚ, (Except.ok (x.1 * x.2, -(x.1 * x.2)) : Except Err (ℚ × ℚ)) = .ok k →
    (LinearMap.fst ℚ ℚ ℚ + LinearMap.snd ℚ ℚ ℚ) k = 0 := by
  rintro x k h
  have := Except.ok.inj h
  subst this
  simp

/-- a vector field that fails makes the step fail -/
example : classicRK4 (V := ℚ) (fun u => if u < 1 then .ok 1 else .error .value) (fun u => .ok u) (1 : ℚ) 0 = .error .value := by
  rw [C38_classic_rk4]
  norm_num [bind, Except.bind]

end JaxCfd
