import Verif.Props.Advection
import Verif.Props.Grids
import Mathlib.Algebra.BigOperators.Pi
import Mathlib.Algebra.Order.BigOperators.Ring.Finset

/-!
# Property theorems: semi-Lagrangian advection (C32)
-/

set_option linter.unusedSectionVars false

namespace JaxCfd
variable {d : ℕ} {K : Type} [Field K] [LinearOrder K] [IsStrictOrderedRing K] [FloorRing K] [HasNan K]

/-- Specification: multilinear interpolation of periodic data at the (fractional) index position `x`.  Each of the `2^d`
surrounding entries has the product of the distances to the opposite corner as its weight. -/
def multilinear (u : NArr d K) (x : Fin d → K) : K :=
  ∑ b : Fin d → Bool, (∏ a, if b a = true then Int.fract (x a) else 1 - Int.fract (x a)) *
    u.data fun a => (⌊x a⌋ + (if b a = true then 1 else 0)) % (u.shape a : ℤ)

/-- The weights are those of a probability distribution. -/
theorem weights_sum (x : Fin d → K) :
    ∑ b : Fin d → Bool, (∏ a, if b a = true then Int.fract (x a) else 1 - Int.fract (x a)) = 1 := by
  have := (Finset.prod_univ_sum (fun _ : Fin d => (Finset.univ : Finset Bool))
    (fun a (b : Bool) => if b = true then Int.fract (x a) else 1 - Int.fract (x a)))
  rw [Fintype.piFinset_univ] at this
  rw [← this]
  refine Finset.prod_eq_one fun a _ => ?_
  rw [Fintype.sum_bool]
  simp

theorem multilinear_bounds (u : NArr d K) (hs : ∀ a, 0 < u.shape a) (x : Fin d → K) (lo hi : K)
    (hb : ∀ i, InR u.shape i → lo ≤ u.data i ∧ u.data i ≤ hi) : lo ≤ multilinear u x ∧ multilinear u x ≤ hi := by
  have hw : ∀ b : Fin d → Bool, 0 ≤ ∏ a, if b a = true then Int.fract (x a) else 1 - Int.fract (x a) := by
    intro b
    refine Finset.prod_nonneg fun a _ => ?_
    split
    · exact Int.fract_nonneg _
    · have := (Int.fract_lt_one (x a)).le; linarith
  have hin : ∀ b : Fin d → Bool, InR u.shape fun a => (⌊x a⌋ + (if b a = true then 1 else 0)) % (u.shape a : ℤ) := by
    intro b a
    have : (0 : ℤ) < u.shape a := by exact_mod_cast hs a
    exact ⟨Int.emod_nonneg _ this.ne', Int.emod_lt_of_pos _ this⟩
  unfold multilinear
  constructor
  · calc lo = ∑ b : Fin d → Bool, (∏ a, if b a = true then Int.fract (x a) else 1 - Int.fract (x a)) * lo := by
          rw [← Finset.sum_mul, weights_sum, one_mul]
      _ ≤ _ := Finset.sum_le_sum fun b _ => mul_le_mul_of_nonneg_left (hb _ (hin b)).1 (hw b)
  · calc _ ≤ ∑ b : Fin d → Bool, (∏ a, if b a = true then Int.fract (x a) else 1 - Int.fract (x a)) * hi :=
          Finset.sum_le_sum fun b _ => mul_le_mul_of_nonneg_left (hb _ (hin b)).2 (hw b)
      _ = hi := by rw [← Finset.sum_mul, weights_sum, one_mul]

/-- At an integer position the interpolation returns the entry there, taken modulo the size. -/
theorem multilinear_int (u : NArr d K) (k : Fin d → ℤ) :
    multilinear u (fun a => (k a : K)) = u.data fun a => k a % (u.shape a : ℤ) := by
  unfold multilinear
  rw [Finset.sum_eq_single (fun _ => false)]
  · simp
  · intro b _ hb
    obtain ⟨a, ha⟩ : ∃ a, b a = true := by
      by_contra h
      exact hb (funext fun a => by simpa using not_exists.1 h a)
    rw [Finset.prod_eq_zero (Finset.mem_univ a), zero_mul]
    simp [ha]
  · intro h; exact absurd (Finset.mem_univ _) h

theorem mesh_value (g : Grid d K) (o : Fin d → ℚ) :
    ∃ m, g.mesh (some (List.ofFn fun a => (o a : K))) = .ok m ∧ ∀ a, (m a).shape = g.shape ∧
      ∀ i, InR g.shape i → (m a).data i = (g.domain a).1 + ((i a : K) + (o a : K)) * g.step a := by
  have hax : g.axes (some (List.ofFn fun a => (o a : K))) = .ok fun a => (List.range (g.shape a)).map fun i : ℕ =>
      (g.domain a).1 + ((i : K) + (List.ofFn fun a => (o a : K)).getD a 0) * g.step a := by
    unfold Grid.axes; simp
  unfold Grid.mesh
  rw [hax]
  refine ⟨_, rfl, fun a => ⟨rfl, fun i hi => ?_⟩⟩
  have := hi a
  simp only
  rw [getD_lt _ _ (by simp; omega)]
  have hc : (((i a).toNat : ℕ) : K) = (i a : K) := by
    have : (((i a).toNat : ℕ) : ℤ) = i a := by omega
    exact_mod_cast congrArg (Int.cast (R := K)) this
  simp [hc]

/-- **C32** What a successful call returns: the entry at `i` is the multilinear interpolation of `c` at the departure point
`i - dt u(i) / step` of the backward characteristic, `u` being the velocity interpolated to the position of `c`.  Offset, grid
and boundary conditions are those of `c`, which is periodic; the domain starts at zero; and all grids agree. -/
theorem C32_departure_point (c : GridVariable d K) (v : Fin d → GridVariable d K) (dt : K) (r : GridVariable d K)
    (h : advectSemilagrangian c v dt = .ok r) (hstep : ∀ a, c.array.grid.step a ≠ 0) :
    r.array.offset = c.array.offset ∧ r.array.grid = c.array.grid ∧ r.bc = c.bc ∧ r.array.shape = c.array.grid.shape ∧
    (∀ a, (c.bc.types a).1 = .periodic ∧ (c.array.grid.domain a).1 = 0 ∧ (v a).array.grid = c.array.grid) ∧
    ∃ u : Fin d → GridVariable d K, (∀ a, linear (v a) c.array.offset = .ok (u a)) ∧
      ∀ i, InR c.array.grid.shape i → r.array.data i =
        multilinear c.array.toNArr fun a => (i a : K) - dt * (u a).array.data i / c.array.grid.step a := by
  unfold advectSemilagrangian at h
  obtain ⟨g, hg, h⟩ := Except.bind_eq_ok.1 h
  have hgrid := (uniqueOr_eq_ok.1 hg).2
  have hgc : c.array.grid = g := hgrid _ (by simp)
  have hgv : ∀ a, (v a).array.grid = g := fun a => hgrid _ (by simp)
  by_cases h0 : ∃ a, (g.domain a).1 ≠ 0
  · rw [if_pos h0] at h; injection h
  rw [if_neg h0] at h
  simp only [not_exists, not_not] at h0
  obtain ⟨m, hm, hmv⟩ := mesh_value g c.array.offset
  rw [hm, Except.bind_ok] at h
  obtain ⟨coords, hco, h⟩ := Except.bind_eq_ok.1 h
  rw [seqFin_eq_ok] at hco
  have hu : ∀ a, ∃ u, linear (v a) c.array.offset = .ok u ∧
      coords a = (m a).map2 (fun x y => x - dt * y) u.array.toNArr := by
    intro a
    obtain ⟨u, hu, h⟩ := Except.bind_eq_ok.1 (hco a)
    refine ⟨u, hu, ?_⟩
    split at h
    · injection h
    · injection h with h; exact h.symm
  choose u hu hcu using hu
  by_cases hper : hasAllPeriodic [c] = true
  · rw [if_pos hper] at h
    injection h with h
    subst h
    refine ⟨rfl, rfl, rfl, by rw [hgc]; rfl, fun a => ⟨?_, by rw [hgc]; exact h0 a, by rw [hgv, hgc]⟩, u, hu, fun i hi => ?_⟩
    · simpa [hasAllPeriodic, isPeriodicBC] using (by simpa [hasAllPeriodic, isPeriodicBC] using hper : ∀ a, (c.bc.types a).1 = .periodic) a
    · rw [hgc] at hi hstep ⊢
      have hx : ∀ a, (coords a).data i / g.step a - (c.array.offset a : K) =
          (i a : K) - dt * (u a).array.data i / g.step a := by
        intro a
        rw [hcu a]
        simp only [NArr.map2]
        rw [(hmv a).2 i hi, h0 a]
        have := hstep a
        field_simp
        ring
      simp only [mapCoordinatesWrap, hx, multilinear, Int.fract]
  · rw [if_neg hper] at h; injection h

/-- **C32** (maximum principle) Whatever the velocity and however large the time step, a successful call returns values within
any bounds on `c`; constants are reproduced exactly (take `lo = hi`). -/
theorem C32_maximum_principle (c : GridVariable d K) (v : Fin d → GridVariable d K) (dt : K) (r : GridVariable d K)
    (h : advectSemilagrangian c v dt = .ok r) (hstep : ∀ a, c.array.grid.step a ≠ 0)
    (hs : ∀ a, 0 < c.array.shape a) (lo hi : K)
    (hb : ∀ i, InR c.array.shape i → lo ≤ c.array.data i ∧ c.array.data i ≤ hi) :
    ∀ i, InR r.array.shape i → lo ≤ r.array.data i ∧ r.array.data i ≤ hi := by
  obtain ⟨-, -, -, hsh, -, u, -, hd⟩ := C32_departure_point c v dt r h hstep
  intro i hi'
  rw [hsh] at hi'
  rw [hd i hi']
  exact multilinear_bounds c.array.toNArr hs _ lo hi hb

/-- **C32** The call succeeds for every periodic scalar and every periodic velocity on one grid that starts at zero. -/
theorem C32_succeeds (c : GridVariable d K) (hc : c.Periodic) (v : Fin d → GridVariable d K) (hv : ∀ a, (v a).Periodic)
    (hg : ∀ a, (v a).array.grid = c.array.grid) (h0 : ∀ a, (c.array.grid.domain a).1 = 0) (dt : K) :
    ∃ r, advectSemilagrangian c v dt = .ok r := by
  have hl : ∀ a, ∃ u, linear (v a) c.array.offset = .ok u ∧ u.array.shape = c.array.grid.shape := by
    intro a
    obtain ⟨f, hf, -⟩ := linear_periodic (fun _ _ => True) (fun _ _ _ _ _ => trivial) (hv a) c.array.offset trivial
    refine ⟨_, hf, ?_⟩
    funext b
    have := ((hv a).2 b).1
    rw [hg a] at this
    exact this
  choose u hu hus using hl
  obtain ⟨m, hm, hmv⟩ := mesh_value c.array.grid c.array.offset
  unfold advectSemilagrangian
  rw [show consistentGrid (c.array :: List.ofFn fun a => (v a).array) = .ok c.array.grid from
    uniqueOr_eq_ok.2 ⟨by simp, by
      intro x hx
      rcases List.mem_cons.1 hx with rfl | hx
      · rfl
      · obtain ⟨a, rfl⟩ := List.mem_ofFn.1 hx
        exact hg a⟩, Except.bind_ok, if_neg (by simpa using h0), hm, Except.bind_ok,
    seqFin_ok _ (fun a => (m a).map2 (fun x y => x - dt * y) (u a).array.toNArr) (fun a => by
      rw [hu a, Except.bind_ok, if_neg (by rw [not_not, hus a, (hmv a).1])]; rfl), Except.bind_ok,
    if_pos (hasAllPeriodic_of hc.1)]
  exact ⟨_, rfl⟩

/-- **C32** Walls are rejected: unless every axis of `c` is periodic the call never returns; a grid that does not start at zero
raises ValueError. -/
theorem C32_rejections (c : GridVariable d K) (v : Fin d → GridVariable d K) (dt : K) :
    ((∃ a, (c.bc.types a).1 ≠ .periodic) → ∀ r, advectSemilagrangian c v dt ≠ .ok r) ∧
    ((∀ a, (v a).array.grid = c.array.grid) → (∃ a, (c.array.grid.domain a).1 ≠ 0) →
      advectSemilagrangian c v dt = .error .value) ∧
    ((∃ a, (c.bc.types a).1 ≠ .periodic) → (∀ a, (v a).Periodic) → (∀ a, (v a).array.grid = c.array.grid) →
      (∀ a, (c.array.grid.domain a).1 = 0) → advectSemilagrangian c v dt = .error .notImplemented) := by
  have hgrid : (∀ a, (v a).array.grid = c.array.grid) →
      consistentGrid (c.array :: List.ofFn fun a => (v a).array) = .ok c.array.grid := by
    intro hg
    refine uniqueOr_eq_ok.2 ⟨by simp, ?_⟩
    intro x hx
    rcases List.mem_cons.1 hx with rfl | hx
    · rfl
    · obtain ⟨a, rfl⟩ := List.mem_ofFn.1 hx
      exact hg a
  have hnp : (∃ a, (c.bc.types a).1 ≠ .periodic) → ¬ hasAllPeriodic [c] = true := by
    rintro ⟨a, ha⟩ h
    exact ha ((by simpa [hasAllPeriodic, isPeriodicBC] using h : ∀ a, (c.bc.types a).1 = .periodic) a)
  refine ⟨fun hw r h => ?_, fun hg h0 => ?_, fun hw hv hg h0 => ?_⟩
  · unfold advectSemilagrangian at h
    obtain ⟨g, -, h⟩ := Except.bind_eq_ok.1 h
    split at h
    · injection h
    obtain ⟨m, -, h⟩ := Except.bind_eq_ok.1 h
    obtain ⟨u, -, h⟩ := Except.bind_eq_ok.1 h
    rw [if_neg (hnp hw)] at h
    injection h
  · unfold advectSemilagrangian
    rw [hgrid hg, Except.bind_ok, if_pos h0]; rfl
  · have hl : ∀ a, ∃ u, linear (v a) c.array.offset = .ok u ∧ u.array.shape = c.array.grid.shape := by
      intro a
      obtain ⟨f, hf, -⟩ := linear_periodic (fun _ _ => True) (fun _ _ _ _ _ => trivial) (hv a) c.array.offset trivial
      refine ⟨_, hf, ?_⟩
      funext b
      have := ((hv a).2 b).1
      rw [hg a] at this
      exact this
    choose u hu hus using hl
    obtain ⟨m, hm, hmv⟩ := mesh_value c.array.grid c.array.offset
    unfold advectSemilagrangian
    rw [hgrid hg, Except.bind_ok, if_neg (by simpa using h0), hm, Except.bind_ok,
      seqFin_ok _ (fun a => (m a).map2 (fun x y => x - dt * y) (u a).array.toNArr) (fun a => by
        rw [hu a, Except.bind_ok, if_neg (by rw [not_not, hus a, (hmv a).1])]; rfl), Except.bind_ok,
      if_neg (hnp hw)]
    rfl

/-- **C32** A uniform velocity that moves the field by whole cells (`dt u_a = k_a step_a`; in particular `dt = 0`) translates it
exactly: entry `i` becomes entry `i - k`, modulo the size. -/
theorem C32_integer_courant (c : GridVariable d K) (hc : c.Periodic) (v : Fin d → GridVariable d K) (hv : ∀ a, (v a).Periodic)
    (hg : ∀ a, (v a).array.grid = c.array.grid) (h0 : ∀ a, (c.array.grid.domain a).1 = 0) (dt : K)
    (hstep : ∀ a, c.array.grid.step a ≠ 0) (w : Fin d → K) (hw : ∀ a i, InR (v a).array.shape i → (v a).array.data i = w a)
    (k : Fin d → ℤ) (hk : ∀ a, dt * w a = k a * c.array.grid.step a) :
    ∃ r, advectSemilagrangian c v dt = .ok r ∧ r.array.shape = c.array.shape ∧
      ∀ i, InR c.array.shape i → r.array.data i = c.array.data fun a => (i a - k a) % (c.array.shape a : ℤ) := by
  obtain ⟨r, hr⟩ := C32_succeeds c hc v hv hg h0 dt
  obtain ⟨-, -, -, hsh, -, u, hu, hd⟩ := C32_departure_point c v dt r hr hstep
  have hcs : c.array.shape = c.array.grid.shape := funext fun a => (hc.2 a).1
  refine ⟨r, hr, by rw [hsh, hcs], fun i hi => ?_⟩
  rw [hd i (by rw [← hcs]; exact hi), ← multilinear_int]
  congr 1
  funext a
  obtain ⟨q, hq, hqs, hqd⟩ := C23_constants (v a) (hv a) c.array.offset (w a) (hw a)
  have e := hu a
  rw [hq] at e
  injection e with e
  have hvs : (v a).array.shape = c.array.shape := by
    funext b
    rw [((hv a).2 b).1, hg a, ← hcs]
  rw [← e, hqd i (by rw [hvs]; exact hi), hk a]
  have := hstep a
  push_cast
  field_simp

/-! ## Non-vacuity -/
section examples
open Fixtures

example : pu34.Periodic ∧ (∀ a, (pv34 a).Periodic) ∧ (∀ a, (pv34 a).array.grid = pu34.array.grid) ∧
    (∀ a, (pu34.array.grid.domain a).1 = 0) ∧ ∀ a, pu34.array.grid.step a ≠ 0 := by
  refine ⟨pu34_periodic, pv34_periodic, fun _ => rfl, fun _ => rfl, ?_⟩
  intro a
  fin_cases a <;> norm_num [Grid.step, pu34, u34, g34]

/-- a uniform velocity (1, -1) -/
def flow34 (a : Fin 2) : GridVariable 2 ℚ :=
  ⟨⟨⟨![3, 4], fun _ => if a = 0 then 1 else -1⟩, fun b => if b = a then 1 else 1 / 2, g34⟩, bcPer2⟩

-- with dt = 2 it moves data by 2 cells along axis 0 and by -4 cells along axis 1
example : (∀ a, (flow34 a).Periodic) ∧ ∀ a, (2 : ℚ) * (if a = 0 then 1 else -1) =
    ((![2, -4] : Fin 2 → ℤ) a) * pu34.array.grid.step a := by
  refine ⟨fun a => (pv34_periodic a).mk' (fun _ => rfl) rfl rfl, ?_⟩
  intro a
  fin_cases a <;> norm_num [Grid.step, pu34, u34, g34]
end examples

end JaxCfd
