import Verif.Lemmas.DiffusionSolve
import Verif.Props.PressureSolve

/-!
# C36: the direct diffusion solver

`diffusion.solve_fast_diag` takes an unconditionally stable backward Euler step of the heat equation on the variables on which it
is supported.  The only thing assumed of the numerics is `np.linalg.eigh`'s specification.
-/

set_option linter.unusedSectionVars false

namespace JaxCfd
variable {d : ℕ} [HasNan ℝ]

/-- `r` is the backward Euler step of size `dt` from `u` for the heat equation with diffusivity `nu`:
`r - nu dt laplacian(r) = u` at every point inside the domain, and `r` has its prescribed values at its wall points. -/
structure BackwardEuler (u r : GridVariable d ℝ) (nu dt : ℝ) : Prop where
  bc : r.bc = u.bc
  shape : r.array.shape = u.array.shape
  offset : r.array.offset = u.array.offset
  grid : r.array.grid = u.array.grid
  step : ∃ L, laplacian r = .ok L ∧ ∀ i : Idx d, InR u.interior i → r.array.data i - nu * dt * L.data i = u.array.data i
  walls : ∀ i : Idx d, InR u.array.shape i → ¬ InR u.interior i → ∃ a, u.bc.types a = (.dirichlet, .dirichlet) ∧
    u.array.offset a = 1 ∧ i a + 1 = u.array.shape a ∧ r.array.data i = (u.bc.constantValues a).2

/-- The axis is periodic or has two insulated walls. -/
def GridVariable.NoDirichlet (u : GridVariable d ℝ) (a : Fin d) : Prop :=
  u.bc.types a = (.periodic, .periodic) ∨ (u.bc.types a = (.neumann, .neumann) ∧ u.bc.bcValues a = (some 0, some 0))

/-- The boundary conditions for which the direct diffusion solver is correct: no Dirichlet walls at all, in any number of
dimensions; or, in two dimensions, homogeneous walls (if axis 0 has a Dirichlet wall, on a square grid), or two Dirichlet walls
with any constant values along axis 1. -/
def GridVariable.DiffusionReady (u : GridVariable d ℝ) : Prop :=
  (∀ a, u.NoDirichlet a) ∨
  (d = 2 ∧ u.HomogeneousWalls ∧ ∀ a b : Fin d, (a : ℕ) = 0 →
    ((u.bc.types a).1 = .dirichlet ∨ (u.bc.types a).2 = .dirichlet) → u.array.grid.shape b = u.array.grid.shape a) ∨
  (d = 2 ∧ ∀ a : Fin d, ((a : ℕ) = 0 → u.NoDirichlet a) ∧
    ((a : ℕ) = 1 → u.bc.types a = (.dirichlet, .dirichlet) ∧ ∃ lo up, u.bc.bcValues a = (some lo, some up)))

/-- A side that is not Dirichlet contributes nothing. -/
theorem rhsSide_other (g : Grid d ℝ) (o : Fin d → ℚ) (bc : BC d ℝ) (a : Fin d) (s : Side) (c : NArr d ℝ)
    (ht : (if s = .lower then (bc.types a).1 else (bc.types a).2) ≠ .dirichlet)
    (hv : (if s = .lower then (bc.types a).1 else (bc.types a).2) = .neumann → bc.bcValues a = (some 0, some 0)) :
    diffusionRhsSide g o bc a s c = .ok c := by
  unfold diffusionRhsSide
  dsimp only
  rw [if_neg ht]
  by_cases hn : (if s = .lower then (bc.types a).1 else (bc.types a).2) = .neumann
  · rw [if_pos hn, hv hn]; simp
  · rw [if_neg hn]

theorem rhsSide_noDirichlet {u : GridVariable d ℝ} {a : Fin d} (h : u.NoDirichlet a) (s : Side) (c : NArr d ℝ) :
    diffusionRhsSide u.array.grid u.array.offset u.bc a s c = .ok c := by
  have pd : ¬ (BCType.periodic = BCType.dirichlet) := by decide
  have pn : ¬ (BCType.periodic = BCType.neumann) := by decide
  have nd : ¬ (BCType.neumann = BCType.dirichlet) := by decide
  rcases h with h | ⟨h, hv⟩
  · refine rhsSide_other _ _ _ _ _ _ ?_ ?_
    · rw [h]; simpa using pd
    · rw [h]; simpa using pn
  · refine rhsSide_other _ _ _ _ _ _ ?_ fun _ => hv
    rw [h]; simpa using nd

/-- The relative coordinate of point `k` along an axis. -/
noncomputable def relCoord (u : GridVariable 2 ℝ) (a : Fin 2) (k : ℤ) : ℝ :=
  ((meshRow u.array.grid u.array.offset a).data (fun _ => k) - (u.array.grid.domain a).1) /
    ((u.array.grid.domain a).2 - (u.array.grid.domain a).1)

theorem relCoord_one {u : GridVariable 2 ℝ} (hN : 0 < u.array.grid.shape 1)
    (hlen : (u.array.grid.domain 1).1 < (u.array.grid.domain 1).2) (k : ℤ) :
    relCoord u 1 k = ((k : ℝ) + (u.array.offset 1 : ℝ)) / (u.array.grid.shape 1 : ℝ) := by
  have h1 : (u.array.grid.domain 1).2 - (u.array.grid.domain 1).1 ≠ 0 := (sub_pos.2 hlen).ne'
  have h2 : (u.array.grid.shape 1 : ℝ) ≠ 0 := by exact_mod_cast hN.ne'
  unfold relCoord meshRow Grid.step
  dsimp only
  rw [if_neg (by decide)]
  field_simp
  ring

theorem rhsSide_dirichlet {u : GridVariable 2 ℝ} (hu : u.Supported) (a : Fin 2) (s : Side) (c : NArr 2 ℝ)
    (ht : (if s = .lower then (u.bc.types a).1 else (u.bc.types a).2) = .dirichlet) {b : ℝ}
    (hb : (if s = .lower then (u.bc.bcValues a).1 else (u.bc.bcValues a).2) = some b)
    (hsq : u.array.grid.shape 1 = u.array.grid.shape a) (hc : c.shape a = u.interior a) :
    diffusionRhsSide u.array.grid u.array.offset u.bc a s c = .ok ⟨c.shape, fun i => c.data i -
      (if s = .lower then b * (1 - relCoord u a (i a)) else b * relCoord u a (i a))⟩ := by
  let m : GridVariable 1 ℝ := ⟨⟨meshRow u.array.grid u.array.offset a, fun _ => u.array.offset a,
    ⟨fun _ => u.array.grid.shape a, fun _ => u.array.grid.domain a⟩⟩, dirichletBC 1 none⟩
  have ne : ¬ (1 / 2 : ℚ) = 1 := by norm_num
  have hm : m.Supported := by
    intro e
    refine ⟨hsq, (hu a).2.1, ?_⟩
    rcases (hu a).2.2 with h | ⟨-, -, ho⟩ | ⟨-, ho⟩
    · rw [h] at ht
      cases s <;> simp at ht
    · exact Or.inr (Or.inl ⟨Or.inl rfl, Or.inl rfl, ho⟩)
    · exact Or.inr (Or.inr ⟨rfl, ho⟩)
  have hI : m.interior 0 = u.interior a := by
    unfold GridVariable.interior
    have hs : m.array.shape 0 = u.array.shape a := by rw [(hu a).1]; exact hsq
    rw [hs]
    rcases (hu a).2.2 with h | ⟨-, -, ho⟩ | ⟨h, ho⟩
    · rw [h] at ht
      cases s <;> simp at ht
    · rw [if_neg (by rintro ⟨-, e⟩; exact ne (ho.symm.trans e)), if_neg (by rintro ⟨-, e⟩; exact ne (ho.symm.trans e))]
    · rw [if_pos ⟨rfl, ho⟩, if_pos ⟨h, ho⟩]
  have htrim := hm.trim
  have key : ∀ lo up : ℝ, subtractLinear2 c u.array.grid a u.array.offset lo up = .ok ⟨c.shape, fun i => c.data i -
      (lo + (up - lo) * relCoord u a (i a))⟩ := by
    intro lo up
    unfold subtractLinear2
    rw [show (dirichletBC 1 none).trimBoundary _ = _ from htrim, Except.bind_ok]
    dsimp only
    rw [if_neg (by rw [hI, hc]; simp)]
    congr 2
    funext i
    unfold relCoord
    rw [mul_div_assoc]
  unfold diffusionRhsSide
  dsimp only
  rw [if_pos ht, hb]
  dsimp only
  cases s
  · rw [if_pos rfl]
    show subtractLinear2 _ _ _ _ _ _ = _
    rw [key]
    congr 2
    funext i
    rw [if_pos rfl]; ring
  · rw [if_neg (by decide)]
    show subtractLinear2 _ _ _ _ _ _ = _
    rw [key]
    congr 2
    funext i
    rw [if_neg (by decide)]; ring

/-- A homogeneous axis contributes nothing. -/
theorem rhsAxis_homogeneous {u : GridVariable 2 ℝ} (hu : u.Supported) (a : Fin 2) (s : Side) (c : NArr 2 ℝ)
    (hh : u.bc.types a ≠ (.periodic, .periodic) → u.bc.bcValues a = (some 0, some 0))
    (hsq : ((u.bc.types a).1 = .dirichlet ∨ (u.bc.types a).2 = .dirichlet) → u.array.grid.shape 1 = u.array.grid.shape a)
    (hc : c.shape a = u.interior a) :
    diffusionRhsSide u.array.grid u.array.offset u.bc a s c = .ok c := by
  by_cases ht : (if s = .lower then (u.bc.types a).1 else (u.bc.types a).2) = .dirichlet
  · have hp : u.bc.types a ≠ (.periodic, .periodic) := by
      intro h; rw [h] at ht; cases s <;> simp at ht
    have hb : (if s = .lower then (u.bc.bcValues a).1 else (u.bc.bcValues a).2) = some 0 := by
      rw [hh hp]; cases s <;> rfl
    rw [rhsSide_dirichlet hu a s c ht hb (hsq (by cases s <;> simp at ht <;> simp [ht])) hc]
    simp
  · refine rhsSide_other _ _ _ _ _ _ ht fun hn => hh fun h => ?_
    rw [h] at hn; cases s <;> simp at hn

theorem finRange_two : List.finRange 2 = [0, 1] := by decide

/-- A field that does not depend on a periodic or insulated axis 0 drops out of the stencil along that axis. -/
theorem axis0_lift {u : GridVariable 2 ℝ} (hu : u.Supported) (h0 : u.NoDirichlet 0) (x w : Idx 2 → ℝ) (i : Idx 2)
    (hwu : ∀ j : ℤ, w (Function.update i 0 j) = w i) :
    ((u.homogenized.withData fun i => x i - w i).above 0 i + (u.homogenized.withData fun i => x i - w i).below 0 i -
      2 * (x i - w i)) / u.homogenized.array.grid.step 0 ^ 2 =
    ((u.withData x).above 0 i + (u.withData x).below 0 i - 2 * x i) / u.array.grid.step 0 ^ 2 := by
  have np : ¬ (BCType.neumann = BCType.periodic) := by decide
  have nd : ¬ (BCType.neumann = BCType.dirichlet) := by decide
  have hc0 : u.homogenized.bc.constantValues 0 = (0, 0) := by
    simp [BC.constantValues, GridVariable.homogenized]
  rw [show u.homogenized.array.grid = u.array.grid from rfl]
  congr 1
  have hA : (u.homogenized.withData fun i => x i - w i).above 0 i = (u.withData x).above 0 i - w i := by
    unfold GridVariable.above
    rcases h0 with h | ⟨h, hz⟩
    · simp only [GridVariable.withData, GridVariable.homogenized, h, if_true]
      unfold rollIdx
      rw [hwu]
    · have ho : u.array.offset 0 = 1 / 2 := by
        rcases (hu 0).2.2 with e | ⟨-, -, e⟩ | ⟨e, -⟩
        · rw [h] at e; cases e
        · exact e
        · rw [h] at e; cases e
      have hc1 : u.bc.constantValues 0 = (0, 0) := by simp [BC.constantValues, hz]
      have hc2 := hc0
      simp only [GridVariable.homogenized] at hc2
      simp only [GridVariable.withData, GridVariable.homogenized, h, np, nd, ho, hc1, hc2, if_true, if_false]
      by_cases hl : i 0 + 1 < u.array.shape 0
      · simp only [hl, if_true, hwu]
      · simp only [hl, if_false, mul_zero, add_zero]
  have hB : (u.homogenized.withData fun i => x i - w i).below 0 i = (u.withData x).below 0 i - w i := by
    unfold GridVariable.below
    rcases h0 with h | ⟨h, hz⟩
    · simp only [GridVariable.withData, GridVariable.homogenized, h, if_true]
      unfold rollIdx
      rw [hwu]
    · have ho : u.array.offset 0 = 1 / 2 := by
        rcases (hu 0).2.2 with e | ⟨-, -, e⟩ | ⟨e, -⟩
        · rw [h] at e; cases e
        · exact e
        · rw [h] at e; cases e
      have hc1 : u.bc.constantValues 0 = (0, 0) := by simp [BC.constantValues, hz]
      have hc2 := hc0
      simp only [GridVariable.homogenized] at hc2
      simp only [GridVariable.withData, GridVariable.homogenized, h, np, nd, ho, hc1, hc2, if_true, if_false]
      by_cases hl : 0 < i 0
      · simp only [hl, if_true, hwu]
      · simp only [hl, if_false, mul_zero, sub_zero]
  rw [hA, hB]; ring

/-- What the right-hand side transform subtracts. -/
theorem diffusionRhs_ok {u : GridVariable d ℝ} (hu : u.Supported) (hr : u.DiffusionReady)
    (hlen : ∀ a, (u.array.grid.domain a).1 < (u.array.grid.domain a).2) :
    ∃ w : Idx d → ℝ, diffusionRhs ⟨⟨u.interior, u.array.data⟩, u.array.offset, u.array.grid⟩ u.bc =
        .ok ⟨u.interior, fun i => u.array.data i - w i⟩ ∧
      ∀ (x : Idx d → ℝ) (i : Idx d), InR u.interior i → u.homogenized.lapAt (fun i => x i - w i) i = u.lapAt x i := by
  rcases hr with hno | ⟨rfl, hh, hsq⟩ | ⟨rfl, hr⟩
  · refine ⟨fun _ => 0, ?_, fun x i _ => ?_⟩
    · unfold diffusionRhs
      simp only [sub_zero]
      have : ∀ l : List (Fin d), l.foldlM (fun x a => (do
          let x ← diffusionRhsSide u.array.grid u.array.offset u.bc a .lower x
          diffusionRhsSide u.array.grid u.array.offset u.bc a .upper x : Except Err (NArr d ℝ)))
          (⟨u.interior, u.array.data⟩ : NArr d ℝ) = .ok ⟨u.interior, u.array.data⟩ := by
        intro l
        induction l with
        | nil => rfl
        | cons a l ih =>
          rw [List.foldlM_cons, rhsSide_noDirichlet (hno a), Except.bind_ok, rhsSide_noDirichlet (hno a), Except.bind_ok]
          exact ih
      exact this _
    · have hh : u.HomogeneousWalls := by
        intro a hp
        rcases hno a with h | h
        · exact absurd h hp
        · exact h.2
      simp only [sub_zero]
      exact GridVariable.homogenized_eq hu hh x i
  · refine ⟨fun _ => 0, ?_, fun x i _ => ?_⟩
    · unfold diffusionRhs
      simp only [sub_zero]
      rw [finRange_two, List.foldlM_cons]
      rw [rhsAxis_homogeneous hu 0 _ _ (hh 0) (hsq 0 1 rfl) rfl, Except.bind_ok,
        rhsAxis_homogeneous hu 0 _ _ (hh 0) (hsq 0 1 rfl) rfl, Except.bind_ok, List.foldlM_cons,
        rhsAxis_homogeneous hu 1 _ _ (hh 1) (fun _ => rfl) rfl, Except.bind_ok,
        rhsAxis_homogeneous hu 1 _ _ (hh 1) (fun _ => rfl) rfl, Except.bind_ok]
      rfl
    · simp only [sub_zero]
      exact GridVariable.homogenized_eq hu hh x i
  · have h0 := (hr 0).1 rfl
    obtain ⟨ht, b0, b1, hv⟩ := (hr 1).2 rfl
    have hcv : u.bc.constantValues 1 = (b0, b1) := by simp [BC.constantValues, hv]
    have hn0 : (u.array.shape 1 : ℝ) ≠ 0 := by
      have := (hu 1).2.1
      rw [← (hu 1).1] at this
      exact_mod_cast this.ne'
    refine ⟨fun i => b0 + (b1 - b0) * ((i 1 : ℝ) + (u.array.offset 1 : ℝ)) / (u.array.shape 1 : ℝ), ?_, fun x i hi => ?_⟩
    · unfold diffusionRhs
      dsimp only
      rw [finRange_two, List.foldlM_cons]
      rw [rhsSide_noDirichlet h0, Except.bind_ok, rhsSide_noDirichlet h0, Except.bind_ok, List.foldlM_cons,
        rhsSide_dirichlet hu 1 .lower _ (by rw [ht]; rfl) (b := b0) (by rw [hv]; rfl) rfl rfl, Except.bind_ok,
        rhsSide_dirichlet hu 1 .upper _ (by rw [ht]; rfl) (b := b1) (by rw [hv]; rfl) rfl rfl, Except.bind_ok]
      show Except.ok _ = Except.ok _
      congr 2
      funext i
      dsimp only
      rw [if_pos rfl, if_neg (by decide), relCoord_one (hu 1).2.1 (hlen 1), (hu 1).1]
      ring
    · have dp : ¬ (BCType.dirichlet = BCType.periodic) := by decide
      have np : ¬ (BCType.neumann = BCType.periodic) := by decide
      have nd : ¬ (BCType.neumann = BCType.dirichlet) := by decide
      have ne : ¬ (1 : ℚ) = 1 / 2 := by norm_num
      have hc0 : ∀ a, u.homogenized.bc.constantValues a = (0, 0) := fun a => by
        simp [BC.constantValues, GridVariable.homogenized]
      unfold GridVariable.lapAt
      rw [Fin.sum_univ_two, Fin.sum_univ_two]
      set w : Idx 2 → ℝ := fun i => b0 + (b1 - b0) * ((i 1 : ℝ) + (u.array.offset 1 : ℝ)) / (u.array.shape 1 : ℝ) with hw
      have hwu : ∀ j : ℤ, w (Function.update i 0 j) = w i := fun j => by
        simp [hw, Function.update_of_ne]
      have hg : u.homogenized.array.grid = u.array.grid := rfl
      have h1i : (i 1 : ℤ) < u.interior 1 := (hi 1).2
      have h1i0 := (hi 1).1
      congr 1
      · exact axis0_lift hu h0 x w i hwu
      · rw [hg]
        congr 1
        have hc1 := hc0 1
        simp only [GridVariable.homogenized] at hc1
        have hA : (u.homogenized.withData fun i => x i - w i).above 1 i =
            (u.withData x).above 1 i - w i - (b1 - b0) / (u.array.shape 1 : ℝ) := by
          unfold GridVariable.above
          rcases (hu 1).2.2 with e | ⟨-, -, ho⟩ | ⟨-, ho⟩
          · rw [ht] at e; cases e
          · simp only [GridVariable.withData, GridVariable.homogenized, ht, dp, ho, hcv, hc1, if_true, if_false]
            by_cases hl : i 1 + 1 < u.array.shape 1
            · simp only [hl, if_true, hw, Function.update_self, ho]
              push_cast
              ring
            · have hI : u.interior 1 = u.array.shape 1 := if_neg (by rintro ⟨-, e⟩; exact ne (e.symm.trans ho))
              have hk : i 1 = (u.array.shape 1 : ℤ) - 1 := by omega
              simp only [hl, if_false]
              simp only [hw, hk, ho]
              push_cast
              field_simp
              ring
          · simp only [GridVariable.withData, GridVariable.homogenized, ht, dp, ho, ne, hcv, hc1, if_false]
            by_cases hl : i 1 + 2 < u.array.shape 1
            · simp only [hl, if_true, hw, Function.update_self, ho]
              push_cast
              ring
            · have hI : u.interior 1 = u.array.shape 1 - 1 := if_pos ⟨ht, ho⟩
              have hk : i 1 = (u.array.shape 1 : ℤ) - 2 := by omega
              simp only [hl, if_false]
              simp only [hw, hk, ho]
              push_cast
              field_simp
              ring
        have hB : (u.homogenized.withData fun i => x i - w i).below 1 i =
            (u.withData x).below 1 i - w i + (b1 - b0) / (u.array.shape 1 : ℝ) := by
          unfold GridVariable.below
          rcases (hu 1).2.2 with e | ⟨-, -, ho⟩ | ⟨-, ho⟩
          · rw [ht] at e; cases e
          · simp only [GridVariable.withData, GridVariable.homogenized, ht, dp, ho, hcv, hc1, if_true, if_false]
            by_cases hl : 0 < i 1
            · simp only [hl, if_true, hw, Function.update_self, ho]
              push_cast
              ring
            · have hk : i 1 = 0 := by omega
              simp only [hl, if_false]
              simp only [hw, hk, ho]
              push_cast
              field_simp
              ring
          · simp only [GridVariable.withData, GridVariable.homogenized, ht, dp, ho, ne, hcv, hc1, if_false]
            by_cases hl : 0 < i 1
            · simp only [hl, if_true, hw, Function.update_self, ho]
              push_cast
              ring
            · have hk : i 1 = 0 := by omega
              simp only [hl, if_false]
              simp only [hw, hk, ho]
              push_cast
              field_simp
              ring
        rw [hA, hB]; ring

/-- `transform` succeeds. -/
theorem transform_succeeds (hd : d ≠ 0) (tpu : Bool) (eigh : EighFn ℝ) (func : ℂ → ℂ) (ms : Fin d → Mat ℝ)
    (hsq0 : ∀ a, (ms a).rows = (ms a).cols) (circulant : Bool) (impl : Option Impl)
    (himpl : impl = none ∨ impl = some .matmul ∨ impl = some .fft ∨
      (impl = some .rfft ∧ ∀ a : Fin d, (a : ℕ) + 1 = d → (ms a).rows % 2 = 0) ∨ circulant = false) :
    ∃ P, transform (d := d) tpu eigh func (List.ofFn ms) true circulant (if circulant = true then impl else some .matmul) = .ok P := by
  have hne : List.ofFn ms ≠ [] := by rw [Ne, List.ofFn_eq_nil_iff]; exact hd
  have hsq : ∀ m ∈ List.ofFn ms, m.rows = m.cols := by
    intro m hm'
    obtain ⟨a, rfl⟩ := List.mem_ofFn.1 hm'
    exact hsq0 a
  have hsq' : ¬ ((List.ofFn ms).any (fun m => decide (m.rows ≠ m.cols)) = true) := by
    intro h
    obtain ⟨m, hm, h'⟩ := List.any_eq_true.1 h
    exact (by simpa using h' : ¬ _) (hsq m hm)
  obtain ⟨k, rfl⟩ : ∃ k, d = k + 1 := ⟨d - 1, by omega⟩
  have hlast : ((List.ofFn ms).map Mat.rows).getLast? = some ((ms (Fin.last k)).rows) := by
    rw [List.map_ofFn, ofFn_snoc, List.getLast?_append]
    simp
  by_cases hp : circulant = true
  · subst hp
    rw [if_pos rfl]
    rcases himpl with rfl | rfl | rfl | ⟨rfl, he⟩ | hn
    · -- default
      unfold transform
      rw [if_neg hsq']
      dsimp only
      obtain ⟨i1, i2⟩ := C37_default ((List.ofFn ms).map Mat.rows) _ hlast
      have hmat : ∃ F, transformWith (d := k + 1) eigh func (List.ofFn ms) true true .matmul = .ok F := by
        unfold transformWith; simp [hne]
      have hrf : (ms (Fin.last k)).rows % 2 = 0 →
          ∃ F, transformWith (d := k + 1) eigh func (List.ofFn ms) true true .rfft = .ok F := by
        intro he
        unfold transformWith
        dsimp only
        rw [hlast]
        dsimp only
        rw [if_neg (by decide), if_neg (by omega)]
        exact ⟨_, rfl⟩
      cases tpu
      · rw [i1]; dsimp only
        by_cases ho : (ms (Fin.last k)).rows % 2 = 1
        · rw [if_pos ho]; exact hmat
        · rw [if_neg ho]; exact hrf (by omega)
      · rw [i2]; dsimp only
        by_cases ho : (∃ m ∈ (List.ofFn ms).map Mat.rows, 1024 < m) ∧ (ms (Fin.last k)).rows % 2 = 0
        · rw [if_pos ho]; exact hrf ho.2
        · rw [if_neg ho]; exact hmat
    · rcases C37_requirements (d := k + 1) tpu eigh func (List.ofFn ms) true true hsq _ hlast .matmul with h1 | h1
      · exact h1.2
      · exact absurd rfl h1.1
    · rcases C37_requirements (d := k + 1) tpu eigh func (List.ofFn ms) true true hsq _ hlast .fft with h1 | h1
      · exact h1.2
      · exact absurd rfl h1.1
    · rcases C37_requirements (d := k + 1) tpu eigh func (List.ofFn ms) true true hsq _ hlast .rfft with h1 | h1
      · exact h1.2
      · exact absurd ⟨rfl, he (Fin.last k) rfl⟩ h1.1
    · cases hn
  · rw [if_neg hp]
    rcases C37_requirements (d := k + 1) tpu eigh func (List.ofFn ms) true circulant hsq _ hlast .matmul with h1 | h1
    · exact h1.2
    · exact absurd rfl h1.1

/-- One component, for whatever the right-hand side transform subtracts. -/
theorem diffusionOne_of_rhs {u : GridVariable d ℝ} (hu : u.Supported) (hN : ∀ a, 3 ≤ u.array.grid.shape a)
    {w : Idx d → ℝ} (hrhs : diffusionRhs ⟨⟨u.interior, u.array.data⟩, u.array.offset, u.array.grid⟩ u.bc =
        .ok ⟨u.interior, fun i => u.array.data i - w i⟩) {nu dt : ℝ} (hc : 0 ≤ nu * dt)
    {tpu : Bool} {eigh : EighFn ℝ} (heigh : ∀ m, m.Symmetric → IsEigh m (eigh m)) {circulant : Bool}
    (hcirc : circulant = true → ∀ a, u.bc.types a = (.periodic, .periodic)) (hd : d ≠ 0) {impl : Option Impl}
    (himpl : impl = none ∨ impl = some .matmul ∨ impl = some .fft ∨
      (impl = some .rfft ∧ ∀ a : Fin d, (a : ℕ) + 1 = d → u.array.grid.shape a % 2 = 0) ∨ circulant = false) :
    ∃ r, diffusionFastDiagOne tpu eigh nu dt circulant (if circulant = true then impl else some .matmul) u = .ok ⟨r, u.bc⟩ ∧
      r.shape = u.array.shape ∧ r.offset = u.array.offset ∧ r.grid = u.array.grid ∧
      (∀ i : Idx d, InR u.interior i →
        r.data i - nu * dt * u.homogenized.lapAt (fun i => r.data i - w i) i = u.array.data i) ∧
      ∀ i : Idx d, InR u.array.shape i → ¬ InR u.interior i → ∃ a, u.bc.types a = (.dirichlet, .dirichlet) ∧
        u.array.offset a = 1 ∧ i a + 1 = u.array.shape a ∧ r.data i = (u.bc.constantValues a).2 := by
  obtain ⟨ms, hms, hm, -⟩ := matrices hu hN
  have hP : Promised eigh (List.ofFn ms) true circulant := by
    refine ⟨fun _ m hm' => ?_, fun hc m hm' => ?_, heigh⟩
    · obtain ⟨a, rfl⟩ := List.mem_ofFn.1 hm'
      exact (hm a).2.1
    · obtain ⟨a, rfl⟩ := List.mem_ofFn.1 hm'
      exact (hm a).2.2 (hcirc hc a)
  have himpl' : impl = none ∨ impl = some .matmul ∨ impl = some .fft ∨
      (impl = some .rfft ∧ ∀ a : Fin d, (a : ℕ) + 1 = d → (ms a).rows % 2 = 0) ∨ circulant = false := by
    rcases himpl with h | h | h | ⟨h, he⟩ | h
    · exact Or.inl h
    · exact Or.inr (Or.inl h)
    · exact Or.inr (Or.inr (Or.inl h))
    · by_cases hcc : circulant = true
      · refine Or.inr (Or.inr (Or.inr (Or.inl ⟨h, fun a ha => ?_⟩)))
        rw [(hm a).1]
        unfold GridVariable.interior
        rw [if_neg (by rintro ⟨e, -⟩; rw [hcirc hcc a] at e; cases e), (hu a).1]
        exact he a ha
      · exact Or.inr (Or.inr (Or.inr (Or.inr (by simpa using hcc))))
    · exact Or.inr (Or.inr (Or.inr (Or.inr h)))
  obtain ⟨P, hT⟩ := transform_succeeds hd tpu eigh (diffusionFn nu dt) ms (fun a => (hm a).2.1.1) circulant impl himpl'
  obtain ⟨y, hy, hys, hye⟩ := diffusion_core hu hN (by rw [mul_comm]; exact hc) hms hT hP
    ⟨u.interior, fun i => u.array.data i - w i⟩ rfl
  obtain ⟨r, hr1, hr2, hr3, hr4, hr5, hr6⟩ := hu.repad (fun i => u.array.data i + y.data i)
  refine ⟨r, ?_, hr2, hr3, hr4, fun i hi => ?_, hr6⟩
  · unfold diffusionFastDiagOne
    rw [hms, Except.bind_ok, hT, Except.bind_ok, hu.trim, Except.bind_ok, hrhs, Except.bind_ok, hy, Except.bind_ok,
      gmap2_ok (u := ⟨⟨u.interior, u.array.data⟩, u.array.offset, u.array.grid⟩)
        (v := ⟨y, u.array.offset, u.array.grid⟩) hys.symm rfl rfl, Except.bind_ok]
    exact hr1
  · have hH : u.homogenized.Supported := hu
    have h1 := hye i hi
    dsimp only at h1
    rw [hH.lapAt_congr (x := fun i => r.data i - w i) (y := fun i => u.array.data i - w i + y.data i)
      (fun j hj => by rw [hr5 j hj]; ring) hi, hr5 i hi]
    linear_combination h1

/-- The equation in terms of the variable the solver returns. -/
theorem laplacian_lapAt {u : GridVariable d ℝ} (hu : u.Supported) {r : GridArray d ℝ} (hr2 : r.shape = u.array.shape)
    (hr3 : r.offset = u.array.offset) (hr4 : r.grid = u.array.grid) :
    ∃ L, laplacian ⟨r, u.bc⟩ = .ok L ∧ ∀ i : Idx d, InR u.array.shape i → L.data i = u.lapAt r.data i := by
  have hsup : GridVariable.Supported (⟨r, u.bc⟩ : GridVariable d ℝ) := by
    intro a
    have := hu a
    dsimp only
    rw [hr2, hr3, hr4]
    exact this
  obtain ⟨L, hL, -, hLe⟩ := laplacian_supported _ hsup
  refine ⟨L, hL, fun i hi => ?_⟩
  rw [hLe i (by show InR r.shape i; rw [hr2]; exact hi)]
  obtain ⟨⟨rs, rd⟩, ro, rg⟩ := r
  simp only at hr2 hr3 hr4
  subst hr2 hr3 hr4
  rfl

/-- One component. -/
theorem diffusionOne_ok {u : GridVariable d ℝ} (hu : u.Supported) (hN : ∀ a, 3 ≤ u.array.grid.shape a)
    (hlen : ∀ a, (u.array.grid.domain a).1 < (u.array.grid.domain a).2) (hr : u.DiffusionReady) {nu dt : ℝ} (hc : 0 ≤ nu * dt)
    {tpu : Bool} {eigh : EighFn ℝ} (heigh : ∀ m, m.Symmetric → IsEigh m (eigh m)) {circulant : Bool}
    (hcirc : circulant = true → ∀ a, u.bc.types a = (.periodic, .periodic)) (hd : d ≠ 0) {impl : Option Impl}
    (himpl : impl = none ∨ impl = some .matmul ∨ impl = some .fft ∨
      (impl = some .rfft ∧ ∀ a : Fin d, (a : ℕ) + 1 = d → u.array.grid.shape a % 2 = 0) ∨ circulant = false) :
    ∃ r, diffusionFastDiagOne tpu eigh nu dt circulant (if circulant = true then impl else some .matmul) u = .ok r ∧
      BackwardEuler u r nu dt := by
  obtain ⟨w, hrhs, hlift⟩ := diffusionRhs_ok hu hr hlen
  obtain ⟨r, hr1, hr2, hr3, hr4, hr5, hr6⟩ := diffusionOne_of_rhs hu hN hrhs hc (tpu := tpu) heigh hcirc hd himpl
  refine ⟨⟨r, u.bc⟩, hr1, rfl, hr2, hr3, hr4, ?_, hr6⟩
  obtain ⟨L, hL, hLe⟩ := laplacian_lapAt hu hr2 hr3 hr4
  refine ⟨L, hL, fun i hi => ?_⟩
  rw [hLe i hi.of_interior, ← hlift r.data i hi]
  exact hr5 i hi

theorem hasAllPeriodic_supported {v : Fin d → GridVariable d ℝ} (hv : ∀ a, (v a).Supported) :
    hasAllPeriodic (List.ofFn v) = true → ∀ a b, (v a).bc.types b = (.periodic, .periodic) := by
  intro H a b
  unfold hasAllPeriodic isPeriodicBC at H
  rw [List.all_eq_true] at H
  have h1 := H (v a) (List.mem_ofFn.2 ⟨a, rfl⟩)
  rw [List.all_eq_true] at h1
  have h2 := h1 b (List.mem_finRange b)
  have h3 : ((v a).bc.types b).1 = .periodic := by simpa using h2
  rcases (hv a b).2.2 with h | ⟨h | h, -⟩ | ⟨h, -⟩
  · exact h
  · rw [h] at h3; cases h3
  · rw [h] at h3; cases h3
  · rw [h] at h3; cases h3

/-- **C36.** `diffusion.solve_fast_diag` takes a backward Euler step of the heat equation for every component, for any nonnegative
`nu dt` (there is no stability restriction), whatever implementation is used; with walls, when the boundary conditions are those
of `DiffusionReady`. -/
theorem C36_diffusion (hd : d ≠ 0) (v : Fin d → GridVariable d ℝ) (nu dt : ℝ) (hc : 0 ≤ nu * dt) (hv : ∀ a, (v a).Supported)
    (hN : ∀ a b, 3 ≤ (v a).array.grid.shape b)
    (hlen : ∀ a b, ((v a).array.grid.domain b).1 < ((v a).array.grid.domain b).2)
    (hr : ∀ a, (v a).DiffusionReady) (tpu : Bool) (eigh : EighFn ℝ) (heigh : ∀ m, m.Symmetric → IsEigh m (eigh m))
    (impl : Option Impl) (himpl : impl = none ∨ impl = some .matmul ∨ impl = some .fft ∨
      (impl = some .rfft ∧ ∀ a b : Fin d, (b : ℕ) + 1 = d → (v a).array.grid.shape b % 2 = 0)) :
    ∃ r, diffusionFastDiag tpu eigh v nu dt impl = .ok r ∧ ∀ a, BackwardEuler (v a) (r a) nu dt := by
  obtain ⟨r, hr'⟩ := Classical.axiom_of_choice (fun a => diffusionOne_ok (hv a) (hN a) (hlen a) (hr a) hc (tpu := tpu) heigh
    (fun h b => hasAllPeriodic_supported hv h a b) hd (impl := impl) (by
      rcases himpl with h | h | h | ⟨h, he⟩
      · exact Or.inl h
      · exact Or.inr (Or.inl h)
      · exact Or.inr (Or.inr (Or.inl h))
      · exact Or.inr (Or.inr (Or.inr (Or.inl ⟨h, he a⟩)))))
  exact ⟨r, seqFin_ok _ r (fun a => (hr' a).1), fun a => (hr' a).2⟩

theorem BackwardEuler.equation {u r : GridVariable d ℝ} {nu dt : ℝ} (hu : u.Supported) (h : BackwardEuler u r nu dt) (i : Idx d)
    (hi : InR u.interior i) : r.array.data i - nu * dt * u.lapAt r.array.data i = u.array.data i := by
  obtain ⟨ra, rb⟩ := r
  obtain ⟨h1, h2, h3, h4, ⟨L, hL, hLe⟩, -⟩ := h
  simp only at h1 h2 h3 h4 hLe
  subst h1
  obtain ⟨L', hL', hLe'⟩ := laplacian_lapAt hu h2 h3 h4
  rw [hL] at hL'
  injection hL' with hL'
  subst hL'
  rw [← hLe' i hi.of_interior]
  exact hLe i hi

/-- **C36.** A backward Euler step obeys the maximum principle, whatever the size of the step: it stays between any two bounds
between which the input and the values on the Dirichlet walls lie. -/
theorem C36_diffusion_max_principle (u r : GridVariable d ℝ) (nu dt : ℝ) (hc : 0 ≤ nu * dt) (hu : u.Supported)
    (h : BackwardEuler u r nu dt) (m M : ℝ)
    (hin : ∀ i : Idx d, InR u.interior i → m ≤ u.array.data i ∧ u.array.data i ≤ M)
    (hD1 : ∀ a, (u.bc.types a).1 = .dirichlet → m ≤ (u.bc.constantValues a).1 ∧ (u.bc.constantValues a).1 ≤ M)
    (hD2 : ∀ a, (u.bc.types a).2 = .dirichlet → m ≤ (u.bc.constantValues a).2 ∧ (u.bc.constantValues a).2 ≤ M)
    (hN1 : ∀ a, (u.bc.types a).1 = .neumann → (u.bc.constantValues a).1 = 0)
    (hN2 : ∀ a, (u.bc.types a).2 = .neumann → (u.bc.constantValues a).2 = 0) (i : Idx d) (hi : InR r.array.shape i) :
    m ≤ r.array.data i ∧ r.array.data i ≤ M := by
  rw [h.shape] at hi
  by_cases hI : InR u.interior i
  · have h1 := implicit_max (s := 1) (M := M) hu hc (fun a => ⟨fun t => by rw [one_mul]; exact (hD1 a t).2,
      fun t => by rw [one_mul]; exact (hD2 a t).2, hN1 a, hN2 a⟩) (h.equation hu)
      (fun j hj => by rw [one_mul]; exact (hin j hj).2) i hI
    have h2 := implicit_max (s := -1) (M := -m) hu hc (fun a => ⟨fun t => by have := (hD1 a t).1; linarith,
      fun t => by have := (hD2 a t).1; linarith, hN1 a, hN2 a⟩) (h.equation hu)
      (fun j hj => by have := (hin j hj).1; linarith) i hI
    constructor <;> linarith
  · obtain ⟨a, ha, -, -, e⟩ := h.walls i hi hI
    rw [e]
    exact hD2 a (by rw [ha])

/-- **C36.** The backward Euler step is unique, so every implementation computes the same field. -/
theorem C36_diffusion_unique (u r r' : GridVariable d ℝ) (nu dt : ℝ) (hc : 0 ≤ nu * dt) (hu : u.Supported)
    (h : BackwardEuler u r nu dt) (h' : BackwardEuler u r' nu dt) (i : Idx d) (hi : InR u.interior i) :
    r.array.data i = r'.array.data i := by
  have he : ∀ j : Idx d, InR u.homogenized.interior j → (r.array.data j - r'.array.data j) -
      nu * dt * u.homogenized.lapAt (fun i => r.array.data i - r'.array.data i) j = 0 := by
    intro j hj
    rw [← hu.lapAt_sub]
    have h1 := h.equation hu j hj
    have h2 := h'.equation hu j hj
    linear_combination h1 - h2
  have hw : ∀ s : ℝ, u.homogenized.WallsAtMost s 0 := by
    intro s a
    have : u.homogenized.bc.constantValues a = (0, 0) := by simp [BC.constantValues, GridVariable.homogenized]
    rw [this]
    simp
  have h1 := implicit_max (u := u.homogenized) (s := 1) hu hc (hw 1) (f := fun _ => 0)
    (by exact he) (fun j _ => by simp) i hi
  have h2 := implicit_max (u := u.homogenized) (s := -1) hu hc (hw (-1)) (f := fun _ => 0)
    (by exact he) (fun j _ => by simp) i hi
  linarith

/-! ### What the solver does not support -/

theorem foldlM_error {α β : Type} (f : β → α → Except Err β) (a : α) (hf : ∀ x r, f x a ≠ .ok r) (l : List α) (ha : a ∈ l) (x r : β) :
    l.foldlM f x ≠ .ok r := by
  induction l generalizing x with
  | nil => cases ha
  | cons b l ih =>
    rw [List.foldlM_cons]
    intro h
    rw [Except.bind_eq_ok] at h
    obtain ⟨y, h1, h2⟩ := h
    rcases List.mem_cons.1 ha with e | e
    · subst e; exact hf x y h1
    · exact ih e y h2

/-- **C36.** The direct diffusion solver never returns, but raises, on an inhomogeneous Neumann wall, on a Dirichlet wall with the
value `None`, and on any Dirichlet wall unless the domain is two-dimensional. -/
theorem C36_diffusion_rejects (v : Fin d → GridVariable d ℝ) (nu dt : ℝ) (tpu : Bool) (eigh : EighFn ℝ) (impl : Option Impl)
    (a b : Fin d)
    (hbad : (((v a).bc.types b).1 = .neumann ∨ ((v a).bc.types b).2 = .neumann) ∧
        (∃ x, x ≠ 0 ∧ (((v a).bc.bcValues b).1 = some x ∨ ((v a).bc.bcValues b).2 = some x)) ∨
      ((v a).bc.types b).1 = .dirichlet ∧ (((v a).bc.bcValues b).1 = none ∨ d ≠ 2) ∨
      ((v a).bc.types b).2 = .dirichlet ∧ (((v a).bc.bcValues b).2 = none ∨ d ≠ 2)) (r : Fin d → GridVariable d ℝ) :
    diffusionFastDiag tpu eigh v nu dt impl ≠ .ok r := by
  intro h
  unfold diffusionFastDiag at h
  have h1 := (seqFin_eq_ok _ _).1 h a
  unfold diffusionFastDiagOne at h1
  rw [Except.bind_eq_ok] at h1
  obtain ⟨ms, -, h1⟩ := h1
  rw [Except.bind_eq_ok] at h1
  obtain ⟨op, -, h1⟩ := h1
  rw [Except.bind_eq_ok] at h1
  obtain ⟨inner, -, h1⟩ := h1
  rw [Except.bind_eq_ok] at h1
  obtain ⟨rhs, h1, -⟩ := h1
  unfold diffusionRhs at h1
  have hsub : d ≠ 2 → ∀ (x : NArr d ℝ) lo up r, subtractLinear x inner.grid b inner.offset lo up ≠ .ok r := by
    intro hd x lo up r
    match d, hd, b with
    | 0, _, b => exact b.elim0
    | 1, _, _ => intro h; cases h
    | n + 3, _, _ => intro h; cases h
  refine foldlM_error _ b (fun x r => ?_) _ (List.mem_finRange b) _ _ h1
  intro hcon
  rw [Except.bind_eq_ok] at hcon
  obtain ⟨y, c1, c2⟩ := hcon
  have nd : ¬ (BCType.neumann = BCType.dirichlet) := by decide
  rcases hbad with ⟨ht, z, hz, hv⟩ | ⟨ht, hv⟩ | ⟨ht, hv⟩
  · have hcond : ((v a).bc.bcValues b).1.getD 0 ≠ 0 ∨ ((v a).bc.bcValues b).2.getD 0 ≠ 0 := by
      rcases hv with e | e
      · left; rw [e]; exact hz
      · right; rw [e]; exact hz
    rcases ht with t | t
    · unfold diffusionRhsSide at c1
      dsimp only at c1
      rw [if_pos rfl, t, if_neg nd, if_pos rfl, if_pos hcond] at c1
      cases c1
    · unfold diffusionRhsSide at c2
      dsimp only at c2
      rw [if_neg (c := Side.upper = Side.lower) (by decide), t, if_neg nd, if_pos rfl, if_pos hcond] at c2
      cases c2
  · unfold diffusionRhsSide at c1
    dsimp only at c1
    rw [if_pos rfl, if_pos rfl, ht, if_pos rfl] at c1
    rcases hv with e | e
    · rw [e] at c1; cases c1
    · cases hb : ((v a).bc.bcValues b).1 with
      | none => rw [hb] at c1; cases c1
      | some z =>
        rw [hb] at c1
        dsimp only at c1
        rw [if_pos rfl] at c1
        exact hsub e _ _ _ _ c1
  · unfold diffusionRhsSide at c2
    dsimp only at c2
    rw [if_neg (c := Side.upper = Side.lower) (by decide), if_neg (c := Side.upper = Side.lower) (by decide), ht, if_pos rfl] at c2
    rcases hv with e | e
    · rw [e] at c2; cases c2
    · cases hb : ((v a).bc.bcValues b).2 with
      | none => rw [hb] at c2; cases c2
      | some z =>
        rw [hb] at c2
        dsimp only at c2
        rw [if_neg (c := Side.upper = Side.lower) (by decide)] at c2
        exact hsub e _ _ _ _ c2

/-- **C36.** `diffusion.solve_cg` raises ValueError unless all boundary conditions are periodic. -/
theorem C36_diffusion_cg_rejects (solve : GridVariable d ℝ → Except Err (GridArray d ℝ)) (v : Fin d → GridVariable d ℝ) (a b : Fin d)
    (h : ((v a).bc.types b).1 ≠ .periodic) : diffusionCG solve v = .error .value := by
  unfold diffusionCG
  rw [if_pos]
  rw [← Bool.not_eq_true]
  intro H
  unfold hasAllPeriodic isPeriodicBC at H
  rw [List.all_eq_true] at H
  have h1 := H (v a) (List.mem_ofFn.2 ⟨a, rfl⟩)
  rw [List.all_eq_true] at h1
  have h2 := h1 b (List.mem_finRange b)
  exact h (by simpa using h2)

/-- **C36** (a defect of the code).  With different Dirichlet values on the two walls of axis 0 of a square two-dimensional domain
the solver returns, but what it returns is never a backward Euler step: the linear function that should be subtracted along axis 0
is evaluated as a constant. -/
theorem C36_diffusion_axis0_defect (u : GridVariable 2 ℝ) (hu : u.Supported) (hN : ∀ a, 3 ≤ u.array.grid.shape a)
    (hlen : ∀ a, (u.array.grid.domain a).1 < (u.array.grid.domain a).2) (hsq : u.array.grid.shape 1 = u.array.grid.shape 0)
    (h1 : u.NoDirichlet 1) (ht : u.bc.types 0 = (.dirichlet, .dirichlet)) (b0 b1 : ℝ)
    (hv : u.bc.bcValues 0 = (some b0, some b1)) (hb : b0 ≠ b1) (v : Fin 2 → GridVariable 2 ℝ) (hvu : ∀ a, v a = u)
    (nu dt : ℝ) (hc : 0 < nu * dt) (tpu : Bool) (eigh : EighFn ℝ) (heigh : ∀ m, m.Symmetric → IsEigh m (eigh m))
    (impl : Option Impl) :
    ∃ r, diffusionFastDiag tpu eigh v nu dt impl = .ok r ∧ ∀ a, ¬ BackwardEuler u (r a) nu dt := by
  have hv' : v = fun _ => u := funext hvu
  subst hv'
  have ne : ¬ (1 : ℚ) = 1 / 2 := by norm_num
  have dp : ¬ (BCType.dirichlet = BCType.periodic) := by decide
  have hcirc : hasAllPeriodic (List.ofFn fun _ : Fin 2 => u) = false := by
    rw [← Bool.not_eq_true]
    intro H
    have := hasAllPeriodic_supported (v := fun _ : Fin 2 => u) (fun _ => hu) H 0 0
    rw [ht] at this; cases this
  have hcv : u.bc.constantValues 0 = (b0, b1) := by simp [BC.constantValues, hv]
  have hn0 : (u.array.grid.shape 0 : ℝ) ≠ 0 := by
    have := (hu 0).2.1
    exact_mod_cast this.ne'
  have ho : u.array.offset 0 = 1 / 2 ∨ u.array.offset 0 = 1 := by
    rcases (hu 0).2.2 with e | ⟨-, -, e⟩ | ⟨-, e⟩
    · rw [ht] at e; cases e
    · exact Or.inl e
    · exact Or.inr e
  have hrel : ∀ k, relCoord u 0 k = (u.array.offset 0 : ℝ) / (u.array.grid.shape 0 : ℝ) := by
    intro k
    have h1 : (u.array.grid.domain 0).2 - (u.array.grid.domain 0).1 ≠ 0 := (sub_pos.2 (hlen 0)).ne'
    unfold relCoord meshRow Grid.step
    dsimp only
    rw [if_pos rfl]
    field_simp
    ring
  set W : ℝ := b0 + (b1 - b0) * ((u.array.offset 0 : ℝ) / (u.array.grid.shape 0 : ℝ)) with hW
  have hWb : W ≠ b0 := by
    intro h
    have h2 : (b1 - b0) * ((u.array.offset 0 : ℝ) / (u.array.grid.shape 0 : ℝ)) = 0 := by linarith
    rcases mul_eq_zero.1 h2 with e | e
    · exact hb (sub_eq_zero.1 e).symm
    · rw [div_eq_zero_iff] at e
      rcases e with e | e
      · rcases ho with o | o <;> rw [o] at e <;> norm_num at e
      · exact hn0 e
  have hrhs : diffusionRhs ⟨⟨u.interior, u.array.data⟩, u.array.offset, u.array.grid⟩ u.bc =
      .ok ⟨u.interior, fun i => u.array.data i - W⟩ := by
    unfold diffusionRhs
    dsimp only
    rw [finRange_two, List.foldlM_cons]
    rw [rhsSide_dirichlet hu 0 .lower _ (by rw [ht]; rfl) (b := b0) (by rw [hv]; rfl) hsq rfl, Except.bind_ok,
      rhsSide_dirichlet hu 0 .upper _ (by rw [ht]; rfl) (b := b1) (by rw [hv]; rfl) hsq rfl, Except.bind_ok, List.foldlM_cons,
      rhsSide_noDirichlet h1, Except.bind_ok, rhsSide_noDirichlet h1, Except.bind_ok]
    show Except.ok _ = Except.ok _
    congr 2
    funext i
    dsimp only
    rw [if_pos rfl, if_neg (by decide), hrel]
    simp only [hW]
    ring
  obtain ⟨r, hr1, hr2, hr3, hr4, hr5, -⟩ := diffusionOne_of_rhs hu hN (w := fun _ => W) hrhs hc.le (tpu := tpu) heigh
    (circulant := false) (fun h => by cases h) (by norm_num) (impl := impl) (Or.inr (Or.inr (Or.inr (Or.inr rfl))))
  refine ⟨fun _ => ⟨r, u.bc⟩, ?_, fun _ hBE => ?_⟩
  · unfold diffusionFastDiag
    dsimp only
    rw [hcirc]
    exact seqFin_ok _ _ fun _ => hr1
  -- compare the two equations in the first cell
  let i : Idx 2 := fun _ => 0
  have hi : InR u.interior i := by
    intro a
    refine ⟨le_rfl, ?_⟩
    have := hN a
    rw [← (hu a).1] at this
    unfold GridVariable.interior
    show (0 : ℤ) < _
    split_ifs <;> omega
  have e1 := hBE.equation hu i hi
  have e2 := hr5 i hi
  have hS0 := hN 0
  rw [← (hu 0).1] at hS0
  have e3 : u.lapAt r.data i = u.homogenized.lapAt (fun i => r.data i - W) i := by
    have : nu * dt * (u.lapAt r.data i - u.homogenized.lapAt (fun i => r.data i - W) i) = 0 := by
      dsimp only at e1
      linarith
    rcases mul_eq_zero.1 this with e | e
    · exact absurd e hc.ne'
    · exact sub_eq_zero.1 e
  have hstep : u.array.grid.step 0 ≠ 0 := by
    unfold Grid.step
    exact div_ne_zero (sub_pos.2 (hlen 0)).ne' hn0
  -- the difference of the stencils is homogeneous.lapAt of W relative to the inhomogeneous walls
  have hA1 : (u.homogenized.withData fun i => r.data i - W).above 1 i = (u.withData r.data).above 1 i - W := by
    unfold GridVariable.above
    have np : ¬ (BCType.neumann = BCType.periodic) := by decide
    have nd : ¬ (BCType.neumann = BCType.dirichlet) := by decide
    have hc2 : (⟨u.bc.cls, u.bc.types, fun _ => (some 0, some 0)⟩ : BC 2 ℝ).constantValues 1 = (0, 0) := by
      simp [BC.constantValues]
    rcases h1 with h | ⟨h, hz⟩
    · simp only [GridVariable.withData, GridVariable.homogenized, h, if_true]
    · have ho : u.array.offset 1 = 1 / 2 := by
        rcases (hu 1).2.2 with e | ⟨-, -, e⟩ | ⟨e, -⟩
        · rw [h] at e; cases e
        · exact e
        · rw [h] at e; cases e
      have hc1 : u.bc.constantValues 1 = (0, 0) := by simp [BC.constantValues, hz]
      simp only [GridVariable.withData, GridVariable.homogenized, h, np, nd, ho, hc1, hc2, if_true, if_false]
      by_cases hl : i 1 + 1 < u.array.shape 1
      · simp only [hl, if_true]
      · simp only [hl, if_false, mul_zero, add_zero]
  have hB1 : (u.homogenized.withData fun i => r.data i - W).below 1 i = (u.withData r.data).below 1 i - W := by
    unfold GridVariable.below
    have np : ¬ (BCType.neumann = BCType.periodic) := by decide
    have nd : ¬ (BCType.neumann = BCType.dirichlet) := by decide
    have hc2 : (⟨u.bc.cls, u.bc.types, fun _ => (some 0, some 0)⟩ : BC 2 ℝ).constantValues 1 = (0, 0) := by
      simp [BC.constantValues]
    rcases h1 with h | ⟨h, hz⟩
    · simp only [GridVariable.withData, GridVariable.homogenized, h, if_true]
    · have ho : u.array.offset 1 = 1 / 2 := by
        rcases (hu 1).2.2 with e | ⟨-, -, e⟩ | ⟨e, -⟩
        · rw [h] at e; cases e
        · exact e
        · rw [h] at e; cases e
      have hc1 : u.bc.constantValues 1 = (0, 0) := by simp [BC.constantValues, hz]
      simp only [GridVariable.withData, GridVariable.homogenized, h, np, nd, ho, hc1, hc2, if_true, if_false]
      by_cases hl : 0 < i 1
      · simp only [hl, if_true]
      · simp only [hl, if_false, mul_zero, sub_zero]
  have hc2 : (⟨u.bc.cls, u.bc.types, fun _ => (some 0, some 0)⟩ : BC 2 ℝ).constantValues 0 = (0, 0) := by
    simp [BC.constantValues]
  have hi0 : ¬ (0 < i 0) := by simp [i]
  have hA0 : (u.homogenized.withData fun i => r.data i - W).above 0 i = (u.withData r.data).above 0 i - W := by
    unfold GridVariable.above
    rcases ho with o | o
    · simp only [GridVariable.withData, GridVariable.homogenized, ht, dp, o, if_true, if_false]
      have hl : i 0 + 1 < u.array.shape 0 := by simp only [i]; omega
      simp only [hl, if_true]
    · simp only [GridVariable.withData, GridVariable.homogenized, ht, dp, o, ne, if_false]
      have hl : i 0 + 2 < u.array.shape 0 := by simp only [i]; omega
      simp only [hl, if_true]
  obtain ⟨k, hk, hB0⟩ : ∃ k : ℝ, k ≠ 0 ∧ (u.homogenized.withData fun i => r.data i - W).below 0 i =
      (u.withData r.data).below 0 i - W + k * (W - b0) := by
    unfold GridVariable.below
    rcases ho with o | o
    · refine ⟨2, two_ne_zero, ?_⟩
      simp only [GridVariable.withData, GridVariable.homogenized, ht, dp, o, hcv, hc2, hi0, if_true, if_false]
      ring
    · refine ⟨1, one_ne_zero, ?_⟩
      simp only [GridVariable.withData, GridVariable.homogenized, ht, dp, o, ne, hcv, hc2, hi0, if_false]
      ring
  unfold GridVariable.lapAt at e3
  rw [Fin.sum_univ_two, Fin.sum_univ_two, hA0, hB0, hA1, hB1, show u.homogenized.array.grid = u.array.grid from rfl] at e3
  have : k * (W - b0) / u.array.grid.step 0 ^ 2 = 0 := by
    linear_combination -e3
  rcases div_eq_zero_iff.1 this with e | e
  · rcases mul_eq_zero.1 e with e | e
    · exact hk e
    · exact hWb (sub_eq_zero.1 e)
  · exact hstep (pow_eq_zero_iff two_ne_zero |>.1 e)

/-! ## The hypotheses are met by concrete data -/

namespace Fixtures

/-- a channel velocity with a moving upper wall: Couette flow, periodic along x, on a 3 × 4 grid -/
noncomputable def couette (a : Fin 2) : GridVariable 2 ℝ :=
  ⟨⟨⟨![3, 4], fun i => if a = 0 then (i 0 : ℝ) * (i 1 : ℝ) else if i 1 = 3 then 0 else (i 0 : ℝ)⟩,
    fun b => if b = a then 1 else 1 / 2, g34r⟩,
    ⟨.constant, fun b => if b = 0 then (.periodic, .periodic) else (.dirichlet, .dirichlet),
      fun b => if b = 0 then (some 0, some 0) else if a = 0 then (some 0, some 1) else (some 0, some 0)⟩⟩

theorem couette_supported (a : Fin 2) : (couette a).Supported := by
  intro b
  fin_cases b
  · exact ⟨rfl, by simp [couette, g34r], Or.inl rfl⟩
  · refine ⟨rfl, by simp [couette, g34r], Or.inr ?_⟩
    fin_cases a
    · left; exact ⟨Or.inl rfl, Or.inl rfl, rfl⟩
    · right; exact ⟨rfl, rfl⟩

/-- The diffusion theorem applies to Couette flow with a time step far above any explicit stability limit. -/
example : ∃ r, diffusionFastDiag false exists_eigh.choose couette 1 1000 none = .ok r ∧
    ∀ a, BackwardEuler (couette a) (r a) 1 1000 := by
  refine C36_diffusion (by norm_num) couette 1 1000 (by norm_num) couette_supported (fun a b => ?_) (fun a b => ?_) (fun a => ?_)
    false _ exists_eigh.choose_spec none (Or.inl rfl)
  · fin_cases b <;> simp [couette, g34r]
  · fin_cases b <;> simp [couette, g34r]
  · refine Or.inr (Or.inr ⟨rfl, fun b => ⟨fun hb => ?_, fun hb => ?_⟩⟩)
    · obtain rfl : b = 0 := Fin.ext hb
      exact Or.inl rfl
    · obtain rfl : b = 1 := Fin.ext hb
      refine ⟨rfl, ?_⟩
      fin_cases a
      · exact ⟨0, 1, rfl⟩
      · exact ⟨0, 0, rfl⟩

/-- a temperature between a cold and a hot wall along x, periodic along y, on a 3 × 3 grid -/
noncomputable def hotWall : GridVariable 2 ℝ :=
  ⟨⟨⟨![3, 3], fun i => (i 0 : ℝ)⟩, fun _ => 1 / 2, ⟨![3, 3], ![(0, 1), (0, 1)]⟩⟩,
    ⟨.constant, fun b => if b = 0 then (.dirichlet, .dirichlet) else (.periodic, .periodic),
      fun b => if b = 0 then (some 0, some 1) else (some 0, some 0)⟩⟩

/-- The defect affects this variable. -/
example : ∃ r, diffusionFastDiag false exists_eigh.choose (fun _ => hotWall) 1 1 none = .ok r ∧
    ∀ a, ¬ BackwardEuler hotWall (r a) 1 1 := by
  refine C36_diffusion_axis0_defect hotWall (fun b => ?_) (fun b => ?_) (fun b => ?_) rfl (Or.inl rfl) rfl 0 1 rfl (by norm_num)
    _ (fun _ => rfl) 1 1 (by norm_num) false _ exists_eigh.choose_spec none
  · fin_cases b
    · exact ⟨rfl, by simp [hotWall], Or.inr (Or.inl ⟨Or.inl rfl, Or.inl rfl, rfl⟩)⟩
    · exact ⟨rfl, by simp [hotWall], Or.inl rfl⟩
  · fin_cases b <;> simp [hotWall]
  · fin_cases b <;> simp [hotWall]

/-- On one-dimensional data with Dirichlet walls the solver always raises. -/
example (r : Fin 1 → GridVariable 1 ℝ) : diffusionFastDiag false exists_eigh.choose (fun _ => ⟨⟨⟨fun _ => 4, fun i => (i 0 : ℝ)⟩,
    fun _ => 1 / 2, ⟨fun _ => 4, fun _ => (0, 1)⟩⟩, dirichletBC 1 none⟩) 1 1 none ≠ .ok r :=
  C36_diffusion_rejects _ _ _ _ _ _ 0 0 (Or.inr (Or.inl ⟨rfl, Or.inr (by norm_num)⟩)) r

end Fixtures

end JaxCfd
