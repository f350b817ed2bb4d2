import Verif.Lemmas.Boundaries
import Verif.Props.Fixtures

/-!
# Property theorems: shifting and padding (C07, C08, C13)

`BC.shift`, `BC.pad` and `BC.trim` model `ConstantBoundaryConditions.shift/pad/trim`.
-/

namespace JaxCfd

variable {d : ℕ} {K : Type} [Field K] [HasNan K]

/-- **C07** A periodic variable that holds one value per grid cell: `shift(k, axis)` succeeds for every
integer `k`, and returns the cyclically rolled data at `offset + k`. -/
theorem C07_periodic_shift_is_roll (bc : BC d K) (u : GridArray d K) (k : ℤ) (ax : Fin d)
    (mode : Padding) (hper : bc.types ax = (.periodic, .periodic))
    (hs : u.shape ax = u.grid.shape ax) (hpos : 0 < u.grid.shape ax) :
    ∃ r, bc.shift u k ax mode = .ok r ∧ r.grid = u.grid ∧ r.shape = u.shape ∧
      (∀ a, r.offset a = if a = ax then u.offset a + k else u.offset a) ∧
      ∀ i, r.data i = u.data (Function.update i ax ((i ax + k) % (u.grid.shape ax : ℤ))) := by
  refine ⟨_, BC.shift_periodic bc u k ax mode hper hs hpos, rfl, rfl, ?_, ?_⟩
  · intro a
    by_cases h : a = ax
    · subst h; simp
    · simp [h]
  · intro i
    simp [rollIdx, hs]

/-- **C07** Shifts add up: shifting by `k` and then by `l` along one axis is shifting by `k + l`. -/
theorem C07_periodic_shift_add (bc : BC d K) (u r s t : GridArray d K) (k l : ℤ) (ax : Fin d)
    (m m' m'' : Padding) (hper : bc.types ax = (.periodic, .periodic))
    (hs : u.shape ax = u.grid.shape ax) (hpos : 0 < u.grid.shape ax)
    (h1 : bc.shift u k ax m = .ok r) (h2 : bc.shift r l ax m' = .ok s)
    (h3 : bc.shift u (k + l) ax m'' = .ok t) : s.Eqv t := by
  obtain rfl := BC.shift_periodic_eq h1 hper hs hpos
  obtain rfl := BC.shift_periodic_eq h2 hper hs hpos
  obtain rfl := BC.shift_periodic_eq h3 hper hs hpos
  refine ⟨?_, rfl, rfl, fun i _ => ?_⟩
  · simp [add_assoc]
  · simp only [rollIdx_add, add_comm]

/-- **C07** Shifts along different (or equal) axes commute. -/
theorem C07_periodic_shift_comm (bc : BC d K) (u r s r' s' : GridArray d K) (k l : ℤ) (a b : Fin d)
    (m m' : Padding) (ha : bc.types a = (.periodic, .periodic))
    (hb : bc.types b = (.periodic, .periodic))
    (hsa : u.shape a = u.grid.shape a) (hsb : u.shape b = u.grid.shape b)
    (hpa : 0 < u.grid.shape a) (hpb : 0 < u.grid.shape b)
    (h1 : bc.shift u k a m = .ok r) (h2 : bc.shift r l b m' = .ok s)
    (h1' : bc.shift u l b m' = .ok r') (h2' : bc.shift r' k a m = .ok s') : s.Eqv s' := by
  obtain rfl := BC.shift_periodic_eq h1 ha hsa hpa
  obtain rfl := BC.shift_periodic_eq h1' hb hsb hpb
  obtain rfl := BC.shift_periodic_eq h2 hb hsb hpb
  obtain rfl := BC.shift_periodic_eq h2' ha hsa hpa
  refine ⟨?_, rfl, rfl, fun i _ => ?_⟩
  · by_cases h : a = b
    · subst h; simp [add_right_comm]
    · simp only [Function.update_of_ne h, Function.update_of_ne (Ne.symm h)]
      rw [Function.update_comm h]
  · simp only [rollIdx_comm]

/-- **C07** Shifting by a whole number of periods leaves the data alone. -/
theorem C07_periodic_shift_period (bc : BC d K) (u r : GridArray d K) (m : ℤ) (ax : Fin d)
    (mode : Padding) (hper : bc.types ax = (.periodic, .periodic))
    (hs : u.shape ax = u.grid.shape ax) (hpos : 0 < u.grid.shape ax)
    (h : bc.shift u (m * u.grid.shape ax) ax mode = .ok r) : r.toNArr.Eqv u.toNArr := by
  rw [← hs, BC.shift_periodic bc u _ ax mode hper hs hpos] at h
  injection h with h
  subst h
  exact ⟨rfl, fun i hi => by simp only [rollIdx_size hi]⟩

section
open Fixtures
-- the hypotheses are met by a 2-d periodic variable; its shift by -5 along axis 1 is computed
example : bcPer2.types 1 = (.periodic, .periodic) ∧ u34.shape 1 = u34.grid.shape 1 ∧
    0 < u34.grid.shape 1 := by decide
example : ∃ r, bcPer2.shift u34 (-5) 1 .other = .ok r ∧ r.data ![1, 2] = 1 + 7 * 1 := by
  obtain ⟨r, h, -, -, -, hd⟩ := C07_periodic_shift_is_roll bcPer2 u34 (-5) 1 .other
    (by decide) (by decide) (by decide)
  refine ⟨r, h, ?_⟩
  rw [hd]
  norm_num [u34, g34]
end

/-- **C08** Under any boundary types and any padding mode, a shift that succeeds returns the same grid
and shape, and an offset moved by exactly `k` along the axis.  (The array must not lie entirely beyond the
upper boundary, `offset ≤ grid.shape`; see `C08_far_offset_changes_shape`.) -/
theorem C08_shift_shape_and_offset (bc : BC d K) (u r : GridArray d K) (k : ℤ) (ax : Fin d)
    (mode : Padding) (hpos : 0 < u.grid.shape ax) (ho : u.offset ax ≤ u.grid.shape ax)
    (h : bc.shift u k ax mode = .ok r) :
    r.grid = u.grid ∧ r.shape = u.shape ∧
      ∀ a, r.offset a = if a = ax then u.offset a + k else u.offset a := by
  obtain ⟨h1, h2, h3⟩ := BC.shift_spec h ho hpos
  refine ⟨h1, h2, fun a => ?_⟩
  rw [h3]
  by_cases e : a = ax
  · subst e; simp
  · simp [e]

/-- **C08** (excluded point) The shape is *not* preserved for an array lying far beyond the upper wall:
the negative slice limit of `lax.slice_in_dim` wraps around (boundaries.py:332-333). -/
theorem C08_far_offset_changes_shape :
    ∃ (bc : BC 1 ℚ) (u r : GridArray 1 ℚ),
      (@BC.shift 1 ℚ _ ⟨0⟩ bc u 0 0 .extend) = .ok r ∧ r.shape ≠ u.shape := by
  refine ⟨⟨.constant, fun _ => (.dirichlet, .dirichlet), fun _ => (some 0, some 0)⟩,
    ⟨⟨fun _ => 2, fun _ => 0⟩, fun _ => 7 / 2, ⟨fun _ => 2, fun _ => (0, 1)⟩⟩, ?_⟩
  have e : ⌈((2 : ℕ) : ℚ) + 7 / 2 - 1 - ((2 : ℕ) : ℚ)⌉ = 3 := by
    rw [Int.ceil_eq_iff]; norm_num
  have ne1 : ¬ (BCType.dirichlet = BCType.periodic) := by decide
  have e2 : Int.fract (7 / 2 : ℚ) = 1 / 2 := by
    rw [Int.fract_eq_iff]; refine ⟨by norm_num, by norm_num, 3, by norm_num⟩
  have key : (@BC.shift 1 ℚ _ ⟨0⟩ ⟨.constant, fun _ => (.dirichlet, .dirichlet), fun _ => (some 0, some 0)⟩
      ⟨⟨fun _ => 2, fun _ => 0⟩, fun _ => 7 / 2, ⟨fun _ => 2, fun _ => (0, 1)⟩⟩ 0 0 .extend).map
      (fun r => r.shape 0) = .ok 4 := by
    have t : BC.trimPadding (K := ℚ) (d := 1)
        ⟨.constant, fun _ => (.dirichlet, .dirichlet), fun _ => (some 0, some 0)⟩
        ⟨⟨fun _ => 2, fun _ => 0⟩, fun _ => 7 / 2, ⟨fun _ => 2, fun _ => (0, 1)⟩⟩ 0 .right =
        .ok (⟨⟨Function.update (fun _ => 2) 0 1, fun _ => 0⟩, fun _ => 7 / 2,
          ⟨fun _ => 2, fun _ => (0, 1)⟩⟩, (0, 3)) := by
      simp only [BC.trimPadding, BC.trimPaddingLower, BC.positiveTrim, BC.trimUpperIf, BC.trim, sliceInDim]
      norm_num [e, e2, Except.bind_ok, Except.pure_eq_ok, ne1]
    simp only [BC.shift, BC.pad1, BC.makePadding, BC.needTrimming]
    norm_num [ne1]
    rw [t]
    simp only [BC.padByType, BC.padDirichletCenter, jnpPad, Except.bind_ok, Except.pure_eq_ok, e2,
      BC.trim, sliceInDim, NArr.map2, PadMode.needsData]
    norm_num [ne1, Except.bind_ok, Except.map]
    rfl
  obtain ⟨r, h, h'⟩ := Except.exists_of_map key
  refine ⟨r, h, fun hh => ?_⟩
  rw [hh] at h'
  simp at h'

section
open Fixtures
-- the hypotheses of C08 are met, and the shift succeeds, for Dirichlet and Neumann data
example : ∃ r, bcDir.shift uCenter (-1) 0 .extend = .ok r ∧ r.shape 0 = 4 ∧ uCenter.offset 0 ≤ 4 := by
  have e2 : Int.fract (1 / 2 : ℚ) = 1 / 2 := by
    rw [Int.fract_eq_iff]; refine ⟨by norm_num, by norm_num, 0, by norm_num⟩
  have key : (bcDir.shift uCenter (-1) 0 .extend).map (fun r => r.shape 0) = .ok 4 := by
    simp only [BC.shift]
    rw [show (-1 : ℤ) = -((1 : ℕ) : ℤ) by norm_num, BC.pad1_lower _ _ _ _ _ (by norm_num)
      (by simp [bcDir]) (by simp [uCenter])]
    simp only [BC.padByType, bcDir, uCenter, e2, if_true, BC.padDirichletCenter, jnpPad, BC.trim,
      sliceInDim, PadMode.needsData]
    norm_num [Except.bind_ok, Except.pure_eq_ok, Except.map, NArr.map2]
    rfl
  obtain ⟨r, h, h'⟩ := Except.exists_of_map key
  exact ⟨r, h, h', by norm_num [uCenter]⟩
end

end JaxCfd
