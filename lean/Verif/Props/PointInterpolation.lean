import Verif.Model.PointInterpolation
import Verif.Props.SpectralVelocity
import Verif.Lemmas.Parseval
import Verif.Props.FD
import Mathlib.Algebra.BigOperators.Ring.Finset

/-!
# C66: interpolation at a point
-/

namespace JaxCfd
variable {d : ℕ}

/-! ### Indices -/

theorem mirrorIndex_inside {k n : ℤ} (hn : 2 ≤ n) (h0 : 0 ≤ k) (h1 : k < n) : mirrorIndex k n = k := by
  unfold mirrorIndex
  rcases lt_or_ge k (n - 1) with h | h
  · rw [Int.emod_eq_of_lt (by omega) (by omega), add_sub_cancel_right, abs_of_nonneg h0]
  · have : k = n - 1 := by omega
    subst this
    rw [show n - 1 + (n - 1) = 2 * (n - 1) by ring, Int.emod_self, zero_sub, abs_neg, abs_of_nonneg h0]

theorem mirrorIndex_range (k : ℤ) {n : ℤ} (hn : 2 ≤ n) : 0 ≤ mirrorIndex k n ∧ mirrorIndex k n < n := by
  unfold mirrorIndex
  have h1 := Int.emod_nonneg (k + (n - 1)) (show 2 * (n - 1) ≠ 0 by omega)
  have h2 := Int.emod_lt_of_pos (k + (n - 1)) (show 0 < 2 * (n - 1) by omega)
  refine ⟨abs_nonneg _, abs_lt.2 ⟨by omega, by omega⟩⟩

theorem mirrorIndex_neg (k : ℤ) {n : ℤ} (hn : 2 ≤ n) : mirrorIndex (-k) n = mirrorIndex k n := by
  unfold mirrorIndex
  have hs : 0 < 2 * (n - 1) := by omega
  obtain ⟨q, hq⟩ : ∃ q, k + (n - 1) = (k + (n - 1)) % (2 * (n - 1)) + q * (2 * (n - 1)) := ⟨(k + (n - 1)) / (2 * (n - 1)), by
    have := Int.emod_add_mul_ediv (k + (n - 1)) (2 * (n - 1)); linarith⟩
  have h1 := Int.emod_nonneg (k + (n - 1)) hs.ne'
  have h2 := Int.emod_lt_of_pos (k + (n - 1)) hs
  generalize (k + (n - 1)) % (2 * (n - 1)) = r at hq h1 h2
  rcases eq_or_lt_of_le h1 with h | h
  · subst h
    have : -k + (n - 1) = 0 + (1 - q) * (2 * (n - 1)) := by linarith
    rw [this, Int.add_mul_emod_self_right, Int.zero_emod]
  · have : -k + (n - 1) = (2 * (n - 1) - r) + (-q) * (2 * (n - 1)) := by linarith
    rw [this, Int.add_mul_emod_self_right, Int.emod_eq_of_lt (by omega) (by omega), abs_sub_comm]
    congr 1
    ring

theorem mirrorIndex_period (k q : ℤ) (n : ℤ) : mirrorIndex (k + q * (2 * (n - 1))) n = mirrorIndex k n := by
  unfold mirrorIndex
  rw [show k + q * (2 * (n - 1)) + (n - 1) = k + (n - 1) + q * (2 * (n - 1)) by ring, Int.add_mul_emod_self_right]

theorem mirrorIndex_odd (k : ℤ) (n : ℕ) : mirrorIndex (2 * k + 1) (2 * n + 1) % 2 = 1 := by
  unfold mirrorIndex
  have e : (2 * k + 1 + (2 * (n : ℤ) + 1 - 1)) % (2 * (2 * (n : ℤ) + 1 - 1)) % 2 = 1 := by
    rw [Int.emod_emod_of_dvd _ (Dvd.intro _ rfl)]
    omega
  generalize (2 * k + 1 + (2 * (n : ℤ) + 1 - 1)) % (2 * (2 * (n : ℤ) + 1 - 1)) = r at e
  rcases abs_cases (r - (2 * (n : ℤ) + 1 - 1)) with ⟨h, -⟩ | ⟨h, -⟩ <;> rw [h] <;> omega

/-- A mode is usable for an axis with `n` entries: JAX's `mirror` divides by `2(n - 1)`. -/
def ExtendMode.Usable (mode : ExtendMode) (n : ℕ) : Prop := 0 < n ∧ (mode = .mirror → 2 ≤ n)

theorem ExtendMode.fix_inside {mode : ExtendMode} {n : ℕ} (h : mode.Usable n) {k : ℤ} (h0 : 0 ≤ k) (h1 : k < n) : mode.fix n k = k := by
  cases mode with
  | constant => rfl
  | nearest => unfold ExtendMode.fix; dsimp only; omega
  | wrap => exact Int.emod_eq_of_lt h0 h1
  | mirror => exact mirrorIndex_inside (by have := h.2 rfl; omega) h0 h1
  | reflect =>
      unfold ExtendMode.fix
      dsimp only
      rw [mirrorIndex_inside (by have := h.1; omega) (by omega) (by omega)]
      omega

theorem ExtendMode.fix_range {mode : ExtendMode} {n : ℕ} (h : mode.Usable n) (hm : mode ≠ .constant) (k : ℤ) : 0 ≤ mode.fix n k ∧ mode.fix n k < n := by
  have hn : (0 : ℤ) < n := by have := h.1; omega
  cases mode with
  | constant => exact absurd rfl hm
  | nearest => unfold ExtendMode.fix; dsimp only; omega
  | wrap => exact ⟨Int.emod_nonneg _ hn.ne', Int.emod_lt_of_pos _ hn⟩
  | mirror => exact mirrorIndex_range _ (by have := h.2 rfl; omega)
  | reflect =>
      have h1 := mirrorIndex_range (2 * k + 1) (n := 2 * n + 1) (by omega)
      have h2 := mirrorIndex_odd k n
      unfold ExtendMode.fix
      dsimp only
      omega

/-! ### The kernel form -/

open Classical in
/-- The weight of entry `j` of an axis with `n` entries for the index position `x`. -/
noncomputable def axisWeight (order : ℤ) (mode : ExtendMode) (n : ℕ) (x : ℝ) (j : ℤ) : ℝ :=
  if order = 0 then (if mode.fix n (roundHalfAway x) = j then 1 else 0)
  else (1 - Int.fract x) * (if mode.fix n ⌊x⌋ = j then 1 else 0) + Int.fract x * (if mode.fix n (⌊x⌋ + 1) = j then 1 else 0)

open Classical in
theorem entry_eq {mode : ExtendMode} {u : NArr d ℝ} (h : ∀ a, mode.Usable (u.shape a)) (cval : ℝ) (k : Idx d) :
    mode.entry cval u k = cval + ∑ j ∈ box u.shape, (u.data j - cval) * ∏ a, (if mode.fix (u.shape a) (k a) = j a then (1 : ℝ) else 0) := by
  have hprod : ∀ j : Idx d, (∏ a, (if mode.fix (u.shape a) (k a) = j a then (1 : ℝ) else 0)) = if j = (fun a => mode.fix (u.shape a) (k a)) then 1 else 0 := by
    intro j
    split_ifs with he
    · rw [he]
      simp
    · obtain ⟨a, ha⟩ : ∃ a, j a ≠ mode.fix (u.shape a) (k a) := by
        by_contra hc
        push Not at hc
        exact he (funext hc)
      exact Finset.prod_eq_zero (Finset.mem_univ a) (if_neg fun h => ha h.symm)
  simp only [hprod, mul_ite, mul_one, mul_zero]
  rw [Finset.sum_ite_eq']
  unfold ExtendMode.entry
  by_cases hin : (fun a => mode.fix (u.shape a) (k a)) ∈ box u.shape
  · rw [if_pos hin, if_neg, add_sub_cancel]
    rintro ⟨hm, hk⟩
    subst hm
    exact hk (inr_of_mem_box hin)
  · rw [if_neg hin, add_zero, if_pos]
    have hm : mode = .constant := by
      by_contra hm
      exact hin (mem_box.2 fun a => ExtendMode.fix_range (h a) hm (k a))
    refine ⟨hm, fun hk => hin ?_⟩
    subst hm
    exact mem_box.2 hk

theorem mapCoordinates_eq {mode : ExtendMode} {u : NArr d ℝ} (h : ∀ a, mode.Usable (u.shape a)) (cval : ℝ) (x : Fin d → ℝ) {order : ℤ} (ho : order = 0 ∨ order = 1) :
    mapCoordinates u x order mode cval = .ok (cval + ∑ j ∈ box u.shape, (u.data j - cval) * ∏ a, axisWeight order mode (u.shape a) (x a) (j a)) := by
  classical
  unfold mapCoordinates
  rcases ho with rfl | rfl
  · rw [if_pos rfl, entry_eq h]
    simp only [axisWeight, if_true]
  · rw [if_neg one_ne_zero, if_pos rfl]
    congr 1
    simp only [entry_eq h]
    have hw : ∀ g : Fin d → Bool → ℝ, ∑ b : Fin d → Bool, (∏ a, if b a = true then x a - ⌊x a⌋ else 1 - (x a - ⌊x a⌋)) * ∏ a, g a (b a) =
        ∏ a, ((x a - ⌊x a⌋) * g a true + (1 - (x a - ⌊x a⌋)) * g a false) := by
      intro g
      have := (Finset.prod_univ_sum (fun _ : Fin d => (Finset.univ : Finset Bool))
        (fun a (b : Bool) => (if b = true then x a - ⌊x a⌋ else 1 - (x a - ⌊x a⌋)) * g a b))
      rw [Fintype.piFinset_univ] at this
      simp only [← Finset.prod_mul_distrib]
      rw [← this]
      refine Finset.prod_congr rfl fun a _ => ?_
      rw [Fintype.sum_bool]
      simp
    have h1 : ∑ b : Fin d → Bool, (∏ a, if b a = true then x a - ⌊x a⌋ else 1 - (x a - ⌊x a⌋)) = 1 := by
      have := hw fun _ _ => 1
      simpa using this
    simp only [mul_add, Finset.sum_add_distrib]
    rw [← Finset.sum_mul, h1, one_mul]
    congr 1
    simp only [Finset.mul_sum]
    rw [Finset.sum_comm]
    refine Finset.sum_congr rfl fun j _ => ?_
    have := hw fun a b => if mode.fix (u.shape a) (⌊x a⌋ + if b = true then 1 else 0) = j a then 1 else 0
    have e : ∀ b : Fin d → Bool, (∏ a, if b a = true then x a - ⌊x a⌋ else 1 - (x a - ⌊x a⌋)) * ((u.data j - cval) * ∏ a, (if mode.fix (u.shape a) (⌊x a⌋ + if b a = true then 1 else 0) = j a then (1 : ℝ) else 0)) =
        (u.data j - cval) * ((∏ a, if b a = true then x a - ⌊x a⌋ else 1 - (x a - ⌊x a⌋)) * ∏ a, (if mode.fix (u.shape a) (⌊x a⌋ + if b a = true then 1 else 0) = j a then (1 : ℝ) else 0)) := fun b => by ring
    simp only [e]
    rw [← Finset.mul_sum, this]
    congr 1
    refine Finset.prod_congr rfl fun a _ => ?_
    unfold axisWeight Int.fract
    rw [if_neg one_ne_zero]
    simp
    ring

theorem axisWeight_nonneg (order : ℤ) (mode : ExtendMode) (n : ℕ) (x : ℝ) (j : ℤ) : 0 ≤ axisWeight order mode n x j := by
  have h1 := Int.fract_nonneg x
  have h2 := Int.fract_lt_one x
  unfold axisWeight
  split_ifs <;> linarith

theorem axisWeight_sum {order : ℤ} {mode : ExtendMode} {n : ℕ} (h : mode.Usable n) (x : ℝ) :
    ∑ j ∈ Finset.Ico (0 : ℤ) n, axisWeight order mode n x j ≤ 1 ∧ (mode ≠ .constant → ∑ j ∈ Finset.Ico (0 : ℤ) n, axisWeight order mode n x j = 1) := by
  classical
  have h1 := Int.fract_nonneg x
  have h2 := Int.fract_lt_one x
  have hs : ∀ k : ℤ, ∑ j ∈ Finset.Ico (0 : ℤ) n, (if mode.fix n k = j then (1 : ℝ) else 0) = if 0 ≤ mode.fix n k ∧ mode.fix n k < n then 1 else 0 := by
    intro k
    rw [Finset.sum_ite_eq]
    simp only [Finset.mem_Ico]
  unfold axisWeight
  rcases eq_or_ne order 0 with ho | ho
  · simp only [if_pos ho, hs]
    exact ⟨by split_ifs <;> norm_num, fun hm => if_pos (ExtendMode.fix_range h hm _)⟩
  · simp only [if_neg ho, Finset.sum_add_distrib, ← Finset.mul_sum, hs]
    refine ⟨by split_ifs <;> linarith, fun hm => ?_⟩
    rw [if_pos (ExtendMode.fix_range h hm _), if_pos (ExtendMode.fix_range h hm _)]
    ring

theorem sum_box_prod {s : Fin d → ℕ} (w : Fin d → ℤ → ℝ) : ∑ j ∈ box s, ∏ a, w a (j a) = ∏ a, ∑ k ∈ Finset.Ico (0 : ℤ) (s a), w a k := by
  unfold box
  rw [Finset.prod_univ_sum]

/-! ### The properties -/

/-- The position in space of the (possibly fractional) index `x` of the array `c`: data point `i` sits at `lower + (i + offset) step`. -/
noncomputable def place (c : GridArray d ℝ) (x : Fin d → ℝ) : Fin d → ℝ := fun a => (c.grid.domain a).1 + (x a + c.offset a) * c.grid.step a

/-- Every point is the position of some index. -/
theorem exists_place {c : GridArray d ℝ} (hg : c.grid.Proper) (p : Fin d → ℝ) : ∃ x, place c x = p := by
  refine ⟨fun a => (p a - (c.grid.domain a).1) / c.grid.step a - c.offset a, funext fun a => ?_⟩
  have := (hg.step_pos a).ne'
  unfold place
  field_simp
  ring

theorem pointInterpolation_place {c : GridArray d ℝ} (hd : d ≠ 0) (hg : c.grid.Proper) (x : Fin d → ℝ) (order : ℤ) {mode : String} {m : ExtendMode}
    (hm : ExtendMode.parse mode = .ok m) (cval : ℝ) : pointInterpolation (place c x) c order mode cval = mapCoordinates c.toNArr x order m cval := by
  unfold pointInterpolation
  rw [if_neg hd]
  show (ExtendMode.parse mode >>= _) = _
  rw [hm, Except.bind_ok]
  congr 1
  funext a
  have h1 : (c.grid.shape a : ℝ) ≠ 0 := by exact_mod_cast (hg a).1
  have h2 : (c.grid.domain a).2 - (c.grid.domain a).1 ≠ 0 := by have := (hg a).2; intro h; linarith
  unfold place Grid.step
  field_simp
  ring

/-- The names of the modes, as documented. -/
def ExtendMode.name : ExtendMode → String
  | .constant => "constant"
  | .nearest => "nearest"
  | .wrap => "wrap"
  | .mirror => "mirror"
  | .reflect => "reflect"

theorem ExtendMode.parse_name (m : ExtendMode) : ExtendMode.parse m.name = .ok m := by cases m <;> rfl

/-- The arguments of a valid call: at least one dimension, a domain and an array that are not empty, order 0 or 1 and a known mode (`mirror` needs two points per
axis). -/
structure ValidCall (c : GridArray d ℝ) (order : ℤ) (mode : String) (m : ExtendMode) : Prop where
  dim : d ≠ 0
  grid : c.grid.Proper
  order : order = 0 ∨ order = 1
  mode : mode = m.name
  usable : ∀ a, 0 < c.shape a ∧ (m = .mirror → 2 ≤ c.shape a)

theorem ValidCall.parse {c : GridArray d ℝ} {order : ℤ} {mode : String} {m : ExtendMode} (h : ValidCall c order mode m) : ExtendMode.parse mode = .ok m := by
  rw [h.mode]
  exact m.parse_name

theorem ValidCall.eq {c : GridArray d ℝ} {order : ℤ} {mode : String} {m : ExtendMode} (h : ValidCall c order mode m) (x : Fin d → ℝ) (cval : ℝ) :
    pointInterpolation (place c x) c order mode cval =
      .ok (cval + ∑ j ∈ box c.shape, (c.data j - cval) * ∏ a, axisWeight order m (c.shape a) (x a) (j a)) := by
  rw [pointInterpolation_place h.dim h.grid x order h.parse]
  exact mapCoordinates_eq (u := c.toNArr) h.usable cval x h.order

theorem roundHalfAway_int (k : ℤ) : roundHalfAway (k : ℝ) = k := by
  unfold roundHalfAway
  split_ifs
  · exact Int.floor_eq_iff.2 ⟨by linarith, by linarith⟩
  · exact Int.ceil_eq_iff.2 ⟨by linarith, by linarith⟩

theorem axisWeight_int {order : ℤ} {mode : ExtendMode} {n : ℕ} (h : mode.Usable n) {k : ℤ} (h0 : 0 ≤ k) (h1 : k < n) (j : ℤ) :
    axisWeight order mode n (k : ℝ) j = if k = j then 1 else 0 := by
  classical
  unfold axisWeight
  rw [roundHalfAway_int, Int.fract_intCast, Int.floor_intCast, ExtendMode.fix_inside h h0 h1]
  split_ifs <;> simp

/-- **C66.** At the position of a data point `point_interpolation` returns that entry, for either order and every mode. -/
theorem C66_data_points (c : GridArray d ℝ) (order : ℤ) (mode : String) (m : ExtendMode) (h : ValidCall c order mode m) (cval : ℝ) (i : Idx d) (hi : InR c.shape i) :
    pointInterpolation (place c fun a => (i a : ℝ)) c order mode cval = .ok (c.data i) := by
  classical
  rw [h.eq]
  congr 1
  have : ∀ j : Idx d, ∏ a, axisWeight order m (c.shape a) (i a : ℝ) (j a) = if j = i then 1 else 0 := by
    intro j
    simp only [axisWeight_int (h.usable _) (hi _).1 (hi _).2]
    split_ifs with he
    · rw [he]
      simp
    · obtain ⟨a, ha⟩ : ∃ a, j a ≠ i a := by
        by_contra hc
        push Not at hc
        exact he (funext hc)
      exact Finset.prod_eq_zero (Finset.mem_univ a) (if_neg fun h => ha h.symm)
  simp only [this, mul_ite, mul_one, mul_zero]
  rw [Finset.sum_ite_eq', if_pos (mem_box.2 hi)]
  ring

/-- **C66.** Every interpolated value, at any point inside or outside the domain, lies within any bounds of the data (and of `cval`, for the mode `constant`);
in particular constants are reproduced. -/
theorem C66_bounds (c : GridArray d ℝ) (order : ℤ) (mode : String) (m : ExtendMode) (h : ValidCall c order mode m) (cval : ℝ) (p : Fin d → ℝ) (lo hi : ℝ)
    (hb : ∀ i : Idx d, InR c.shape i → lo ≤ c.data i ∧ c.data i ≤ hi) (hc : m = .constant → lo ≤ cval ∧ cval ≤ hi) :
    ∃ r, pointInterpolation p c order mode cval = .ok r ∧ lo ≤ r ∧ r ≤ hi := by
  obtain ⟨x, rfl⟩ := exists_place h.grid p
  refine ⟨_, h.eq x cval, ?_⟩
  have hw : ∀ j ∈ box c.shape, 0 ≤ ∏ a, axisWeight order m (c.shape a) (x a) (j a) := fun j _ => Finset.prod_nonneg fun a _ => axisWeight_nonneg _ _ _ _ _
  have hsum := sum_box_prod (s := c.shape) fun a => axisWeight order m (c.shape a) (x a)
  have hle : ∑ j ∈ box c.shape, ∏ a, axisWeight order m (c.shape a) (x a) (j a) ≤ 1 := by
    rw [hsum]
    exact Finset.prod_le_one (fun a _ => Finset.sum_nonneg fun j _ => axisWeight_nonneg _ _ _ _ _) fun a _ => (axisWeight_sum (h.usable a) (x a)).1
  have hone : m ≠ .constant → ∑ j ∈ box c.shape, ∏ a, axisWeight order m (c.shape a) (x a) (j a) = 1 := fun hm => by
    rw [hsum]
    exact Finset.prod_eq_one fun a _ => (axisWeight_sum (h.usable a) (x a)).2 hm
  have e : cval + ∑ j ∈ box c.shape, (c.data j - cval) * ∏ a, axisWeight order m (c.shape a) (x a) (j a) =
      cval * (1 - ∑ j ∈ box c.shape, ∏ a, axisWeight order m (c.shape a) (x a) (j a)) + ∑ j ∈ box c.shape, c.data j * ∏ a, axisWeight order m (c.shape a) (x a) (j a) := by
    simp only [sub_mul, Finset.sum_sub_distrib, ← Finset.mul_sum]
    ring
  rw [e]
  have h1 : lo * ∑ j ∈ box c.shape, ∏ a, axisWeight order m (c.shape a) (x a) (j a) ≤ ∑ j ∈ box c.shape, c.data j * ∏ a, axisWeight order m (c.shape a) (x a) (j a) := by
    rw [Finset.mul_sum]
    exact Finset.sum_le_sum fun j hj => mul_le_mul_of_nonneg_right (hb j (inr_of_mem_box hj)).1 (hw j hj)
  have h2 : ∑ j ∈ box c.shape, c.data j * ∏ a, axisWeight order m (c.shape a) (x a) (j a) ≤ hi * ∑ j ∈ box c.shape, ∏ a, axisWeight order m (c.shape a) (x a) (j a) := by
    rw [Finset.mul_sum]
    exact Finset.sum_le_sum fun j hj => mul_le_mul_of_nonneg_right (hb j (inr_of_mem_box hj)).2 (hw j hj)
  by_cases hm : m = .constant
  · obtain ⟨hc1, hc2⟩ := hc hm
    constructor <;> nlinarith
  · rw [hone hm] at h1 h2 ⊢
    constructor <;> linarith

/-- **C66.** Interpolation is linear in the data (and the fill value). -/
theorem C66_linear (c₁ c₂ c : GridArray d ℝ) (order : ℤ) (mode : String) (m : ExtendMode) (h : ValidCall c order mode m) (α β v₁ v₂ : ℝ) (p : Fin d → ℝ)
    (h1 : c₁.shape = c.shape ∧ c₁.offset = c.offset ∧ c₁.grid = c.grid) (h2 : c₂.shape = c.shape ∧ c₂.offset = c.offset ∧ c₂.grid = c.grid)
    (hc : ∀ i : Idx d, InR c.shape i → c.data i = α * c₁.data i + β * c₂.data i) :
    ∃ r₁ r₂, pointInterpolation p c₁ order mode v₁ = .ok r₁ ∧ pointInterpolation p c₂ order mode v₂ = .ok r₂ ∧
      pointInterpolation p c order mode (α * v₁ + β * v₂) = .ok (α * r₁ + β * r₂) := by
  obtain ⟨x, rfl⟩ := exists_place h.grid p
  have hv1 : ValidCall c₁ order mode m := ⟨h.dim, h1.2.2 ▸ h.grid, h.order, h.mode, h1.1 ▸ h.usable⟩
  have hv2 : ValidCall c₂ order mode m := ⟨h.dim, h2.2.2 ▸ h.grid, h.order, h.mode, h2.1 ▸ h.usable⟩
  have p1 : place c x = place c₁ x := by unfold place; rw [h1.2.1, h1.2.2]
  have p2 : place c x = place c₂ x := by unfold place; rw [h2.2.1, h2.2.2]
  have e1 := hv1.eq x v₁
  have e2 := hv2.eq x v₂
  rw [← p1, h1.1] at e1
  rw [← p2, h2.1] at e2
  refine ⟨_, _, e1, e2, ?_⟩
  rw [h.eq]
  congr 1
  rw [mul_add, mul_add, Finset.mul_sum, Finset.mul_sum, show ∀ a b c d : ℝ, a + b + (c + d) = a + c + (b + d) from fun a b c d => by ring, ← Finset.sum_add_distrib]
  congr 1
  refine Finset.sum_congr rfl fun j hj => ?_
  rw [hc j (inr_of_mem_box hj)]
  ring

theorem axisWeight_moment {mode : ExtendMode} {n : ℕ} (h : mode.Usable n) {x : ℝ} (h0 : 0 ≤ x) (h1 : x ≤ n - 1) (g : ℤ → ℝ) (α β : ℝ) (hg : ∀ j : ℤ, 0 ≤ j → j < n → g j = α + β * j) :
    ∑ j ∈ Finset.Ico (0 : ℤ) n, g j * axisWeight 1 mode n x j = α + β * x := by
  classical
  have hf0 : 0 ≤ ⌊x⌋ := Int.floor_nonneg.2 h0
  have hf1 : ⌊x⌋ < n := by
    have : (⌊x⌋ : ℝ) ≤ n - 1 := (Int.floor_le x).trans h1
    have : (⌊x⌋ : ℝ) < n := by linarith
    exact_mod_cast this
  have hpick : ∀ k : ℤ, 0 ≤ k → k < n → ∑ j ∈ Finset.Ico (0 : ℤ) n, g j * (if mode.fix n k = j then (1 : ℝ) else 0) = α + β * k := by
    intro k hk0 hk1
    simp only [ExtendMode.fix_inside h hk0 hk1, mul_ite, mul_one, mul_zero]
    rw [Finset.sum_ite_eq, if_pos (Finset.mem_Ico.2 ⟨hk0, hk1⟩), hg k hk0 hk1]
  unfold axisWeight
  simp only [if_neg one_ne_zero, mul_add, Finset.sum_add_distrib]
  have e1 : ∀ (w : ℝ) (k : ℤ), ∑ j ∈ Finset.Ico (0 : ℤ) n, g j * (w * (if mode.fix n k = j then (1 : ℝ) else 0)) = w * ∑ j ∈ Finset.Ico (0 : ℤ) n, g j * (if mode.fix n k = j then (1 : ℝ) else 0) := by
    intro w k
    rw [Finset.mul_sum]
    exact Finset.sum_congr rfl fun j _ => by ring
  rw [e1, e1, hpick _ hf0 hf1]
  have hx := Int.floor_add_fract x
  rcases lt_or_ge (⌊x⌋ + 1) (n : ℤ) with h' | h'
  · rw [hpick _ (by omega) h']
    push_cast
    linear_combination β * hx
  · have hfz : Int.fract x = 0 := by
      have : (n : ℝ) ≤ ⌊x⌋ + 1 := by exact_mod_cast h'
      have := Int.fract_nonneg x
      linarith
    rw [hfz] at hx ⊢
    linear_combination β * hx

/-- **C66.** Order 1 is exact for products of affine functions of the coordinates, hence (by linearity) for all multilinear functions: if entry `i` is
`Π_a (α_a + β_a x_a)` at its position, then so is the interpolated value at every point between the first and the last data point of each axis, for every mode. -/
theorem C66_multilinear_exact (c : GridArray d ℝ) (mode : String) (m : ExtendMode) (h : ValidCall c 1 mode m) (cval : ℝ) (α β : Fin d → ℝ) (x : Fin d → ℝ)
    (hx : ∀ a, 0 ≤ x a ∧ x a ≤ c.shape a - 1)
    (hc : ∀ i : Idx d, InR c.shape i → c.data i = ∏ a, (α a + β a * place c (fun b => (i b : ℝ)) a)) :
    pointInterpolation (place c x) c 1 mode cval = .ok (∏ a, (α a + β a * place c x a)) := by
  rw [h.eq]
  congr 1
  have hone : ∑ j ∈ box c.shape, ∏ a, axisWeight 1 m (c.shape a) (x a) (j a) = 1 := by
    rw [sum_box_prod fun a => axisWeight 1 m (c.shape a) (x a)]
    refine Finset.prod_eq_one fun a _ => ?_
    have := axisWeight_moment (h.usable a) (hx a).1 (hx a).2 (fun _ => 1) 1 0 (fun _ _ _ => by ring)
    simpa using this
  simp only [sub_mul, Finset.sum_sub_distrib, ← Finset.mul_sum]
  rw [hone, mul_one, add_sub_cancel]
  have e : ∀ j ∈ box c.shape, c.data j * ∏ a, axisWeight 1 m (c.shape a) (x a) (j a) =
      ∏ a, (α a + β a * ((c.grid.domain a).1 + ((j a : ℝ) + c.offset a) * c.grid.step a)) * axisWeight 1 m (c.shape a) (x a) (j a) := by
    intro j hj
    rw [hc j (inr_of_mem_box hj), ← Finset.prod_mul_distrib]
    rfl
  rw [Finset.sum_congr rfl e, sum_box_prod fun a k => (α a + β a * ((c.grid.domain a).1 + ((k : ℝ) + c.offset a) * c.grid.step a)) * axisWeight 1 m (c.shape a) (x a) k]
  refine Finset.prod_congr rfl fun a _ => ?_
  rw [axisWeight_moment (h.usable a) (hx a).1 (hx a).2 (fun k => α a + β a * ((c.grid.domain a).1 + ((k : ℝ) + c.offset a) * c.grid.step a))
    (α a + β a * ((c.grid.domain a).1 + c.offset a * c.grid.step a)) (β a * c.grid.step a) (fun j _ _ => by ring)]
  unfold place
  ring

/-- If all one-dimensional weights agree, so do the interpolated values. -/
theorem same_value {c : GridArray d ℝ} {order : ℤ} {mode : String} {m : ExtendMode} (h : ValidCall c order mode m) (cval : ℝ) {x y : Fin d → ℝ}
    (hxy : ∀ a, ∀ j : ℤ, axisWeight order m (c.shape a) (x a) j = axisWeight order m (c.shape a) (y a) j) :
    pointInterpolation (place c x) c order mode cval = pointInterpolation (place c y) c order mode cval := by
  rw [h.eq, h.eq]
  simp only [hxy]

theorem roundHalfAway_near (x : ℝ) : |(roundHalfAway x : ℝ) - x| ≤ 1 / 2 := by
  unfold roundHalfAway
  rw [abs_le]
  split_ifs
  · have h1 := Int.floor_le (x + 1 / 2)
    have h2 := Int.lt_floor_add_one (x + 1 / 2)
    constructor <;> linarith
  · have h1 := Int.le_ceil (x - 1 / 2)
    have h2 := Int.ceil_lt_add_one (x - 1 / 2)
    constructor <;> linarith

/-- **C66.** The mode `nearest` (the default): outside the data the value is that at the closest point of the box of data points. -/
theorem C66_nearest (c : GridArray d ℝ) (order : ℤ) (h : ValidCall c order "nearest" .nearest) (cval : ℝ) (x : Fin d → ℝ) :
    pointInterpolation (place c x) c order "nearest" cval = pointInterpolation (place c fun a => max 0 (min (x a) (c.shape a - 1))) c order "nearest" cval := by
  classical
  refine same_value h cval fun a j => ?_
  have hn : 0 < c.shape a := (h.usable a).1
  generalize c.shape a = n at hn
  generalize x a = y
  have hU : ExtendMode.nearest.Usable n := ⟨hn, fun h => nomatch h⟩
  have hnr : (0 : ℝ) ≤ n - 1 := by
    have : (1 : ℝ) ≤ n := by exact_mod_cast hn
    linarith
  rcases lt_or_ge y 0 with h0 | h0
  · rw [min_eq_left (by linarith), max_eq_left h0.le]
    have := axisWeight_int (order := order) hU (k := 0) le_rfl (by omega) j
    push_cast at this
    rw [this]
    have hf : ⌊y⌋ ≤ -1 := by
      have : ⌊y⌋ < 0 := Int.floor_lt.2 (by exact_mod_cast h0)
      omega
    have hr : roundHalfAway y ≤ 0 := by
      have h1 := (abs_le.1 (roundHalfAway_near y)).2
      have : (roundHalfAway y : ℝ) < 1 := by linarith
      have : roundHalfAway y < 1 := by exact_mod_cast this
      omega
    have fz : ∀ k : ℤ, k ≤ 0 → ExtendMode.nearest.fix n k = 0 := fun k hk => by unfold ExtendMode.fix; dsimp only; omega
    unfold axisWeight
    rw [fz _ hr, fz _ (by omega), fz _ (by omega)]
    split_ifs <;> ring
  · rcases lt_or_ge ((n : ℝ) - 1) y with h1 | h1
    · rw [min_eq_right h1.le, max_eq_right hnr]
      have := axisWeight_int (order := order) hU (k := (n : ℤ) - 1) (by omega) (by omega) j
      push_cast at this
      rw [this]
      have hf : (n : ℤ) - 1 ≤ ⌊y⌋ := Int.le_floor.2 (by push_cast; exact h1.le)
      have hr : (n : ℤ) - 1 ≤ roundHalfAway y := by
        have h2 := (abs_le.1 (roundHalfAway_near y)).1
        have : ((n : ℝ) - 2) < roundHalfAway y := by linarith
        have : (n : ℤ) - 2 < roundHalfAway y := by exact_mod_cast this
        omega
      have fz : ∀ k : ℤ, (n : ℤ) - 1 ≤ k → ExtendMode.nearest.fix n k = n - 1 := fun k hk => by unfold ExtendMode.fix; dsimp only; omega
      unfold axisWeight
      rw [fz _ hr, fz _ (by omega), fz _ (by omega)]
      split_ifs <;> ring
    · rw [min_eq_left h1, max_eq_right h0]

/-- **C66.** The mode `wrap` with order 1 is periodic: moving the point along an axis by any multiple of the number of data points times the step — the length of the
domain, if there are as many data points as cells — does not change the value. -/
theorem C66_wrap (c : GridArray d ℝ) (h : ValidCall c 1 "wrap" .wrap) (cval : ℝ) (x : Fin d → ℝ) (q : Fin d → ℤ) :
    pointInterpolation (place c fun a => x a + q a * c.shape a) c 1 "wrap" cval = pointInterpolation (place c x) c 1 "wrap" cval := by
  refine same_value h cval fun a j => ?_
  unfold axisWeight
  rw [if_neg one_ne_zero, if_neg one_ne_zero]
  have e : x a + (q a : ℝ) * c.shape a = x a + ((q a * c.shape a : ℤ) : ℝ) := by push_cast; rfl
  rw [e, Int.fract_add_intCast, Int.floor_add_intCast]
  have f : ∀ k : ℤ, ExtendMode.wrap.fix (c.shape a) (k + q a * c.shape a) = ExtendMode.wrap.fix (c.shape a) k := fun k => Int.add_mul_emod_self_right _ _ _
  rw [f, show ⌊x a⌋ + q a * (c.shape a : ℤ) + 1 = ⌊x a⌋ + 1 + q a * c.shape a by ring, f]

theorem axisWeight_flip {mode : ExtendMode} {n : ℕ} (s : ℤ) (hf : ∀ k : ℤ, mode.fix n (s - k) = mode.fix n k) (x : ℝ) (j : ℤ) :
    axisWeight 1 mode n (s - x) j = axisWeight 1 mode n x j := by
  classical
  unfold axisWeight
  rw [if_neg one_ne_zero, if_neg one_ne_zero]
  have hx := Int.floor_add_fract x
  have h0 := Int.fract_nonneg x
  have h1 := Int.fract_lt_one x
  rcases eq_or_lt_of_le h0 with hz | hz
  · have hfl : ⌊(s : ℝ) - x⌋ = s - ⌊x⌋ := Int.floor_eq_iff.2 ⟨by push_cast; linarith, by push_cast; linarith⟩
    have hfr : Int.fract ((s : ℝ) - x) = 0 := by unfold Int.fract; rw [hfl]; push_cast; linarith
    rw [hfr, ← hz, hfl, hf]
    ring
  · have hfl : ⌊(s : ℝ) - x⌋ = s - (⌊x⌋ + 1) := Int.floor_eq_iff.2 ⟨by push_cast; linarith, by push_cast; linarith⟩
    have hfr : Int.fract ((s : ℝ) - x) = 1 - Int.fract x := by unfold Int.fract; rw [hfl]; push_cast; ring
    rw [hfr, hfl, hf, show s - (⌊x⌋ + 1) + 1 = s - ⌊x⌋ by ring, hf]
    ring

/-- **C66.** The mode `reflect` with order 1 is even about half a step before the first and half a step after the last data point of each axis — the walls, for
cell-centred data. -/
theorem C66_reflect (c : GridArray d ℝ) (h : ValidCall c 1 "reflect" .reflect) (cval : ℝ) (x : Fin d → ℝ) (a : Fin d) :
    pointInterpolation (place c (Function.update x a (-1 - x a))) c 1 "reflect" cval = pointInterpolation (place c x) c 1 "reflect" cval ∧
    pointInterpolation (place c (Function.update x a (2 * c.shape a - 1 - x a))) c 1 "reflect" cval = pointInterpolation (place c x) c 1 "reflect" cval := by
  have hn : 0 < c.shape a := (h.usable a).1
  have f1 : ∀ k : ℤ, ExtendMode.reflect.fix (c.shape a) (-1 - k) = ExtendMode.reflect.fix (c.shape a) k := by
    intro k
    unfold ExtendMode.fix
    dsimp only
    rw [show 2 * (-1 - k) + 1 = -(2 * k + 1) by ring, mirrorIndex_neg _ (by omega)]
  have f2 : ∀ k : ℤ, ExtendMode.reflect.fix (c.shape a) (2 * c.shape a - 1 - k) = ExtendMode.reflect.fix (c.shape a) k := by
    intro k
    rw [← f1 k]
    unfold ExtendMode.fix
    dsimp only
    rw [show 2 * (2 * (c.shape a : ℤ) - 1 - k) + 1 = 2 * (-1 - k) + 1 + 1 * (2 * (2 * (c.shape a : ℤ) + 1 - 1)) by ring, mirrorIndex_period]
  constructor
  · refine same_value h cval fun b j => ?_
    rcases eq_or_ne b a with rfl | hb
    · rw [Function.update_self]
      have := axisWeight_flip (-1) f1 (x b) j
      push_cast at this
      exact this
    · rw [Function.update_of_ne hb]
  · refine same_value h cval fun b j => ?_
    rcases eq_or_ne b a with rfl | hb
    · rw [Function.update_self]
      have := axisWeight_flip (2 * c.shape b - 1) f2 (x b) j
      push_cast at this
      exact this
    · rw [Function.update_of_ne hb]

/-- **C66.** The mode `mirror` with order 1 is even about the first and about the last data point of each axis. -/
theorem C66_mirror (c : GridArray d ℝ) (h : ValidCall c 1 "mirror" .mirror) (cval : ℝ) (x : Fin d → ℝ) (a : Fin d) :
    pointInterpolation (place c (Function.update x a (-x a))) c 1 "mirror" cval = pointInterpolation (place c x) c 1 "mirror" cval ∧
    pointInterpolation (place c (Function.update x a (2 * (c.shape a - 1) - x a))) c 1 "mirror" cval = pointInterpolation (place c x) c 1 "mirror" cval := by
  have hn : 2 ≤ c.shape a := (h.usable a).2 rfl
  have f1 : ∀ k : ℤ, ExtendMode.mirror.fix (c.shape a) (0 - k) = ExtendMode.mirror.fix (c.shape a) k := fun k => by
    rw [zero_sub]
    exact mirrorIndex_neg k (by omega)
  have f2 : ∀ k : ℤ, ExtendMode.mirror.fix (c.shape a) (2 * (c.shape a - 1) - k) = ExtendMode.mirror.fix (c.shape a) k := fun k => by
    rw [← f1 k]
    unfold ExtendMode.fix
    dsimp only
    rw [show 2 * ((c.shape a : ℤ) - 1) - k = 0 - k + 1 * (2 * ((c.shape a : ℤ) - 1)) by ring, mirrorIndex_period]
  constructor
  · refine same_value h cval fun b j => ?_
    rcases eq_or_ne b a with rfl | hb
    · rw [Function.update_self]
      have := axisWeight_flip 0 f1 (x b) j
      rw [Int.cast_zero, zero_sub] at this
      exact this
    · rw [Function.update_of_ne hb]
  · refine same_value h cval fun b j => ?_
    rcases eq_or_ne b a with rfl | hb
    · rw [Function.update_self]
      have := axisWeight_flip (2 * (c.shape b - 1)) f2 (x b) j
      push_cast at this
      exact this
    · rw [Function.update_of_ne hb]

/-- **C66.** The mode `constant` with order 1: one step or more beyond the data along any axis the value is `cval`. -/
theorem C66_constant (c : GridArray d ℝ) (h : ValidCall c 1 "constant" .constant) (cval : ℝ) (x : Fin d → ℝ) (a : Fin d) (hx : x a ≤ -1 ∨ (c.shape a : ℝ) ≤ x a) :
    pointInterpolation (place c x) c 1 "constant" cval = .ok cval := by
  classical
  rw [h.eq]
  congr 1
  rw [add_eq_left]
  refine Finset.sum_eq_zero fun j hj => ?_
  have hja := inr_of_mem_box hj a
  rw [Finset.prod_eq_zero (Finset.mem_univ a), mul_zero]
  unfold axisWeight ExtendMode.fix
  rw [if_neg one_ne_zero]
  dsimp only
  have hfl := Int.floor_le (x a)
  have hfr := Int.floor_add_fract (x a)
  rcases hx with hx | hx
  · have h1 : ⌊x a⌋ ≤ -1 := by
      have : (⌊x a⌋ : ℝ) ≤ ((-1 : ℤ) : ℝ) := by push_cast; linarith
      exact_mod_cast this
    rw [if_neg (by omega)]
    split_ifs with he
    · have : (⌊x a⌋ : ℝ) = -1 := by exact_mod_cast (by omega : ⌊x a⌋ = -1)
      have := Int.fract_nonneg (x a)
      rw [mul_one, mul_zero, zero_add]
      linarith
    · ring
  · have h1 : (c.shape a : ℤ) ≤ ⌊x a⌋ := Int.le_floor.2 (by exact_mod_cast hx)
    rw [if_neg (by omega), if_neg (by omega)]
    ring

/-- **C66.** Order 0 returns the value of a nearest data point: for every point less than half a step outside the box of data points, an entry whose index differs from
the position by at most one half along every axis. -/
theorem C66_order_zero (c : GridArray d ℝ) (mode : String) (m : ExtendMode) (h : ValidCall c 0 mode m) (cval : ℝ) (x : Fin d → ℝ)
    (hx : ∀ a, -1 / 2 < x a ∧ x a < c.shape a - 1 / 2) :
    ∃ i : Idx d, InR c.shape i ∧ (∀ a, |(i a : ℝ) - x a| ≤ 1 / 2) ∧ pointInterpolation (place c x) c 0 mode cval = .ok (c.data i) := by
  have hr : InR c.shape fun a => roundHalfAway (x a) := by
    intro a
    obtain ⟨h1, h2⟩ := abs_le.1 (roundHalfAway_near (x a))
    obtain ⟨h3, h4⟩ := hx a
    have l : (-1 : ℝ) < roundHalfAway (x a) := by linarith
    have u : (roundHalfAway (x a) : ℝ) < c.shape a := by linarith
    have l' : (-1 : ℤ) < roundHalfAway (x a) := by exact_mod_cast l
    exact ⟨by dsimp only; omega, by exact_mod_cast u⟩
  refine ⟨fun a => roundHalfAway (x a), hr, fun a => roundHalfAway_near _, ?_⟩
  rw [← C66_data_points c 0 mode m h cval _ hr]
  refine same_value h cval fun a j => ?_
  rw [axisWeight_int (h.usable a) (hr a).1 (hr a).2]
  unfold axisWeight
  rw [if_pos rfl, ExtendMode.fix_inside (h.usable a) (hr a).1 (hr a).2]

/-- The finding: order 0 is not periodic in the mode `wrap`, because halves are rounded away from zero: half a step before the first data point it returns the
last entry, and one period later the first. -/
theorem C66_order_zero_wrap_defect (c : GridArray 1 ℝ) (h : ValidCall c 0 "wrap" .wrap) (cval : ℝ) :
    pointInterpolation (place c fun _ => -1 / 2) c 0 "wrap" cval = .ok (c.data fun _ => c.shape 0 - 1) ∧
    pointInterpolation (place c fun _ => -1 / 2 + c.shape 0) c 0 "wrap" cval = .ok (c.data fun _ => 0) := by
  have hn : 0 < c.shape 0 := (h.usable 0).1
  have hn' : (1 : ℝ) ≤ c.shape 0 := by exact_mod_cast hn
  have r1 : roundHalfAway (-1 / 2) = -1 := by
    unfold roundHalfAway
    rw [if_neg (by norm_num)]
    norm_num
  have r2 : roundHalfAway (-1 / 2 + c.shape 0) = c.shape 0 := by
    unfold roundHalfAway
    rw [if_pos (by linarith), show (-1 / 2 + (c.shape 0 : ℝ) + 1 / 2) = ((c.shape 0 : ℤ) : ℝ) by push_cast; ring, Int.floor_intCast]
  rw [pointInterpolation_place h.dim h.grid _ 0 h.parse, pointInterpolation_place h.dim h.grid _ 0 h.parse]
  unfold mapCoordinates ExtendMode.entry ExtendMode.fix
  simp only [if_true, r1, r2]
  constructor
  · rw [if_neg (fun h => nomatch h.1)]
    congr 2
    funext a
    have : a = 0 := Subsingleton.elim _ _
    subst this
    have := Int.add_mul_emod_self_right (-1) 1 (c.shape 0 : ℤ)
    rw [← this, one_mul]
    exact (Int.emod_eq_of_lt (by omega) (by omega)).trans (by ring)
  · rw [if_neg (fun h => nomatch h.1)]
    congr 2
    funext a
    have : a = 0 := Subsingleton.elim _ _
    subst this
    exact Int.emod_self

/-- **C66.** Other orders and unknown modes are rejected with NotImplementedError. -/
theorem C66_rejects (c : GridArray d ℝ) (hd : d ≠ 0) (p : Fin d → ℝ) (order : ℤ) (mode : String) (cval : ℝ)
    (h : (order ≠ 0 ∧ order ≠ 1) ∨ mode ∉ ["constant", "nearest", "wrap", "mirror", "reflect"]) :
    pointInterpolation p c order mode cval = .error .notImplemented := by
  unfold pointInterpolation
  rw [if_neg hd]
  show (ExtendMode.parse mode >>= _) = _
  by_cases hm : mode ∈ ["constant", "nearest", "wrap", "mirror", "reflect"]
  · rcases h with ⟨h0, h1⟩ | h
    · have : ∃ m, ExtendMode.parse mode = .ok m := by
        simp only [List.mem_cons, List.not_mem_nil, or_false] at hm
        rcases hm with rfl | rfl | rfl | rfl | rfl <;> exact ⟨_, rfl⟩
      obtain ⟨m, hm⟩ := this
      rw [hm, Except.bind_ok]
      unfold mapCoordinates
      rw [if_neg h0, if_neg h1]
    · exact absurd hm h
  · have : ExtendMode.parse mode = .error .notImplemented := by
      simp only [List.mem_cons, List.not_mem_nil, or_false, not_or] at hm
      unfold ExtendMode.parse
      split <;> simp_all
    rw [this]
    rfl

/-- Non-vacuity: cell-centred data on 3 cells of length 1/3; the point 1/4 lies between the first two data points. -/
example : pointInterpolation (fun _ : Fin 1 => 1 / 4) ⟨⟨fun _ => 3, fun i => 1 + 2 * ((i 0 : ℝ) + 1 / 2) / 3⟩, fun _ => 1 / 2, ⟨fun _ => 3, fun _ => (0, 1)⟩⟩ 1 "nearest" 0 = .ok (3 / 2) := by
  have := C66_multilinear_exact (d := 1) ⟨⟨fun _ => 3, fun i => 1 + 2 * ((i 0 : ℝ) + 1 / 2) / 3⟩, fun _ => 1 / 2, ⟨fun _ => 3, fun _ => (0, 1)⟩⟩ "nearest" .nearest
    ⟨by norm_num, fun a => ⟨by norm_num, by norm_num⟩, .inr rfl, rfl, fun a => ⟨by norm_num, fun h => nomatch h⟩⟩ 0 (fun _ => 1) (fun _ => 2) (fun _ => 1 / 4)
    (fun a => ⟨by norm_num, by norm_num⟩) (fun i _ => by
      simp only [Fin.prod_univ_one, place, Grid.step]
      push_cast
      ring)
  have e : place (⟨⟨fun _ => 3, fun i => 1 + 2 * ((i 0 : ℝ) + 1 / 2) / 3⟩, fun _ => 1 / 2, ⟨fun _ => 3, fun _ => (0, 1)⟩⟩ : GridArray 1 ℝ) (fun _ => 1 / 4) = fun _ => 1 / 4 := by
    funext a
    norm_num [place, Grid.step]
  rw [e] at this
  rw [this]
  norm_num

end JaxCfd
