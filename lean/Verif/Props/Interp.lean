import Verif.Lemmas.Interp
import Verif.Lemmas.Wall
import Verif.Props.FD
import Mathlib.Data.Rat.Cast.Order
import Mathlib.Tactic.GCongr

/-!
# Property theorems: interpolation (C23-C26)
-/

set_option linter.unusedSectionVars false

namespace JaxCfd

variable {d : ℕ} {K : Type}

section linear
variable [Field K] [HasNan K]

/-! ## C23: linear interpolation -/

/-- **C23** Under any boundary conditions, interpolating to the variable's own offset returns the variable. -/
theorem C23_own_offset (c : GridVariable d K) : linear c c.array.offset = .ok c := linear_skip c _ fun _ => rfl

/-- **C23** Under any boundary conditions, the result has exactly the requested offset, and the grid and boundary conditions
of the input. -/
theorem C23_offset_and_bc (c : GridVariable d K) (o : Fin d → ℚ) (r : GridVariable d K) (h : linear c o = .ok r) :
    r.array.offset = o ∧ r.array.grid = c.array.grid ∧ r.bc = c.bc := by
  have key : ∀ (l : List (Fin d)) (c : GridVariable d K),
      l.foldlM (fun c a => linearAlongAxis c (o a) a) c = .ok r →
      (∀ a, r.array.offset a = if a ∈ l then o a else c.array.offset a) ∧ r.array.grid = c.array.grid ∧ r.bc = c.bc := by
    intro l
    induction l with
    | nil =>
      intro c h
      injection h with h; subst h
      exact ⟨fun a => by simp, rfl, rfl⟩
    | cons a l ih =>
      intro c h
      rw [List.foldlM_cons] at h
      obtain ⟨m, hm, h⟩ := Except.bind_eq_ok.1 h
      obtain ⟨h1, h2, h3⟩ := ih m h
      obtain ⟨m1, m2, m3⟩ := linearAlongAxis_meta hm
      refine ⟨fun b => ?_, h2.trans m2, h3.trans m3⟩
      rw [h1, m1]
      by_cases hb : b = a
      · subst hb; simp
      · simp [hb]
  obtain ⟨h1, h2, h3⟩ := key _ c h
  exact ⟨funext fun a => by rw [h1]; simp, h2, h3⟩

/-- **C23** Under any boundary conditions, moving the offset along one axis by a non-zero integer `k` is the shift by `k`. -/
theorem C23_integer_is_shift (c : GridVariable d K) (ax : Fin d) (k : ℤ) (hk : k ≠ 0) (p : GridArray d K)
    (hp : c.shift k ax = .ok p) :
    ∃ r, linear c (Function.update c.array.offset ax (c.array.offset ax + k)) = .ok r ∧ r.array.toNArr = p.toNArr := by
  have hd : (c.array.offset ax + k) - c.array.offset ax = (k : ℚ) := by ring
  refine ⟨⟨⟨p.toNArr, Function.update c.array.offset ax (c.array.offset ax + k), c.array.grid⟩, c.bc⟩, ?_, rfl⟩
  refine linear_eq_along c ax _ ?_ rfl
  unfold linearAlongAxis
  rw [hd]
  simp only [Int.cast_eq_zero, hk, if_false, Int.floor_intCast, if_true]
  rw [hp]; rfl

/-- **C23** Under any boundary conditions, moving the offset along one axis by a non-integer `δ` is the combination
`w * shift(⌊δ⌋) + (1 - w) * shift(⌈δ⌉)` with the weight `w = ⌈δ⌉ - δ` strictly between 0 and 1. -/
theorem C23_convex_combination (c : GridVariable d K) (ax : Fin d) (δ : ℚ) (hδ : ∀ k : ℤ, (k : ℚ) ≠ δ)
    (p q : GridArray d K) (hp : c.shift ⌊δ⌋ ax = .ok p) (hq : c.shift ⌈δ⌉ ax = .ok q) :
    ∃ r, linear c (Function.update c.array.offset ax (c.array.offset ax + δ)) = .ok r ∧ r.array.shape = p.shape ∧
      ∃ w : ℚ, w = ⌈δ⌉ - δ ∧ 0 < w ∧ w < 1 ∧
        ∀ i, r.array.data i = (w : K) * p.data i + ((1 - w : ℚ) : K) * q.data i := by
  have hd : (c.array.offset ax + δ) - c.array.offset ax = δ := by ring
  have h0 : δ ≠ 0 := fun h => hδ 0 (by rw [h]; simp)
  refine ⟨⟨⟨p.toNArr.map2 (fun x y => ((⌈δ⌉ - δ : ℚ) : K) * x + ((1 - (⌈δ⌉ - δ) : ℚ) : K) * y) q.toNArr,
      Function.update c.array.offset ax (c.array.offset ax + δ), c.array.grid⟩, c.bc⟩, ?_, rfl, ⌈δ⌉ - δ, rfl, ?_, ?_,
      fun i => rfl⟩
  · refine linear_eq_along c ax _ ?_ rfl
    unfold linearAlongAxis
    rw [hd]
    simp only [h0, if_false, hδ ⌊δ⌋]
    rw [hp, Except.bind_ok, hq, Except.bind_ok]; rfl
  · have := Int.le_ceil δ
    have h2 := hδ ⌈δ⌉
    have : δ < ⌈δ⌉ := lt_of_le_of_ne this (Ne.symm h2)
    linarith
  · have := Int.ceil_lt_add_one δ
    linarith

/-- **C23** Between walls (Dirichlet or Neumann, any values) the interpolation of a cell-centred variable to the upper faces
is the average of the two adjacent cells, the outer cell beyond the last face being the ghost cell of the boundary
condition. -/
theorem C23_upper_faces_walls [CharZero K] (c : GridVariable d K) (hc : c.Supported) (ax : Fin d)
    (ho : c.array.offset ax = 1 / 2) :
    ∃ r, linear c (Function.update c.array.offset ax 1) = .ok r ∧ r.array.shape = c.array.shape ∧
      ∀ i, InR c.array.shape i → r.array.data i = (c.array.data i + c.above ax i) / 2 := by
  obtain ⟨p, hp, p1, -, -, p4⟩ := shift_zero_center hc ax (Or.inr ho)
  obtain ⟨q, hq, q1, -, -, q4⟩ := shift_above hc ax
  obtain ⟨r, hr, r1, w, hw, -, -, hd⟩ := C23_convex_combination c ax (1 / 2) (by
    intro k hk
    have : (2 * k : ℚ) = 1 := by linarith
    have : (2 * k : ℤ) = 1 := by exact_mod_cast this
    omega) p q (by rw [floor_half]; exact hp) (by rw [ceil_half]; exact hq)
  rw [ho] at hr
  norm_num at hr
  refine ⟨r, hr, r1.trans p1, fun i hi => ?_⟩
  rw [hd, p4 i hi, q4 i hi, hw, ceil_half]
  push_cast
  ring

/-- **C23** On a periodic grid interpolation to any offset succeeds and reproduces constants. -/
theorem C23_constants [CharZero K] (c : GridVariable d K) (h : c.Periodic) (o : Fin d → ℚ) (k : K)
    (hk : ∀ i, InR c.array.shape i → c.array.data i = k) :
    ∃ r, linear c o = .ok r ∧ r.array.shape = c.array.shape ∧ ∀ i, InR c.array.shape i → r.array.data i = k := by
  obtain ⟨f, hf, hP⟩ := linear_periodic (fun s f => ∀ i, InR s i → f i = k) (by
    intro s ax δ f hf i hi
    have h1 := hf _ (rollIdx_inR hi ax ⌊δ⌋)
    have h2 := hf _ (rollIdx_inR hi ax ⌈δ⌉)
    unfold lerp
    split_ifs
    · exact hf i hi
    · exact h1
    · rw [h1, h2]; push_cast; ring) h o hk
  exact ⟨_, hf, rfl, hP⟩

end linear

section ordered
variable [Field K] [LinearOrder K] [IsStrictOrderedRing K] [HasNan K]

/-- **C23** On a periodic grid of any rank, interpolation to any offset stays within any bounds on the data. -/
theorem C23_bounds (c : GridVariable d K) (h : c.Periodic) (o : Fin d → ℚ) (lo hi : K)
    (hb : ∀ i, InR c.array.shape i → lo ≤ c.array.data i ∧ c.array.data i ≤ hi) :
    ∃ r, linear c o = .ok r ∧ r.array.shape = c.array.shape ∧
      ∀ i, InR c.array.shape i → lo ≤ r.array.data i ∧ r.array.data i ≤ hi := by
  obtain ⟨f, hf, hP⟩ := linear_periodic (fun s f => ∀ i, InR s i → lo ≤ f i ∧ f i ≤ hi) (by
    intro s ax δ f hf i hi'
    have h1 := hf _ (rollIdx_inR hi' ax ⌊δ⌋)
    have h2 := hf _ (rollIdx_inR hi' ax ⌈δ⌉)
    unfold lerp
    split_ifs
    · exact hf i hi'
    · exact h1
    · have w0 : (0 : ℚ) ≤ floorWeight δ := by have := Int.le_ceil δ; unfold floorWeight; linarith
      have w1 : floorWeight δ ≤ (1 : ℚ) := by have := Int.ceil_lt_add_one δ; unfold floorWeight; linarith
      have k0 : (0 : K) ≤ (floorWeight δ : K) := by exact_mod_cast w0
      have k1 : (floorWeight δ : K) ≤ 1 := by exact_mod_cast w1
      push_cast
      push_cast at k0 k1
      set w : K := (⌈δ⌉ : K) - (δ : K)
      constructor
      · nlinarith [mul_le_mul_of_nonneg_left h1.1 k0, mul_le_mul_of_nonneg_left h2.1 (sub_nonneg.2 k1)]
      · nlinarith [mul_le_mul_of_nonneg_left h1.2 k0, mul_le_mul_of_nonneg_left h2.2 (sub_nonneg.2 k1)]) h o hb
  exact ⟨_, hf, rfl, hP⟩

/-! ## C24: upwind interpolation -/

/-- **C24** Upwind interpolation to the variable's own offset returns it; an offset that differs along two axes is rejected. -/
theorem C24_upwind_dispatch (c : GridVariable d K) (v : Fin d → GridVariable d K) :
    upwind c c.array.offset v = .ok c ∧
    ∀ (o : Fin d → ℚ) (a b : Fin d), a ≠ b → o a ≠ c.array.offset a → o b ≠ c.array.offset b →
      upwind c o v = .error .offset := by
  refine ⟨by simp [upwind], fun o a b hab ha hb => ?_⟩
  have h1 : a ∈ interpolationAxes c.array.offset o := by simp [interpolationAxes, Ne.symm ha]
  have h2 : b ∈ interpolationAxes c.array.offset o := by simp [interpolationAxes, Ne.symm hb]
  unfold upwind
  rw [if_neg (fun h => ha (congrFun h a).symm)]
  generalize interpolationAxes c.array.offset o = l at h1 h2
  match l with
  | [] => rfl
  | [x] => simp at h1 h2; exact absurd (h1.trans h2.symm) hab
  | _ :: _ :: _ => rfl

/-- **C24** Under any boundary conditions, upwind interpolation along one axis to the offset of the velocity component of that
axis takes, at each point, the value shifted by `⌊δ⌋` where the velocity is positive and the value shifted by `⌈δ⌉` elsewhere. -/
theorem C24_upwind_value (c : GridVariable d K) (v : Fin d → GridVariable d K) (ax : Fin d) (δ : ℚ)
    (hδ : ∀ k : ℤ, (k : ℚ) ≠ δ) (hv : (v ax).array.offset ax = c.array.offset ax + δ)
    (hg : (v ax).array.grid = c.array.grid)
    (p q : GridArray d K) (hp : c.shift ⌊δ⌋ ax = .ok p) (hq : c.shift ⌈δ⌉ ax = .ok q)
    (hs : p.shape = (v ax).array.shape) (hs' : q.shape = (v ax).array.shape) :
    ∃ r, upwind c (Function.update c.array.offset ax (c.array.offset ax + δ)) v = .ok r ∧
      r.array.offset = Function.update c.array.offset ax (c.array.offset ax + δ) ∧
      r.array.grid = c.array.grid ∧ r.array.shape = (v ax).array.shape ∧
      ∀ i, r.array.data i = if 0 < (v ax).array.data i then p.data i else q.data i := by
  have h0 : δ ≠ 0 := fun h => hδ 0 (by rw [h]; simp)
  have hne : c.array.offset ax + δ ≠ c.array.offset ax := by intro h; apply h0; linarith
  refine ⟨⟨⟨⟨p.shape, fun i => if 0 < (v ax).array.data i then p.data i else q.data i⟩,
    Function.update c.array.offset ax (c.array.offset ax + δ), c.array.grid⟩, periodicBC d⟩, ?_, rfl, rfl, hs, fun i => rfl⟩
  unfold upwind
  rw [if_neg (by
    intro h
    have := congrFun h ax
    rw [Function.update_self] at this
    exact hne this.symm), interpolationAxes_update _ _ _ hne]
  dsimp only
  unfold upwindAlong
  have hd : (v ax).array.offset ax - c.array.offset ax = δ := by rw [hv]; ring
  dsimp only
  rw [hd, if_neg (hδ _), hp, Except.bind_ok, hq, Except.bind_ok,
    jnpWhere_ok (by exact hs.symm) (hs.trans hs'.symm), Except.bind_ok,
    show consistentGrid [c.array, (v ax).array] = .ok c.array.grid from uniqueOr_eq_ok.2 ⟨by simp, by simp [hg]⟩,
    Except.bind_ok, Except.pure_eq_ok]
  simp [isPositive, NArr.map]

/-- **C24** On a periodic grid the upwind value at a face is one of the two adjacent cell values (the lower one when the flow is
upward), so it never leaves the range of the data. -/
theorem C24_upwind_range (c : GridVariable d K) (h : c.Periodic) (v : Fin d → GridVariable d K) (ax : Fin d)
    (hv : FaceVelocity c (v ax) ax) :
    ∃ r, upwind c (upperFace c ax) v = .ok r ∧ r.array.shape = c.array.shape ∧ r.array.offset = upperFace c ax ∧
      (∀ i, InR c.array.shape i → r.array.data i =
        if 0 < (v ax).array.data i then c.array.data i else c.array.data (rollIdx c.array.shape ax 1 i)) ∧
      ∀ lo hi, (∀ i, InR c.array.shape i → lo ≤ c.array.data i ∧ c.array.data i ≤ hi) →
        ∀ i, InR c.array.shape i → lo ≤ r.array.data i ∧ r.array.data i ≤ hi := by
  refine ⟨_, upwind_half h ax v hv.1 hv.2.1 (by rw [hv.2.2]; simp), rfl, rfl, ?_, ?_⟩
  · intro i hi
    simp only [rollIdx_zero hi]
  · intro lo hi' hb i hi
    simp only [rollIdx_zero hi]
    split_ifs
    · exact hb i hi
    · exact hb _ (rollIdx_inR hi ax 1)

/-! ## C25: the van Leer limiter and Lax-Wendroff -/

/-- **C25** The van Leer limiter is 0 for `r ≤ 0`, lies in `[0, 2]`, is at most `2 r` for `r ≥ 0`, is 1 at 1, is symmetric
(`φ(r) = r φ(1/r)` for `r > 0`) and is monotone. -/
theorem C25_van_leer (r : K) :
    (r ≤ 0 → vanLeer r = 0) ∧ 0 ≤ vanLeer r ∧ vanLeer r < 2 ∧ (0 ≤ r → vanLeer r ≤ 2 * r) ∧ vanLeer (1 : K) = 1 ∧
    (0 < r → vanLeer r = r * vanLeer (1 / r)) ∧ ∀ s, r ≤ s → vanLeer r ≤ vanLeer s := by
  have pos : ∀ r : K, 0 < r → vanLeer r = 2 * r / (1 + r) := by
    intro r hr
    have : 1 + r ≠ 0 := by positivity
    simp [vanLeer, safeDiv, hr, this]
  have neg : ∀ r : K, r ≤ 0 → vanLeer r = 0 := fun r hr => by simp [vanLeer, not_lt.2 hr]
  have nonneg : ∀ r : K, 0 ≤ vanLeer r := by
    intro r
    rcases le_or_gt r 0 with hr | hr
    · rw [neg r hr]
    · rw [pos r hr]; positivity
  refine ⟨neg r, nonneg r, ?_, ?_, ?_, ?_, ?_⟩
  · rcases le_or_gt r 0 with hr | hr
    · rw [neg r hr]; norm_num
    · rw [pos r hr, div_lt_iff₀ (by positivity)]; linarith
  · intro h0
    rcases eq_or_lt_of_le h0 with hr | hr
    · rw [neg r hr.symm.le]; linarith
    · rw [pos r hr, div_le_iff₀ (by positivity)]; nlinarith [mul_pos hr hr]
  · rw [pos 1 one_pos]; norm_num
  · intro hr
    rw [pos r hr, pos (1 / r) (by positivity)]
    field_simp
    ring
  · intro s hrs
    rcases le_or_gt r 0 with hr | hr
    · rw [neg r hr]; exact nonneg s
    · have hs : 0 < s := lt_of_lt_of_le hr hrs
      rw [pos r hr, pos s hs, div_le_div_iff₀ (by positivity) (by positivity)]
      nlinarith

/-- **C25** On a periodic grid the Lax-Wendroff face value is the average of the two adjacent cells where the Courant number
`u dt / dx` is 0, and the upstream cell value where it is 1 or -1. -/
theorem C25_lax_wendroff (c : GridVariable d K) (h : c.Periodic) (v : Fin d → GridVariable d K) (ax : Fin d) (dt : K)
    (hv : FaceVelocity c (v ax) ax) (hstep : 0 < c.array.grid.step ax) :
    ∃ r, laxWendroff c (upperFace c ax) v dt = .ok r ∧ r.array.shape = c.array.shape ∧ r.array.offset = upperFace c ax ∧
      ∀ i, InR c.array.shape i →
        ((v ax).array.data i * dt / c.array.grid.step ax = 0 →
          r.array.data i = (c.array.data i + c.array.data (rollIdx c.array.shape ax 1 i)) / 2) ∧
        (0 < dt → (v ax).array.data i * dt / c.array.grid.step ax = 1 → r.array.data i = c.array.data i) ∧
        (0 < dt → (v ax).array.data i * dt / c.array.grid.step ax = -1 →
          r.array.data i = c.array.data (rollIdx c.array.shape ax 1 i)) := by
  refine ⟨_, laxWendroff_half h ax v dt hv.1 hv.2.1 (by rw [hv.2.2]; simp), rfl, rfl, fun i hi => ?_⟩
  simp only [rollIdx_zero hi]
  set u := (v ax).array.data i
  have e : dt / c.array.grid.step ax * u = u * dt / c.array.grid.step ax := by ring
  rw [e]
  refine ⟨fun h => ?_, fun hdt h => ?_, fun hdt h => ?_⟩
  · rw [h]; split_ifs <;> ring
  · have hu : 0 < u := by
      by_contra hn
      have : u * dt / c.array.grid.step ax ≤ 0 :=
        div_nonpos_of_nonpos_of_nonneg (mul_nonpos_of_nonpos_of_nonneg (not_lt.1 hn) hdt.le) hstep.le
      rw [h] at this
      exact absurd this (by norm_num)
    rw [if_pos hu, h]; ring
  · have hu : ¬ 0 < u := by
      intro hu
      have : 0 < u * dt / c.array.grid.step ax := by positivity
      rw [h] at this
      exact absurd this (by norm_num)
    rw [if_neg hu, h]; ring

/-! ## C26: limited interpolation -/

/-- The ratio of consecutive differences the limiter looks at: upstream difference over the difference across the face. -/
def slopeRatio (c : GridVariable d K) (u : K) (ax : Fin d) (i : Idx d) : K :=
  let at' := fun k : ℤ => c.array.data (rollIdx c.array.shape ax k i)
  let across := if at' 1 - at' 0 = 0 then 1 else at' 1 - at' 0
  if 0 < u then (at' 0 - at' (-1)) / across else (at' 2 - at' 1) / across

/-- **C25** On a periodic grid, `apply_tvd_limiter(lax_wendroff, limiter)` for any limiter is, at each face, the upwind value
plus `limiter(ratio)` times the difference between the Lax-Wendroff value and the upwind value: it is the upwind value
where the limiter is 0 and the Lax-Wendroff value where it is 1. -/
theorem C25_limited_value (c : GridVariable d K) (h : c.Periodic) (v : Fin d → GridVariable d K) (ax : Fin d) (dt : K)
    (limiter : K → K) (hv : FaceVelocity c (v ax) ax) :
    ∃ r up lw, tvdInterpolation laxWendroff limiter c (upperFace c ax) v dt = .ok r ∧
      upwind c (upperFace c ax) v = .ok up ∧ laxWendroff c (upperFace c ax) v dt = .ok lw ∧
      r.array.shape = c.array.shape ∧ r.array.offset = upperFace c ax ∧ r.bc = c.bc ∧
      ∀ i, InR c.array.shape i →
        r.array.data i = up.array.data i + limiter (slopeRatio c ((v ax).array.data i) ax i) *
          (lw.array.data i - up.array.data i) := by
  have hlw := laxWendroff_half h ax v dt hv.1 hv.2.1 (by rw [hv.2.2]; simp)
  have hup := upwind_half h ax v hv.1 hv.2.1 (by rw [hv.2.2]; simp)
  have ht := tvd_half h ax v dt laxWendroff limiter _ hv.1 hv.2.1 hv.2.2 hlw rfl hv.2.2.symm rfl
  refine ⟨_, _, _, ht, hup, hlw, rfl, rfl, rfl, fun i hi => ?_⟩
  simp only [rollIdx_zero hi, slopeRatio]
  have e : ∀ x y : K, safeDiv x y = x / (if y = 0 then 1 else y) := by
    intro x y; unfold safeDiv; by_cases hy : y = 0 <;> simp [hy]
  simp only [e]
  split_ifs <;> ring

/-- **C26** Under the CFL bound `|u| dt / dx ≤ 1` the van-Leer-limited face value lies between the values of the two cells
adjacent to the face, whatever the periodic data. -/
theorem C26_van_leer_between (c : GridVariable d K) (h : c.Periodic) (v : Fin d → GridVariable d K) (ax : Fin d) (dt : K)
    (hv : FaceVelocity c (v ax) ax)
    (hdt : 0 ≤ dt) (hstep : 0 < c.array.grid.step ax)
    (hcfl : ∀ i, InR c.array.shape i → |(v ax).array.data i| * dt / c.array.grid.step ax ≤ 1) :
    ∃ r, tvdInterpolation laxWendroff vanLeer c (upperFace c ax) v dt = .ok r ∧ r.array.shape = c.array.shape ∧
      ∀ i, InR c.array.shape i →
        min (c.array.data i) (c.array.data (rollIdx c.array.shape ax 1 i)) ≤ r.array.data i ∧
        r.array.data i ≤ max (c.array.data i) (c.array.data (rollIdx c.array.shape ax 1 i)) := by
  have hlw := laxWendroff_half h ax v dt hv.1 hv.2.1 (by rw [hv.2.2]; simp)
  have ht := tvd_half h ax v dt laxWendroff vanLeer _ hv.1 hv.2.1 hv.2.2 hlw rfl hv.2.2.symm rfl
  refine ⟨_, ht, rfl, fun i hi => ?_⟩
  simp only [rollIdx_zero hi]
  set u := (v ax).array.data i
  set c0 := c.array.data i
  set c1 := c.array.data (rollIdx c.array.shape ax 1 i)
  have hc := hcfl i hi
  set C := dt / c.array.grid.step ax * u with hC
  have hdx : 0 ≤ dt / c.array.grid.step ax := div_nonneg hdt hstep.le
  have habs : |u| * dt / c.array.grid.step ax = dt / c.array.grid.step ax * |u| := by ring
  rw [habs] at hc
  -- both branches have the form `x + t (y - x)` with `t ∈ [0, 1]`
  have conv : ∀ x y t : K, 0 ≤ t → t ≤ 1 →
      min x y ≤ x + t * (y - x) ∧ x + t * (y - x) ≤ max x y := by
    intro x y t t0 t1
    rcases le_total x y with hxy | hxy
    · rw [min_eq_left hxy, max_eq_right hxy]; constructor <;> nlinarith
    · rw [min_eq_right hxy, max_eq_left hxy]; constructor <;> nlinarith
  by_cases hu : 0 < u
  · rw [abs_of_pos hu] at hc
    have hC0 : 0 ≤ C := mul_nonneg hdx hu.le
    simp only [hu, if_true]
    set φ := vanLeer (safeDiv (c0 - c.array.data (rollIdx c.array.shape ax (-1) i)) (c1 - c0))
    obtain ⟨-, p0, p2, -⟩ := C25_van_leer (safeDiv (c0 - c.array.data (rollIdx c.array.shape ax (-1) i)) (c1 - c0))
    have := conv c0 c1 (1 / 2 * (1 - C) * φ) (by
      apply mul_nonneg (by linarith) p0) (by
      have : (1 - C) * φ ≤ 1 * 2 := mul_le_mul (by linarith) p2.le p0 zero_le_one
      linarith)
    have e : c0 - (c0 - (c0 + 1 / 2 * (1 - C) * (c1 - c0))) * φ = c0 + 1 / 2 * (1 - C) * φ * (c1 - c0) := by ring
    rw [e]; exact this
  · have hu' : u ≤ 0 := not_lt.1 hu
    rw [abs_of_nonpos hu'] at hc
    have hC0 : C ≤ 0 := mul_nonpos_of_nonneg_of_nonpos hdx hu'
    have hC1 : -1 ≤ C := by rw [hC]; linarith [mul_neg (dt / c.array.grid.step ax) u]
    simp only [hu, if_false]
    set φ := vanLeer (safeDiv (c.array.data (rollIdx c.array.shape ax 2 i) - c1) (c1 - c0))
    obtain ⟨-, p0, p2, -⟩ := C25_van_leer (safeDiv (c.array.data (rollIdx c.array.shape ax 2 i) - c1) (c1 - c0))
    have := conv c1 c0 (1 / 2 * (1 + C) * φ) (by
      apply mul_nonneg (by linarith) p0) (by
      have : (1 + C) * φ ≤ 1 * 2 := mul_le_mul (by linarith) p2.le p0 zero_le_one
      linarith)
    have e : c1 - (c1 - (c1 - 1 / 2 * (1 + C) * (c1 - c0))) * φ = c1 + 1 / 2 * (1 + C) * φ * (c0 - c1) := by ring
    rw [e, min_comm c0 c1, max_comm c0 c1]; exact this

end ordered

/-! ## Non-vacuity -/

section examples
open Fixtures

/-- the face velocities `pv34` of `Fixtures` are face velocities of the scalar `pu34` -/
theorem pv34_face (a : Fin 2) : FaceVelocity pu34 (pv34 a) a := by
  refine ⟨rfl, rfl, ?_⟩
  funext b
  by_cases h : b = a
  · subst h; simp [pv34, pu34, u34]; norm_num
  · simp [pv34, pu34, u34, h]

example : pu34.Periodic := pu34_periodic
-- the hypotheses of C23_convex_combination / C24_upwind_value (δ = 1/2) on a walled variable
example : ∃ p q, (⟨uCenter, bcDir⟩ : GridVariable 1 ℚ).shift ⌊(1 / 2 : ℚ)⌋ 0 = .ok p ∧
    (⟨uCenter, bcDir⟩ : GridVariable 1 ℚ).shift ⌈(1 / 2 : ℚ)⌉ 0 = .ok q := by
  rw [floor_half, ceil_half]
  have hS : (⟨uCenter, bcDir⟩ : GridVariable 1 ℚ).Supported := fun a => ⟨rfl, by norm_num [uCenter, g4],
    Or.inr (Or.inl ⟨Or.inl rfl, Or.inl rfl, rfl⟩)⟩
  obtain ⟨p, hp, -⟩ := shift_zero_center hS 0 (Or.inr rfl)
  obtain ⟨q, hq, -⟩ := shift_above hS 0
  exact ⟨p, q, hp, hq⟩
example : ∀ k : ℤ, (k : ℚ) ≠ 1 / 2 := by
  intro k hk
  have : (2 * k : ℚ) = 1 := by linarith
  have : (2 * k : ℤ) = 1 := by exact_mod_cast this
  omega
-- the CFL bound of C26 on a field with velocities of both signs
example : (∀ i, InR pu34.array.shape i → |(pv34 0).array.data i| * (1 / 10) / pu34.array.grid.step 0 ≤ 1) ∧
    (pv34 0).array.data ![0, 0] < 0 ∧ 0 < (pv34 0).array.data ![2, 3] := by
  refine ⟨fun i hi => ?_, by norm_num [pv34], by norm_num [pv34]⟩
  have h0 := hi 0
  have h1 := hi 1
  have e0 : pu34.array.shape 0 = 3 := rfl
  have e1 : pu34.array.shape 1 = 4 := rfl
  rw [e0] at h0
  rw [e1] at h1
  have hs : pu34.array.grid.step 0 = 1 := by norm_num [Grid.step, pu34, u34, g34]
  have hd : (pv34 0).array.data i = (i 0 : ℚ) * (i 1 : ℚ) - 2 := by simp [pv34]
  rw [hs, hd]
  obtain ⟨a0, a1⟩ := h0
  obtain ⟨b0, b1⟩ := h1
  have q0 : (0 : ℚ) ≤ (i 0 : ℚ) * (i 1 : ℚ) := by exact_mod_cast mul_nonneg a0 b0
  have q1 : (i 0 : ℚ) * (i 1 : ℚ) ≤ 6 := by
    have e0 : i 0 ≤ 2 := by omega
    have e1 : i 1 ≤ 3 := by omega
    have : i 0 * i 1 ≤ 6 := by nlinarith
    exact_mod_cast this
  have : |(i 0 : ℚ) * (i 1 : ℚ) - 2| ≤ 4 := abs_le.2 ⟨by linarith, by linarith⟩
  linarith
-- two axes differ: the rejection of C24_upwind_dispatch applies
example : upwind pu34 (fun _ => 1) pv34 = .error .offset :=
  (C24_upwind_dispatch pu34 pv34).2 _ 0 1 (by decide) (by simp [pu34, u34]) (by simp [pu34, u34])
end examples

end JaxCfd
