import Verif.Props.MirrorSteps
import Verif.Props.SemiLagrangian

/-!
# C78: reflections of periodic fields — linear interpolation and semi-Lagrangian advection
-/

namespace JaxCfd
variable {d : ℕ} {s : Fin d → ℕ} {ax : Fin d}

theorem lerp_mirror {f f' : Idx d → ℝ} {σ : ℝ} {m : ℤ} (hf : ∀ i, InR s i → f' i = σ * f (mirrorIdx s ax m i)) (b : Fin d) {δ : ℚ} {k : ℤ} (hk : b = ax → (k : ℚ) = 2 * δ) {i : Idx d} (hi : InR s i) :
    lerp ℝ s b δ f' i = σ * lerp ℝ s b δ f (mirrorIdx s ax (m + if b = ax then k else 0) i) := by
  unfold lerp
  rcases eq_or_ne b ax with rfl | hb
  · rw [if_pos rfl]
    have hk := hk rfl
    by_cases h0 : δ = 0
    · rw [if_pos h0, if_pos h0, hf i hi]
      have : k = 0 := by rw [h0] at hk; exact_mod_cast (by linarith : (k : ℚ) = 0)
      rw [this, add_zero]
    rw [if_neg h0, if_neg h0]
    by_cases h1 : ((⌊δ⌋ : ℤ) : ℚ) = δ
    · rw [if_pos h1, if_pos h1, hf _ (rollIdx_inR hi b _), mirrorIdx_roll, rollIdx_mirror]
      have : k = 2 * ⌊δ⌋ := by rw [← h1] at hk; exact_mod_cast hk
      rw [this, show m + 2 * ⌊δ⌋ - ⌊δ⌋ = m + ⌊δ⌋ by ring]
    · rw [if_neg h1, if_neg h1]
      obtain ⟨j, hj | hj⟩ := Int.even_or_odd' k
      · exfalso
        have : δ = j := by rw [hj] at hk; push_cast at hk; linarith
        exact h1 (by rw [this, Int.floor_intCast])
      have hδ : δ = j + 1 / 2 := by rw [hj] at hk; push_cast at hk; linarith
      have hfl : ⌊δ⌋ = j := by rw [Int.floor_eq_iff, hδ]; constructor <;> linarith
      have hce : ⌈δ⌉ = j + 1 := by rw [Int.ceil_eq_iff, hδ]; push_cast; constructor <;> linarith
      have hw : floorWeight δ = 1 / 2 := by unfold floorWeight; rw [hce, hδ]; push_cast; ring
      rw [hfl, hce, hw, hf _ (rollIdx_inR hi b _), hf _ (rollIdx_inR hi b _), mirrorIdx_roll, mirrorIdx_roll, rollIdx_mirror, rollIdx_mirror, hj, show m + (2 * j + 1) - j = m + (j + 1) by ring,
        show m + (2 * j + 1) - (j + 1) = m + j by ring]
      push_cast
      ring
  · rw [if_neg hb, add_zero]
    split_ifs
    · exact hf i hi
    · rw [hf _ (rollIdx_inR hi b _), mirrorIdx_roll_of_ne hb]
    · rw [hf _ (rollIdx_inR hi b _), hf _ (rollIdx_inR hi b _), mirrorIdx_roll_of_ne hb, mirrorIdx_roll_of_ne hb]
      ring

section
variable [HasNan ℝ]

theorem linearAlongAxis_mirrored {c c' : GridVariable d ℝ} {σ : ℝ} (hc : c.Periodic) (hb : c'.bc = c.bc) (h : c.array.Mirrored ax σ c'.array) (o : ℚ) (a : Fin d) (ho : a = ax → ∃ k : ℤ, (k : ℚ) = 2 * o) :
    ∃ r r', linearAlongAxis c o a = .ok r ∧ linearAlongAxis c' o a = .ok r' ∧ r.Periodic ∧ r'.bc = r.bc ∧ r.array.Mirrored ax σ r'.array ∧ r.array.offset = Function.update c.array.offset a o := by
  obtain ⟨hof, hg, hs, m, hm, hdat⟩ := h
  have hc' : c'.Periodic := ⟨by rw [hb]; exact hc.1, by rw [hs, hg]; exact hc.2⟩
  refine ⟨_, _, linearAlongAxis_periodic hc o a, linearAlongAxis_periodic hc' o a, ⟨hc.1, hc.2⟩, hb, ?_, rfl⟩
  obtain ⟨k, hk⟩ : ∃ k : ℤ, a = ax → (k : ℚ) = 2 * (o - c.array.offset a) := by
    by_cases ha : a = ax
    · obtain ⟨j, hj⟩ := ho ha
      exact ⟨j - m, fun _ => by push_cast; rw [hj, hm, ha]; ring⟩
    · exact ⟨0, fun e => absurd e ha⟩
  refine ⟨by rw [hof], hg, hs, m + if a = ax then k else 0, ?_, fun i hi => ?_⟩
  · dsimp only
    rcases eq_or_ne a ax with rfl | ha
    · rw [if_pos rfl, Function.update_self]
      push_cast
      rw [hk rfl, hm]
      ring
    · rw [if_neg ha, add_zero, Function.update_of_ne ha.symm, hm]
  · dsimp only at hi ⊢
    rw [hs, hof]
    exact lerp_mirror hdat a hk hi

/-- **C78** Linear interpolation to a point that lies on a face or in the middle of a cell: the interpolant of the mirror image is the mirror image of the interpolant. -/
theorem C78_linear (c c' : GridVariable d ℝ) (σ : ℝ) (hc : c.Periodic) (hb : c'.bc = c.bc) (h : c.array.Mirrored ax σ c'.array) (o : Fin d → ℚ) (ho : ∃ k : ℤ, (k : ℚ) = 2 * o ax) :
    ∃ r r', linear c o = .ok r ∧ linear c' o = .ok r' ∧ r'.bc = r.bc ∧ r.array.Mirrored ax σ r'.array := by
  unfold linear
  generalize List.finRange d = L
  induction L generalizing c c' with
  | nil => exact ⟨c, c', rfl, rfl, hb, h⟩
  | cons a L ih =>
    obtain ⟨r, r', hr, hr', hp, hrb, hm, -⟩ := linearAlongAxis_mirrored hc hb h (o a) a fun e => by rw [e]; exact ho
    rw [List.foldlM_cons, List.foldlM_cons, hr, hr', Except.bind_ok, Except.bind_ok]
    exact ih r r' hp hrb hm

/-! ## Multilinear interpolation -/

omit [HasNan ℝ] in
/-- Periodic data can be interpolated anywhere; whole periods do not matter. -/
theorem multilinear_period (u : NArr d ℝ) (x y : Fin d → ℝ) (h : ∀ a, ∃ k : ℤ, y a = x a + k * (u.shape a : ℕ)) : multilinear u y = multilinear u x := by
  choose k hk using h
  unfold multilinear
  have e : ∀ a, y a = x a + ((k a * (u.shape a : ℕ) : ℤ) : ℝ) := fun a => by rw [hk a]; push_cast; rfl
  refine Finset.sum_congr rfl fun b _ => ?_
  congr 1
  · exact Finset.prod_congr rfl fun a _ => by rw [e a, Int.fract_add_intCast]
  · congr 1
    funext a
    rw [e a, Int.floor_add_intCast, show ⌊x a⌋ + k a * (u.shape a : ℕ) + (if b a = true then 1 else 0) = ⌊x a⌋ + (if b a = true then 1 else 0) + (u.shape a : ℕ) * k a by ring, Int.add_mul_emod_self_left]

/-- The interpolant of the mirror image, at a point, is the interpolant at the mirror image of the point. -/
theorem multilinear_mirror {u u' : NArr d ℝ} (hpos : ∀ a, 0 < u.shape a) (hs : u'.shape = u.shape) {σ : ℝ} {m : ℤ} (hd : ∀ i, InR u.shape i → u'.data i = σ * u.data (mirrorIdx u.shape ax m i)) (x : Fin d → ℝ) :
    multilinear u' x = σ * multilinear u (Function.update x ax (-(x ax) - m)) := by
  have hin : ∀ z : Idx d, InR u.shape fun a => z a % (u.shape a : ℤ) := fun z a => ⟨Int.emod_nonneg _ (by have := hpos a; omega), Int.emod_lt_of_pos _ (by have := hpos a; omega)⟩
  have hval : ∀ z : Idx d, u'.data (fun a => z a % (u.shape a : ℤ)) = σ * u.data fun a => (Function.update z ax (-(z ax) - m)) a % (u.shape a : ℤ) := fun z => by
    rw [hd _ (hin z)]
    congr 2
    funext a
    unfold mirrorIdx
    rcases eq_or_ne a ax with rfl | ha
    · rw [Function.update_self, Function.update_self]
      exact (Int.mod_modEq (z a) (u.shape a)).neg.sub_right m
    · rw [Function.update_of_ne ha, Function.update_of_ne ha]
  unfold multilinear
  rw [hs]
  have hL : ∀ b : Fin d → Bool, u'.data (fun a => (⌊x a⌋ + (if b a = true then 1 else 0)) % (u.shape a : ℤ)) =
      σ * u.data fun a => (Function.update (fun a => ⌊x a⌋ + (if b a = true then 1 else 0) : Idx d) ax (-(⌊x ax⌋ + (if b ax = true then 1 else 0)) - m)) a % (u.shape a : ℤ) :=
    fun b => hval fun a => ⌊x a⌋ + (if b a = true then 1 else 0)
  simp only [hL]
  rw [Finset.mul_sum]
  by_cases h0 : Int.fract (x ax) = 0
  · have hx : x ax = ⌊x ax⌋ := by have := Int.floor_add_fract (x ax); rw [h0, add_zero] at this; exact this.symm
    have hy : -(x ax) - (m : ℝ) = ((-⌊x ax⌋ - m : ℤ) : ℝ) := by rw [hx]; push_cast; rw [Int.floor_intCast]
    refine Finset.sum_congr rfl fun b _ => ?_
    by_cases hb : b ax = true
    · rw [Finset.prod_eq_zero (Finset.mem_univ ax) (by rw [if_pos hb, h0]), Finset.prod_eq_zero (Finset.mem_univ ax) (by rw [if_pos hb, Function.update_self, hy, Int.fract_intCast])]
      ring
    · rw [mul_left_comm]
      congr 2
      · refine Finset.prod_congr rfl fun a _ => ?_
        rcases eq_or_ne a ax with rfl | ha
        · rw [if_neg hb, if_neg hb, Function.update_self, hy, Int.fract_intCast, h0]
        · rw [Function.update_of_ne ha]
      · congr 1
        funext a
        rcases eq_or_ne a ax with rfl | ha
        · rw [Function.update_self, Function.update_self, hy, Int.floor_intCast, if_neg hb, add_zero, add_zero]
        · rw [Function.update_of_ne ha, Function.update_of_ne ha]
  · have hfl : ⌊-(x ax) - (m : ℝ)⌋ = -⌊x ax⌋ - 1 - m := by
      rw [Int.floor_eq_iff]
      have h1 := Int.floor_add_fract (x ax)
      have h2 := (Int.fract_nonneg (x ax)).lt_of_ne' h0
      have h3 := Int.fract_lt_one (x ax)
      push_cast
      constructor <;> linarith
    have hfr : Int.fract (-(x ax) - (m : ℝ)) = 1 - Int.fract (x ax) := by
      have h1 := Int.floor_add_fract (x ax)
      have h2 := Int.floor_add_fract (-(x ax) - (m : ℝ))
      rw [hfl] at h2
      push_cast at h2
      linarith
    have inv : Function.Involutive fun b : Fin d → Bool => Function.update b ax (!(b ax)) := fun b => by
      dsimp only
      rw [Function.update_self, Function.update_idem, Bool.not_not, Function.update_eq_self]
    refine Finset.sum_equiv (inv.toPerm _) (fun _ => by simp) fun b _ => ?_
    rw [Function.Involutive.coe_toPerm, mul_left_comm]
    congr 2
    · refine Finset.prod_congr rfl fun a _ => ?_
      rcases eq_or_ne a ax with rfl | ha
      · rw [Function.update_self, Function.update_self, hfr]
        cases b a <;> simp
      · rw [Function.update_of_ne ha, Function.update_of_ne ha]
    · congr 1
      funext a
      rcases eq_or_ne a ax with rfl | ha
      · rw [Function.update_self, Function.update_self, Function.update_self, hfl]
        congr 1
        cases b a <;> simp <;> ring
      · rw [Function.update_of_ne ha, Function.update_of_ne ha, Function.update_of_ne ha]

/-- **C78** A semi-Lagrangian step: the departure points of the mirror image are the mirror images of the departure points, although they are computed from absolute coordinates and the cells are
found by rounding down on both sides of the mirror. -/
theorem C78_semi_lagrangian (c c' : GridVariable d ℝ) (hc : c.Periodic) (hb : c'.bc = c.bc) (σ : ℝ) (h : c.array.Mirrored ax σ c'.array) (v v' : Fin d → GridVariable d ℝ) (hv : ∀ a, (v a).Periodic)
    (hg : ∀ a, (v a).array.grid = c.array.grid) (hvm : FieldMirrored ax v v') (h0 : ∀ a, (c.array.grid.domain a).1 = 0) (hstep : ∀ a, c.array.grid.step a ≠ 0) (dt : ℝ) :
    ∃ r r', advectSemilagrangian c v dt = .ok r ∧ advectSemilagrangian c' v' dt = .ok r' ∧ r'.bc = r.bc ∧ r.array.Mirrored ax σ r'.array := by
  obtain ⟨ho, hgr, hs, m, hm, hdat⟩ := h
  have hc' : c'.Periodic := ⟨by rw [hb]; exact hc.1, by rw [hs, hgr]; exact hc.2⟩
  have hv' : ∀ a, (v' a).Periodic := fun a => ⟨by rw [(hvm a).1]; exact (hv a).1, by rw [(hvm a).2.2.2.1, (hvm a).2.2.1]; exact (hv a).2⟩
  have hg' : ∀ a, (v' a).array.grid = c'.array.grid := fun a => by rw [(hvm a).2.2.1, hg a, hgr]
  obtain ⟨r, hr⟩ := C32_succeeds c hc v hv hg h0 dt
  obtain ⟨r', hr'⟩ := C32_succeeds c' hc' v' hv' hg' (by rw [hgr]; exact h0) dt
  obtain ⟨ro, rg, rb, rs, -, u, hu, rd⟩ := C32_departure_point c v dt r hr hstep
  obtain ⟨ro', rg', rb', rs', -, u', hu', rd'⟩ := C32_departure_point c' v' dt r' hr' (by rw [hgr]; exact hstep)
  have hshape : c.array.shape = c.array.grid.shape := funext fun a => (hc.2 a).1
  have hpos : ∀ a, 0 < c.array.shape a := fun a => by rw [(hc.2 a).1]; exact (hc.2 a).2
  refine ⟨r, r', hr, hr', by rw [rb', rb, hb], by rw [ro', ro, ho], by rw [rg', rg, hgr], by rw [rs', rs, hgr], m, by rw [ro]; exact hm, fun i hi => ?_⟩
  rw [rs] at hi ⊢
  have hj : InR c.array.grid.shape (mirrorIdx c.array.grid.shape ax m i) := mirrorIdx_inR (fun a => (hc.2 a).2) m hi
  rw [rd' i (by rw [hgr]; exact hi), rd _ hj, multilinear_mirror (u := c.array.toNArr) (u' := c'.array.toNArr) hpos hs hdat]
  congr 1
  refine multilinear_period _ _ _ fun a => ?_
  obtain ⟨w, w', hw, hw', -, hwo, hwg, hws, m', hm', hwd⟩ := C78_linear (v a) (v' a) (mirrorSign ax a) (hv a) (hvm a).1 (hvm a).2 c.array.offset ⟨m, hm⟩
  obtain rfl : u a = w := Except.ok.inj ((hu a).symm.trans hw)
  obtain rfl : u' a = w' := Except.ok.inj ((hu' a).symm.trans (by rw [ho]; exact hw'))
  have hwshape : (u a).array.shape = c.array.grid.shape ∧ (u a).array.offset = c.array.offset := by
    obtain ⟨f, hf, -⟩ := linear_periodic (fun _ _ => True) (fun _ _ _ _ _ => trivial) (hv a) c.array.offset trivial
    rw [← Except.ok.inj (hf.symm.trans hw)]
    exact ⟨by rw [← hg a]; exact funext fun b => ((hv a).2 b).1, rfl⟩
  obtain rfl : m' = m := by
    rw [hwshape.2] at hm'
    exact_mod_cast hm'.trans hm.symm
  have hwi := hwd i (by rw [hwshape.1]; exact hi)
  rw [hwshape.1] at hwi
  rw [hgr]
  have hsh : c.array.toNArr.shape a = c.array.grid.shape a := (hc.2 a).1
  rcases eq_or_ne a ax with rfl | ha
  · rw [Function.update_self, hwi]
    unfold mirrorSign
    rw [if_pos rfl]
    refine ⟨(-(i a) - m') / (c.array.grid.shape a : ℤ), ?_⟩
    have hmi : (mirrorIdx c.array.grid.shape a m' i) a = (-(i a) - m') % (c.array.grid.shape a : ℤ) := by unfold mirrorIdx; rw [Function.update_self]
    have e := Int.emod_add_mul_ediv (-(i a) - m') (c.array.grid.shape a : ℤ)
    rw [hsh, hmi]
    have e' : (((-(i a) - m') % (c.array.grid.shape a : ℤ) : ℤ) : ℝ) + (c.array.grid.shape a : ℕ) * (((-(i a) - m') / (c.array.grid.shape a : ℤ) : ℤ) : ℝ) = -(i a : ℝ) - m' := by exact_mod_cast e
    have := hstep a
    field_simp
    linear_combination -(c.array.grid.step a) * e'
  · rw [Function.update_of_ne ha, hwi]
    unfold mirrorSign
    rw [if_neg ha]
    refine ⟨0, ?_⟩
    have hmi : (mirrorIdx c.array.grid.shape ax m' i) a = i a := by unfold mirrorIdx; rw [Function.update_of_ne ha]
    rw [hmi]
    push_cast
    ring

/-! ## Non-vacuity -/
namespace Fixtures

/-- The second component of the symmetric swirl, carried by the swirl, is symmetric again; the swirl is not zero. -/
example : ∃ r, advectSemilagrangian (swirlM 1) swirlM (1 / 10) = .ok r ∧ r.array.Mirrored 0 1 r.array := by
  obtain ⟨r, r', hr, hr', -, h⟩ := C78_semi_lagrangian (ax := 0) (swirlM 1) (swirlM 1) (swirlM_field.periodic g34r_pos 1) rfl 1 (by simpa [mirrorSign] using (swirlM_symmetric 1).2) swirlM swirlM (fun a => swirlM_field.periodic g34r_pos a)
    (fun _ => rfl) swirlM_symmetric (fun a => by fin_cases a <;> simp [swirlM, g34r]) (fun a => by fin_cases a <;> norm_num [swirlM, g34r, Grid.step]) (1 / 10)
  obtain rfl := Except.ok.inj (hr.symm.trans hr')
  exact ⟨r, hr, h⟩

end Fixtures

end
end JaxCfd
