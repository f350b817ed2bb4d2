import Verif.SpecTopHat
import Verif.Lemmas.Ghost
import Verif.Lemmas.PadTrim
import Verif.Lemmas.Resize

set_option linter.unusedSectionVars false

namespace JaxCfd
variable {d : ℕ} {K : Type} [Field K] [HasNan K]

namespace BC

/-- A wall: Dirichlet or Neumann. -/
def Wall (t : BCType) : Prop := t = .dirichlet ∨ t = .neumann

/-- An axis that `top_hat_downsample` can pad: periodic, or cell centered between walls and a half filter no wider than the axis. -/
def Paddable (bc : BC d K) (u : GridArray d K) (ax : Fin d) (w : ℕ) : Prop :=
  bc.types ax = (.periodic, .periodic) ∨
    (Wall (bc.types ax).1 ∧ Wall (bc.types ax).2 ∧ u.offset ax = 1 / 2 ∧ w ≤ u.grid.shape ax)

theorem Wall.ne_periodic {t : BCType} (h : Wall t) : t ≠ .periodic := by
  rcases h with rfl | rfl <;> decide

theorem isAligned_of_ge (bc : BC d K) (u : GridArray d K) (ax : Fin d) (hs : u.grid.shape ax ≤ u.shape ax)
    (h : (bc.types ax).1 ≠ .neumann ∨ Int.fract (u.offset ax) ≠ 0) : bc.isAligned u ax = .ok () := by
  unfold isAligned
  dsimp only
  rw [if_neg (by rintro ⟨h1, h2⟩; rcases h with h | h <;> contradiction)]
  rw [if_neg]
  split_ifs <;> omega

theorem padNeumann_mirror (bc : BC d K) (x : NArr d K) (lo hi : ℕ) (width : ℤ) (ax : Fin d)
    (step : K) (hn : 0 < x.shape ax) :
    bc.padNeumann x (lo, hi) width ax step .mirror =
      .ok ⟨Function.update x.shape ax (x.shape ax + lo + hi),
        fun i => padData x ax lo .symmetric i - ((width / max 1 |width| : ℤ) : K) * step *
          (padData x ax lo (.const 0 0) i -
            padData x ax lo (.const (bc.constantValues ax).1 (bc.constantValues ax).2) i)⟩ := by
  by_cases h : lo + hi ≤ 1
  · exact padNeumann_closed bc x lo hi width ax step .mirror hn h
  · exact padNeumann_wide bc x lo hi width ax step .mirror .symmetric (by omega) hn (Or.inl ⟨rfl, rfl⟩)

/-- Padding a cell centered array above a wall. -/
theorem padByType_up (bc : BC d K) (u : GridArray d K) (ax : Fin d) (w : ℕ) (hn : 0 < u.shape ax)
    (hw : w ≤ u.shape ax) (ht : Wall (bc.types ax).2) (ho : Int.fract (u.offset ax) = 1 / 2) :
    ∃ y, bc.padByType u (bc.types ax).2 (0, w) w ax .mirror = .ok y ∧
      y.shape = Function.update u.shape ax (u.shape ax + w) ∧
      ∀ i : Idx d, i ax < u.shape ax + w → y.data i =
        if (u.shape ax : ℤ) ≤ i ax then
          if (bc.types ax).2 = .dirichlet then
            2 * (bc.constantValues ax).2 - u.data (Function.update i ax (2 * u.shape ax - 1 - i ax))
          else u.data (Function.update i ax (2 * u.shape ax - 1 - i ax)) + u.grid.step ax * (bc.constantValues ax).2
        else if 0 ≤ i ax then u.data i else y.data i := by
  rcases ht with ht | ht
  · have e := padDirichletCenter_mirror bc u.toNArr 0 w ax hn
    rw [Nat.cast_zero] at e
    have e2 : bc.padByType u (bc.types ax).2 (0, w) w ax .mirror = bc.padDirichletCenter u.toNArr (0, w) ax .mirror := by
      unfold padByType
      simp only [ht, ho, if_true]
    rw [e2, e]
    refine ⟨_, rfl, rfl, fun i hi => ?_⟩
    · dsimp only
      by_cases hlt : (u.shape ax : ℤ) ≤ i ax
      · rw [if_pos hlt, if_pos ht, padData_const_hi _ _ _ _ _ _ (by omega)]
        simp only [padData, padIdxData, sub_zero]
        rw [symIdx_up _ _ hlt (by omega)]
      · rw [if_neg hlt]
        by_cases h0 : 0 ≤ i ax
        · rw [if_pos h0, padData_interior _ _ _ _ _ h0 (by omega), padData_interior _ _ _ _ _ h0 (by omega)]
          simp only [sub_zero, Function.update_eq_self]
          ring
        · rw [if_neg h0]
  · have e := padNeumann_mirror bc u.toNArr 0 w w ax (u.grid.step ax) hn
    rw [Nat.cast_zero] at e
    have e2 : bc.padByType u (bc.types ax).2 (0, w) w ax .mirror = bc.padNeumann u.toNArr (0, w) w ax (u.grid.step ax) .mirror := by
      unfold padByType
      simp only [ht, ho, if_true]
    rw [e2, e]
    refine ⟨_, rfl, rfl, fun i hi => ?_⟩
    · dsimp only
      by_cases hlt : (u.shape ax : ℤ) ≤ i ax
      · have hw0 : 0 < w := by omega
        have hdir : ((w : ℤ) / max 1 |(w : ℤ)| : ℤ) = 1 := by
          rw [abs_of_nonneg (by omega), max_eq_right (by omega)]
          exact Int.ediv_self (by omega)
        rw [if_pos hlt, if_neg (by rw [ht]; decide), padData_const_hi _ _ _ _ _ _ (by omega),
          padData_const_hi _ _ _ _ _ _ (by omega), hdir]
        simp only [padData, padIdxData, sub_zero]
        rw [symIdx_up _ _ hlt (by omega)]
        push_cast
        ring
      · rw [if_neg hlt]
        by_cases h0 : 0 ≤ i ax
        · rw [if_pos h0, padData_interior _ _ _ _ _ h0 (by omega), padData_interior _ _ _ _ _ h0 (by omega),
            padData_interior _ _ _ _ _ h0 (by omega)]
          simp only [sub_zero, Function.update_eq_self]
          ring
        · rw [if_neg h0]

/-- Padding a cell centered array below a wall. -/
theorem padByType_down (bc : BC d K) (u : GridArray d K) (ax : Fin d) (w : ℕ) (hn : 0 < u.shape ax) (hw0 : 0 < w)
    (hw : w ≤ u.shape ax) (ht : Wall (bc.types ax).1) (ho : Int.fract (u.offset ax) = 1 / 2) :
    ∃ y, bc.padByType u (bc.types ax).1 (w, 0) (-w) ax .mirror = .ok y ∧
      y.shape = Function.update u.shape ax (u.shape ax + w) ∧
      ∀ i : Idx d, 0 ≤ i ax → i ax < u.shape ax + w → y.data i =
        if i ax < w then
          if (bc.types ax).1 = .dirichlet then
            2 * (bc.constantValues ax).1 - u.data (Function.update i ax (w - 1 - i ax))
          else u.data (Function.update i ax (w - 1 - i ax)) - u.grid.step ax * (bc.constantValues ax).1
        else u.data (Function.update i ax (i ax - w)) := by
  rcases ht with ht | ht
  · have e := padDirichletCenter_mirror bc u.toNArr w 0 ax hn
    rw [Nat.cast_zero] at e
    have e2 : bc.padByType u (bc.types ax).1 (w, 0) (-w) ax .mirror = bc.padDirichletCenter u.toNArr (w, 0) ax .mirror := by
      unfold padByType
      simp only [ht, ho, if_true]
    rw [e2, e]
    refine ⟨_, rfl, rfl, fun i hi0 hi => ?_⟩
    · dsimp only
      by_cases hlt : i ax < w
      · rw [if_pos hlt, if_pos ht, padData_const_lo _ _ _ _ _ _ (by omega)]
        simp only [padData, padIdxData]
        rw [symIdx_neg _ _ (by omega) (by omega)]
        rw [show (-1 - (i ax - (w : ℤ))) = (w : ℤ) - 1 - i ax by ring]
      · rw [if_neg hlt]
        rw [padData_interior _ _ _ _ _ (by omega) (by omega), padData_interior _ _ _ _ _ (by omega) (by omega)]
        ring
  · have e := padNeumann_mirror bc u.toNArr w 0 (-w) ax (u.grid.step ax) hn
    rw [Nat.cast_zero] at e
    have e2 : bc.padByType u (bc.types ax).1 (w, 0) (-w) ax .mirror = bc.padNeumann u.toNArr (w, 0) (-w) ax (u.grid.step ax) .mirror := by
      unfold padByType
      simp only [ht, ho, if_true]
    rw [e2, e]
    refine ⟨_, rfl, rfl, fun i hi0 hi => ?_⟩
    · dsimp only
      by_cases hlt : i ax < w
      · have hdir : (-(w : ℤ) / max 1 |-(w : ℤ)| : ℤ) = -1 := by
          rw [abs_neg, abs_of_nonneg (by omega), max_eq_right (by omega), Int.neg_ediv_of_dvd (dvd_refl _)]
          rw [Int.ediv_self (by omega)]
        rw [if_pos hlt, if_neg (by rw [ht]; decide), padData_const_lo _ _ _ _ _ _ (by omega),
          padData_const_lo _ _ _ _ _ _ (by omega), hdir]
        simp only [padData, padIdxData]
        rw [symIdx_neg _ _ (by omega) (by omega)]
        push_cast
        rw [show (-1 - (i ax - (w : ℤ))) = (w : ℤ) - 1 - i ax by ring]
        ring
      · rw [if_neg hlt]
        rw [padData_interior _ _ _ _ _ (by omega) (by omega), padData_interior _ _ _ _ _ (by omega) (by omega),
          padData_interior _ _ _ _ _ (by omega) (by omega)]
        ring

/-- The two paddings of one axis: `w` cells on either side, filled with the continued field. -/
theorem pad_both (bc : BC d K) (u : GridArray d K) (ax : Fin d) (w : ℕ) (hs : u.shape ax = u.grid.shape ax)
    (hN : 0 < u.grid.shape ax) (h : Paddable bc u ax w) :
    ∃ p q, bc.pad u (.one (w : ℤ)) ax .mirror = .ok p ∧ bc.pad p (.one (-(w : ℤ))) ax .mirror = .ok q ∧
      q.shape = Function.update u.shape ax (u.shape ax + 2 * w) ∧
      ∀ i : Idx d, 0 ≤ i ax → i ax < u.shape ax + 2 * w →
        q.data i = continued bc u ax (Function.update i ax (i ax - w)) := by
  rcases h with hper | ⟨h1, h2, ho, hw⟩
  · have hn : (bc.types ax).1 ≠ .neumann := by rw [hper]; simp
    have h0 : Holds u ax u.data 0 := by
      refine ⟨by omega, fun i hi0 hi1 => ?_⟩
      rw [add_zero, ← hs, Int.emod_eq_of_lt hi0 hi1, Function.update_eq_self]
    obtain ⟨p, e1, g1, -, s1, h1⟩ := pad1_holds (w : ℤ) .mirror hper hN h0
    obtain ⟨q, e2, g2, -, s2, h2⟩ := pad1_holds (-(w : ℤ)) .mirror hper (by rw [g1]; exact hN) h1
    have s1' : p.shape ax = u.shape ax + w := by rw [s1]; simp
    refine ⟨p, q, ?_, ?_, ?_, fun i hi0 hi1 => ?_⟩
    · rw [pad_one _ _ _ _ _ (isAligned_of_ge bc u ax (by omega) (Or.inl hn))]; exact e1
    · rw [pad_one _ _ _ _ _ (isAligned_of_ge bc p ax (by rw [g1]; omega) (Or.inl hn))]; exact e2
    · rw [s2, s1]
      simp only [Function.update_self, Function.update_idem]
      congr 1
      simp; omega
    · have hq : q.shape ax = u.shape ax + 2 * w := by
        rw [s2]; simp only [Function.update_self]; rw [s1']; simp; omega
      rw [h2.2 i hi0 (by rw [hq]; push_cast; exact hi1)]
      unfold continued
      rw [if_pos hper, Function.update_idem, Function.update_self, g2, g1]
      congr 3
      omega
  · have hf : Int.fract (u.offset ax) = 1 / 2 := by rw [ho]; exact fract_half
    have hf0 : Int.fract (u.offset ax) ≠ 0 := by rw [hf]; norm_num
    have hnp : bc.types ax ≠ (.periodic, .periodic) := by
      intro e; exact h1.ne_periodic (by rw [e])
    have hup := pad1_upper bc u ax w .mirror h2.ne_periodic (by rw [hs, ho]; linarith)
    obtain ⟨y, hy, ys, yd⟩ := padByType_up bc u ax w (by omega) (by omega) h2 hf
    rw [hy] at hup
    have e1 : bc.pad u (.one (w : ℤ)) ax .mirror = .ok ⟨y, u.offset, u.grid⟩ := by
      rw [pad_one _ _ _ _ _ (isAligned_of_ge bc u ax (by omega) (Or.inr hf0)), hup]; rfl
    have hys : y.shape ax = u.shape ax + w := by rw [ys]; simp
    have hal : bc.isAligned (⟨y, u.offset, u.grid⟩ : GridArray d K) ax = .ok () :=
      isAligned_of_ge bc _ ax (by show u.grid.shape ax ≤ y.shape ax; omega) (Or.inr hf0)
    rcases Nat.eq_zero_or_pos w with rfl | hw0
    · have hup' := pad1_upper bc (⟨y, u.offset, u.grid⟩ : GridArray d K) ax 0 .mirror h2.ne_periodic
        (by show ((y.shape ax : ℕ) : ℚ) + u.offset ax - 1 < u.grid.shape ax; rw [hys, hs, ho]; push_cast; linarith)
      obtain ⟨z, hz, zs, zd⟩ := padByType_up bc (⟨y, u.offset, u.grid⟩ : GridArray d K) ax 0
        (by show 0 < y.shape ax; omega) (by omega) h2 hf
      rw [hz] at hup'
      simp only [Nat.cast_zero, neg_zero] at hup' e1 hal ⊢
      refine ⟨_, ⟨z, u.offset, u.grid⟩, e1, ?_, ?_, fun i hi0 hi1 => ?_⟩
      · rw [pad_one _ _ _ _ _ hal]
        exact hup'
      · show z.shape = _
        rw [zs]
        show Function.update y.shape ax (y.shape ax + 0) = _
        rw [hys, ys, Function.update_idem]
      · show z.data i = _
        have hzi := zd i (by show i ax < (y.shape ax : ℕ) + (0 : ℕ); rw [hys]; push_cast; omega)
        have hyi := yd i (by push_cast; omega)
        rw [hzi, if_neg (by show ¬ ((y.shape ax : ℕ) : ℤ) ≤ i ax; rw [hys]; push_cast; omega), if_pos hi0]
        show y.data i = _
        rw [hyi, if_neg (by omega), if_pos hi0]
        unfold continued
        simp only [sub_zero, Function.update_eq_self]
        rw [if_neg hnp, if_neg (by omega), if_neg (by omega)]
    · have hdn := pad1_lower bc (⟨y, u.offset, u.grid⟩ : GridArray d K) ax w .mirror hw0 h1.ne_periodic
        (by show 0 < u.offset ax; rw [ho]; norm_num)
      obtain ⟨z, hz, zs, zd⟩ := padByType_down bc (⟨y, u.offset, u.grid⟩ : GridArray d K) ax w
        (by show 0 < y.shape ax; omega) hw0 (by show w ≤ y.shape ax; omega) h1 hf
      rw [hz] at hdn
      refine ⟨_, ⟨z, Function.update u.offset ax (u.offset ax - w), u.grid⟩, e1, ?_, ?_, fun i hi0 hi1 => ?_⟩
      · rw [pad_one _ _ _ _ _ hal, hdn]; rfl
      · show z.shape = _
        rw [zs]
        show Function.update y.shape ax (y.shape ax + w) = _
        rw [hys, ys, Function.update_idem]
        congr 1; omega
      · show z.data i = _
        have hzi := zd i hi0 (by show i ax < (y.shape ax : ℕ) + w; rw [hys]; push_cast; omega)
        have hyi : ∀ t : ℤ, t < u.shape ax + w → 0 ≤ t → y.data (Function.update i ax t) =
            if (u.shape ax : ℤ) ≤ t then
              if (bc.types ax).2 = .dirichlet then
                2 * (bc.constantValues ax).2 - u.data (Function.update i ax (2 * u.shape ax - 1 - t))
              else u.data (Function.update i ax (2 * u.shape ax - 1 - t)) + u.grid.step ax * (bc.constantValues ax).2
            else u.data (Function.update i ax t) := by
          intro t ht ht0
          have := yd (Function.update i ax t) (by simpa using ht)
          simp only [Function.update_self, Function.update_idem, if_pos ht0] at this
          exact this
        rw [hzi]
        unfold continued
        rw [if_neg hnp]
        simp only [Function.update_self, Function.update_idem]
        by_cases hlt : i ax < w
        · rw [if_pos hlt, if_pos (show i ax - (w : ℤ) < 0 by omega)]
          rw [hyi (w - 1 - i ax) (by omega) (by omega), if_neg (show ¬ (u.shape ax : ℤ) ≤ w - 1 - i ax by omega),
            show (w : ℤ) - 1 - i ax = -1 - (i ax - w) by ring]
        · rw [if_neg hlt, if_neg (by omega)]
          show y.data _ = _
          rw [hyi (i ax - w) (by omega) (by omega), hs]

end BC

/-- The conditions under which the subsampling of one axis is defined (and yields one value per coarse cell). -/
structure AxisOK (m n : ℕ) (o : ℚ) (F f : ℕ) : Prop where
  pos : 0 < m
  size : n = m * F
  factor : acceptableFilter F
  filter : acceptableFilter f
  le : F ≤ f
  factor_pos : 0 < F
  offset : f ≠ 1 → o = 0 ∨ o = 1 ∨ (o = 1 / 2 ∧ F ≠ 1)

theorem AxisOK.one {m n : ℕ} {o : ℚ} {F : ℕ} (h : AxisOK m n o F 1) : F = 1 := by
  have := h.le; have := h.factor_pos; omega

/-- The first entry taken and the number of entries taken. -/
theorem combSlice_ok {m n : ℕ} {o : ℚ} {F f : ℕ} (h : AxisOK m n o F f) :
    ∃ s, combSlice o F f (n + 2 * (f / 2) + 1 - f) = .ok s ∧ s.step = F ∧ s.len (n + 2 * (f / 2) + 1 - f) = m ∧
      ∀ i lo : ℤ, WindowAt o F f i lo → s.lo (n + 2 * (f / 2) + 1 - f) + i * F = lo + (f / 2 : ℕ) := by
  have hF := h.factor_pos
  have hm := h.pos
  by_cases hf1 : f = 1
  · subst hf1
    have hF1 := h.one
    subst hF1
    refine ⟨⟨some 0, none, 1⟩, rfl, rfl, ?_, ?_⟩
    · unfold PySlice.len PySlice.hi PySlice.lo clipBound
      simp only [Option.map_some, Option.map_none, Option.getD_none, Option.getD_some]
      have := h.size
      simp
      omega
    · intro i lo hw
      unfold WindowAt at hw
      rw [if_pos rfl] at hw
      subst hw
      unfold PySlice.lo clipBound
      simp
  · have hev : f % 2 = 0 := by rcases h.filter with h | h <;> [exact h; exact absurd h hf1]
    have hle := h.le
    have hgt : f > 1 := by omega
    have hn1 : n + 2 * (f / 2) + 1 - f = n + 1 := by omega
    have hfq : ((f / 2 : ℕ) : ℚ) = (f : ℚ) / 2 := by
      have : f = 2 * (f / 2) := by omega
      have h2 : (f : ℚ) = 2 * ((f / 2 : ℕ) : ℚ) := by exact_mod_cast this
      linarith
    have hn : (n : ℤ) = m * F := by exact_mod_cast h.size
    have hmF : (F : ℤ) ≤ n := by
      rw [hn]
      have : (1 : ℤ) ≤ m := by exact_mod_cast hm
      nlinarith [(show (0 : ℤ) ≤ F by omega)]
    rw [hn1]
    unfold combSlice
    rw [if_pos hgt]
    rcases h.offset hf1 with ho | ho | ⟨ho, hFne⟩
    · rw [if_pos ho]
      refine ⟨_, rfl, rfl, ?_, ?_⟩
      · unfold PySlice.len PySlice.hi PySlice.lo clipBound
        simp only [Option.map_some, Option.getD_some]
        have e1 : ¬ ((0 : ℤ) < 0) := by omega
        have e2 : ¬ (((n + 1 : ℕ) : ℤ) - 1 < 0) := by push_cast; omega
        rw [if_neg e1, if_neg e2]
        have e3 : max 0 (min ((n + 1 : ℕ) : ℤ) (((n + 1 : ℕ) : ℤ) - 1)) - max 0 (min ((n + 1 : ℕ) : ℤ) 0) = n := by
          push_cast; omega
        rw [e3, hn]
        have e4 : ((m : ℤ) * F + F - 1) / F = m := by
          rw [show ((m : ℤ) * F + F - 1) = (F - 1) + m * F by ring, Int.add_mul_ediv_right _ _ (by omega),
            Int.ediv_eq_zero_of_lt (by omega) (by omega), zero_add]
        rw [e4]; simp
      · intro i lo hw
        unfold WindowAt at hw
        rw [if_neg hf1, ho, ← hfq] at hw
        have hw' : lo = F * i - (f / 2 : ℕ) := by
          have : (lo : ℚ) = ((F * i - (f / 2 : ℕ) : ℤ) : ℚ) := by rw [hw]; simp only [Int.cast_sub, Int.cast_mul, Int.cast_natCast]; ring
          exact_mod_cast this
        have : PySlice.lo ⟨some 0, some (((n + 1 : ℕ) : ℤ) - 1), F⟩ (n + 1) = 0 := by
          unfold PySlice.lo clipBound
          simp
        rw [this, hw']; ring
    · rw [if_neg (by rw [ho]; norm_num), if_neg (by rw [ho]; norm_num), if_pos ho]
      have hlo : PySlice.lo ⟨some (F : ℤ), none, F⟩ (n + 1) = F := by
        unfold PySlice.lo clipBound
        simp only [Option.map_some, Option.getD_some]
        rw [if_neg (by omega)]
        push_cast; omega
      refine ⟨_, rfl, rfl, ?_, ?_⟩
      · unfold PySlice.len
        rw [hlo]
        have hhi : PySlice.hi ⟨some (F : ℤ), none, F⟩ (n + 1) = n + 1 := by
          unfold PySlice.hi
          simp
        rw [hhi]
        dsimp only
        rw [hn]
        have e4 : ((m : ℤ) * F + 1 - F + F - 1) / F = m := by
          rw [show ((m : ℤ) * F + 1 - F + F - 1) = m * F by ring, Int.mul_ediv_cancel _ (by omega)]
        rw [e4]; simp
      · intro i lo hw
        unfold WindowAt at hw
        rw [if_neg hf1, ho, ← hfq] at hw
        have hw' : lo = F * (i + 1) - (f / 2 : ℕ) := by
          have : (lo : ℚ) = ((F * (i + 1) - (f / 2 : ℕ) : ℤ) : ℚ) := by rw [hw]; simp only [Int.cast_sub, Int.cast_mul, Int.cast_add, Int.cast_natCast, Int.cast_one]
          exact_mod_cast this
        rw [hlo, hw']; ring
    · rw [if_neg (by rw [ho]; norm_num), if_pos ho]
      have hFe : F % 2 = 0 := by rcases h.factor with h | h <;> [exact h; exact absurd h hFne]
      have hFq : ((F / 2 : ℕ) : ℚ) = (F : ℚ) / 2 := by
        have : F = 2 * (F / 2) := by omega
        have h2 : (F : ℚ) = 2 * ((F / 2 : ℕ) : ℚ) := by exact_mod_cast this
        linarith
      have hlo : PySlice.lo ⟨some ((F / 2 : ℕ) : ℤ), none, F⟩ (n + 1) = (F / 2 : ℕ) := by
        unfold PySlice.lo clipBound
        simp only [Option.map_some, Option.getD_some]
        rw [if_neg (by omega)]
        push_cast; omega
      refine ⟨_, rfl, rfl, ?_, ?_⟩
      · unfold PySlice.len
        rw [hlo]
        have hhi : PySlice.hi ⟨some ((F / 2 : ℕ) : ℤ), none, F⟩ (n + 1) = n + 1 := by
          unfold PySlice.hi
          simp
        rw [hhi]
        dsimp only
        rw [hn]
        have e4 : ((m : ℤ) * F + 1 - (F / 2 : ℕ) + F - 1) / F = m := by
          rw [show ((m : ℤ) * F + 1 - (F / 2 : ℕ) + F - 1) = (F - (F / 2 : ℕ)) + m * F by ring,
            Int.add_mul_ediv_right _ _ (by omega),
            Int.ediv_eq_zero_of_lt (by omega) (by omega), zero_add]
        rw [e4]; simp
      · intro i lo hw
        unfold WindowAt at hw
        rw [if_neg hf1, ho, ← hfq] at hw
        have hw' : lo = F * i + (F / 2 : ℕ) - (f / 2 : ℕ) := by
          have : (lo : ℚ) = ((F * i + (F / 2 : ℕ) - (f / 2 : ℕ) : ℤ) : ℚ) := by
            rw [hw]; simp only [Int.cast_sub, Int.cast_mul, Int.cast_add, Int.cast_natCast]; rw [hFq]; ring
          exact_mod_cast this
        rw [hlo, hw']; ring

theorem PySlice.index_lt (s : PySlice) (n : ℕ) (i : ℤ) (h0 : 0 ≤ i) (h : i < s.len n) (hstep : 0 < s.step) :
    s.lo n + i * s.step < n := by
  have hhi : s.hi n ≤ n := by
    unfold PySlice.hi clipBound
    cases s.stop with
    | none => simp
    | some k => simp only [Option.map_some, Option.getD_some]; split_ifs <;> omega
  have h1 : i + 1 ≤ (s.hi n - s.lo n + s.step - 1) / (s.step : ℤ) := by
    unfold PySlice.len at h
    omega
  have h2 := (Int.le_ediv_iff_mul_le (by omega)).1 h1
  have : (i + 1) * (s.step : ℤ) = i * s.step + s.step := by ring
  omega

theorem topHatAxis_ok (bc : BC d K) (source destination : Grid d K) (offset : Fin d → ℚ) (factor filter : Fin d → ℕ)
    (u : GridArray d K) (ax : Fin d) (hs : u.shape ax = u.grid.shape ax)
    (h : AxisOK (destination.shape ax) (u.shape ax) (offset ax) (factor ax) (filter ax))
    (hp : bc.Paddable u ax (filter ax / 2)) :
    ∃ r, topHatAxis bc source destination offset factor filter u ax = .ok r ∧
      r.shape = Function.update u.shape ax (destination.shape ax) ∧
      r.offset = Function.update u.offset ax (offset ax) ∧
      r.grid = ⟨Function.update u.grid.shape ax (destination.shape ax), source.domain⟩ ∧
      ∀ (i : Idx d) (lo : ℤ), 0 ≤ i ax → i ax < destination.shape ax → WindowAt (offset ax) (factor ax) (filter ax) (i ax) lo →
        r.data i = ∑ k ∈ Finset.Ico (0 : ℤ) (filter ax), continued bc u ax (Function.update i ax (lo + k)) / (filter ax : K) := by
  have hN : 0 < u.grid.shape ax := by
    rw [← hs, h.size]
    exact Nat.mul_pos h.pos h.factor_pos
  obtain ⟨p, q, hp1, hq1, qs, qd⟩ := BC.pad_both bc u ax (filter ax / 2) hs hN hp
  obtain ⟨s, hs1, hstep, hlen, hlo⟩ := combSlice_ok h
  have hshape : (movingAverage q.toNArr ax (filter ax)).shape ax = u.shape ax + 2 * (filter ax / 2) + 1 - filter ax := by
    unfold movingAverage
    dsimp only
    rw [Function.update_self, show q.toNArr.shape = _ from qs, Function.update_self]
  unfold topHatAxis
  rw [hp1]
  simp only [Except.bind_ok]
  rw [hq1]
  simp only [Except.bind_ok]
  rw [hshape, hs1]
  refine ⟨_, rfl, ?_, rfl, rfl, fun i lo h0 h1 hw => ?_⟩
  · show (sliceAx _ _ _).shape = _
    unfold sliceAx
    dsimp only
    rw [hshape, hlen]
    unfold movingAverage
    dsimp only
    rw [show q.toNArr.shape = _ from qs]
    simp only [Function.update_idem]
  · show (sliceAx _ _ _).data i = _
    unfold sliceAx
    dsimp only
    rw [hshape]
    unfold movingAverage
    dsimp only
    refine Finset.sum_congr rfl fun k hk => ?_
    rw [Finset.mem_Ico] at hk
    have hcomb := hlo (i ax) lo hw
    rw [hstep]
    simp only [Function.update_self, Function.update_idem]
    -- the window lies in the padded array
    have hfil : filter ax = 1 ∨ filter ax = 2 * (filter ax / 2) := by
      rcases h.filter with h | h <;> omega
    have hlen' : s.lo (u.shape ax + 2 * (filter ax / 2) + 1 - filter ax) + i ax * (factor ax : ℤ) ≤
        (u.shape ax : ℤ) + 2 * (filter ax / 2 : ℕ) - filter ax := by
      have := s.index_lt _ (i ax) h0 (by rw [hlen]; exact h1) (by rw [hstep]; exact h.factor_pos)
      rw [hstep] at this
      omega
    have hlo0 : 0 ≤ s.lo (u.shape ax + 2 * (filter ax / 2) + 1 - filter ax) := by
      unfold PySlice.lo clipBound
      cases s.start <;> simp
    have hpos : 0 ≤ i ax * (factor ax : ℤ) := by positivity
    rw [qd _ (by simp only [Function.update_self]; omega) (by simp only [Function.update_self]; omega)]
    simp only [Function.update_self, Function.update_idem]
    rw [hcomb]
    congr 3
    ring

/-- The window of an axis can be read off the array: the axis is periodic, or the window lies inside. -/
def WindowIn (bc : BC d K) (ax : Fin d) (n f : ℕ) (lo : ℤ) : Prop :=
  bc.types ax = (.periodic, .periodic) ∨ (0 ≤ lo ∧ lo + f ≤ n)

theorem continued_inside (bc : BC d K) (u : GridArray d K) (ax : Fin d) (hs : u.shape ax = u.grid.shape ax) (f : ℕ) (lo k : ℤ)
    (h : WindowIn bc ax (u.shape ax) f lo) (h0 : 0 ≤ k) (h1 : k < f) (i : Idx d) :
    continued bc u ax (Function.update i ax (lo + k)) = u.data (Function.update i ax ((lo + k) % (u.shape ax : ℤ))) := by
  unfold continued
  simp only [Function.update_self, Function.update_idem]
  by_cases hper : bc.types ax = (.periodic, .periodic)
  · rw [if_pos hper, hs]
  · rcases h with h | h
    · exact absurd h hper
    · rw [if_neg hper, if_neg (by omega), if_neg (by omega), Int.emod_eq_of_lt (by omega) (by omega)]

theorem topHat_fold (bc : BC d K) (source destination : Grid d K) (offset : Fin d → ℚ) (factor filter : Fin d → ℕ) :
    ∀ (l : List (Fin d)) (u : GridArray d K), l.Nodup → (∀ a ∈ l, u.shape a = u.grid.shape a) →
    (∀ a ∈ l, AxisOK (destination.shape a) (u.shape a) (offset a) (factor a) (filter a)) →
    (∀ a ∈ l, bc.Paddable u a (filter a / 2)) →
    ∃ r, l.foldlM (topHatAxis bc source destination offset factor filter) u = .ok r ∧
      (∀ a, r.shape a = if a ∈ l then destination.shape a else u.shape a) ∧
      (∀ a, r.offset a = if a ∈ l then offset a else u.offset a) ∧
      (∀ a, r.grid.shape a = if a ∈ l then destination.shape a else u.grid.shape a) ∧
      (r.grid.domain = if l = [] then u.grid.domain else source.domain) ∧
      ∀ i lo : Idx d, (∀ a ∈ l, 0 ≤ i a ∧ i a < destination.shape a) →
        (∀ a ∈ l, WindowAt (offset a) (factor a) (filter a) (i a) (lo a)) →
        (∀ a ∈ l, WindowIn bc a (u.shape a) (filter a) (lo a)) →
        r.data i = (∑ k ∈ box (fun a => if a ∈ l then filter a else 1),
          u.data fun a => if a ∈ l then (lo a + k a) % (u.shape a : ℤ) else i a) / (l.map fun a => (filter a : K)).prod := by
  intro l
  induction l with
  | nil =>
    intro u _ _ _ _
    refine ⟨u, rfl, by simp, by simp, by simp, by simp, fun i lo _ _ _ => ?_⟩
    have hb : ∀ F : Idx d → K, (∀ k, F k = F 0) → ∑ k ∈ box (fun _ : Fin d => 1), F k = F 0 := by
      intro F hF
      rw [Finset.sum_congr rfl (fun k _ => hF k), Finset.sum_const]
      have : (box (fun _ : Fin d => 1)).card = 1 := by
        unfold box
        rw [Fintype.card_piFinset]
        simp
      rw [this, one_nsmul]
    simp only [List.not_mem_nil, if_false, List.map_nil, List.prod_nil, div_one]
    rw [hb _ (fun _ => rfl)]
  | cons a l ih =>
    intro u hnd hs hok hp
    have hal : a ∉ l := (List.nodup_cons.1 hnd).1
    have hne : ∀ b ∈ l, b ≠ a := fun b hb e => hal (e ▸ hb)
    obtain ⟨u1, e1, s1, o1, g1, d1⟩ := topHatAxis_ok bc source destination offset factor filter u a
      (hs a (List.mem_cons_self ..)) (hok a (List.mem_cons_self ..)) (hp a (List.mem_cons_self ..))
    have s1' : ∀ b ∈ l, u1.shape b = u.shape b := fun b hb => by rw [s1, Function.update_of_ne (hne b hb)]
    have o1' : ∀ b ∈ l, u1.offset b = u.offset b := fun b hb => by rw [o1, Function.update_of_ne (hne b hb)]
    have g1' : ∀ b ∈ l, u1.grid.shape b = u.grid.shape b := fun b hb => by
      rw [g1]; dsimp only; rw [Function.update_of_ne (hne b hb)]
    obtain ⟨r, e2, s2, o2, g2, dom2, d2⟩ := ih u1 (List.nodup_cons.1 hnd).2
      (fun b hb => by rw [s1' b hb, g1' b hb]; exact hs b (List.mem_cons_of_mem _ hb))
      (fun b hb => by rw [s1' b hb]; exact hok b (List.mem_cons_of_mem _ hb))
      (fun b hb => by
        have := hp b (List.mem_cons_of_mem _ hb)
        unfold BC.Paddable at this ⊢
        rw [o1' b hb, g1' b hb]
        exact this)
    refine ⟨r, ?_, ?_, ?_, ?_, ?_, ?_⟩
    · rw [List.foldlM_cons, e1, Except.bind_ok]; exact e2
    · intro b
      rw [s2 b, s1]
      by_cases hb : b = a
      · subst hb; simp [hal]
      · simp [hb]
    · intro b
      rw [o2 b, o1]
      by_cases hb : b = a
      · subst hb; simp [hal]
      · simp [hb]
    · intro b
      rw [g2 b, g1]
      by_cases hb : b = a
      · subst hb; simp [hal]
      · simp [hb]
    · rw [dom2, g1]; simp
    · intro i lo hi hw hin
      have hia := hi a (List.mem_cons_self ..)
      rw [d2 i lo (fun b hb => hi b (List.mem_cons_of_mem _ hb)) (fun b hb => hw b (List.mem_cons_of_mem _ hb))
        (fun b hb => by rw [s1' b hb]; exact hin b (List.mem_cons_of_mem _ hb))]
      rw [sum_box_split (fun b => if b ∈ a :: l then filter b else 1) a]
      have hbox : Function.update (fun b => if b ∈ a :: l then filter b else 1) a 1 = fun b => if b ∈ l then filter b else 1 := by
        funext b
        by_cases hb : b = a
        · subst hb; simp [hal]
        · simp [hb]
      rw [hbox, if_pos (List.mem_cons_self ..), List.map_cons, List.prod_cons, ← div_div]
      congr 1
      rw [Finset.sum_div]
      refine Finset.sum_congr rfl fun k hk => ?_
      rw [d1 _ (lo a) (by rw [if_neg hal]; exact hia.1) (by rw [if_neg hal]; exact hia.2)
        (by rw [if_neg hal]; exact hw a (List.mem_cons_self ..)), Finset.sum_div]
      refine Finset.sum_congr rfl fun t ht => ?_
      rw [Finset.mem_Ico] at ht
      congr 1
      rw [continued_inside bc u a (hs a (List.mem_cons_self ..)) (filter a) (lo a) t (hin a (List.mem_cons_self ..)) ht.1 ht.2]
      congr 1
      funext b
      by_cases hb : b = a
      · subst hb; simp
      · rw [Function.update_of_ne hb]
        by_cases hbl : b ∈ l
        · simp [hbl, hb, s1' b hbl]
        · simp [hbl, hb]

end JaxCfd
